import Verif.Spec.MbsCmd
/-!
# Lemmas about the workers sending commands to MBS
-/

namespace Verif.MbsCmd
open Verif.Bytes

theorem cstr_id {t : List Byte} (h : NoNul t) : cstr t = t := by
  have := List.takeWhile_append_of_pos (p := fun x : Byte => x != 0) (l₁ := t) (l₂ := []) (by
    intro b hb
    simp only [bne_iff_ne, ne_eq]
    rintro rfl
    exact h hb)
  simpa [cstr] using this

theorem cstr_length (t : List Byte) : (cstr t).length ≤ t.length :=
  List.Sublist.length_le (List.takeWhile_sublist _)

theorem takeWhile_zero {t : List Byte} (h : NoNul t) (l : List Byte) :
    (t ++ 0 :: l).takeWhile (· != 0) = t := by
  rw [List.takeWhile_append_of_pos]
  · simp
  · intro b hb
    simp only [bne_iff_ne, ne_eq]
    rintro rfl
    exact h hb

theorem nonul_append {a b : List Byte} (ha : NoNul a) (hb : NoNul b) : NoNul (a ++ b) := by
  intro h
  rcases List.mem_append.1 h with h | h
  · exact ha h
  · exact hb h

theorem rem_shape (i : Nat) (t : List Byte) :
    ∃ w, remRecord i t = enc 4 1 ++ (enc 4 i ++ (enc 4 0 ++ w)) ∧
      w = (cstr t).take 511 ++ List.replicate (512 - ((cstr t).take 511).length) 0 := by
  refine ⟨_, ?_, rfl⟩
  simp [remRecord, List.append_assoc]

theorem textIn_rem {t : List Byte} (h : NoNul t) (hl : t.length ≤ 510) (i : Nat) :
    textIn .rem (remRecord i t) = t := by
  obtain ⟨w, e, hw⟩ := rem_shape i t
  rw [cstr_id h, List.take_of_length_le (by omega)] at hw
  have e2 : (remRecord i t).drop 12 = w := by
    rw [e, ← List.append_assoc, ← List.append_assoc]
    exact List.drop_left' (by simp)
  show ((remRecord i t).drop 12).takeWhile (· != 0) = t
  rw [e2, hw]
  have e3 : 512 - t.length = (511 - t.length) + 1 := by omega
  rw [e3, List.replicate_succ]
  exact takeWhile_zero h _

theorem rem_length (i : Nat) (t : List Byte) : (remRecord i t).length = 524 := by
  obtain ⟨w, e, hw⟩ := rem_shape i t
  rw [e, hw]
  simp only [List.length_append, enc_length, List.length_replicate, List.length_take]
  omega

theorem idIn_rem {i : Nat} (h : i < 256 ^ 4) (t : List Byte) : idIn (remRecord i t) = i := by
  obtain ⟨w, e, hw⟩ := rem_shape i t
  unfold idIn
  rw [e, List.drop_left' (by simp), List.take_left' (by simp), dec_enc_of_lt h]

theorem textIn_prompter {pfx t : List Byte} (hp : NoNul pfx) (h : NoNul t) (old : List Byte) :
    textIn (.prompter pfx) (prompterBuf old pfx t) = pfx ++ t := by
  unfold textIn prompterBuf
  rw [cstr_id hp, cstr_id h]
  simp only [List.append_assoc, List.cons_append, List.nil_append]
  have := takeWhile_zero (nonul_append hp h) (old.drop (pfx ++ (t ++ [0])).length)
  simpa using this

theorem prompter_length {pfx t old : List Byte} (ho : old.length = 256)
    (h : pfx.length + t.length ≤ 255) : (prompterBuf old pfx t).length = 256 := by
  unfold prompterBuf
  have h1 : (cstr pfx).length ≤ pfx.length := cstr_length _
  have h2 : (cstr t).length ≤ t.length := cstr_length _
  simp only [List.length_append, List.length_drop, List.length_singleton]
  omega

theorem tooLong_iff {P : Proto} (hP : ∀ pfx, P = .prompter pfx → pfx.length ≤ 256) (c : Cmd) :
    tooLong P c.text = false ↔ Fits P c := by
  cases P with
  | rem => simp only [tooLong, Fits, decide_eq_false_iff_not]; omega
  | prompter pfx =>
    have := hP pfx rfl
    simp only [tooLong, Fits, if_pos this, decide_eq_false_iff_not]
    omega

/-! ## Numbers in received records -/

def chunk (r : List Byte) (k : Nat) : List Byte := (r.drop (4 * k)).take 4

theorem chunk_length {r : List Byte} {k : Nat} (h : 4 * k + 4 ≤ r.length) : (chunk r k).length = 4 := by
  simp only [chunk, List.length_take, List.length_drop]
  omega

theorem enc_inj4 {l : List Byte} (hl : l.length = 4) {v : Nat} (hv : v < 256 ^ 4) :
    l = enc 4 v ↔ dec l = v := by
  constructor
  · rintro rfl; exact dec_enc_of_lt hv
  · rintro rfl
    have := enc_dec l
    rw [hl] at this
    exact this.symm

theorem wire_iff {l : List Byte} (hl : l.length = 4) {v : Nat} (hv : v < 256 ^ 4) (big : Bool) :
    l = wire big v ↔ (if big then dec l.reverse else dec l) = v := by
  cases big with
  | false => simpa [wire] using enc_inj4 hl hv
  | true =>
    simp only [wire, if_true]
    rw [← enc_inj4 (l := l.reverse) (by simpa using hl) hv]
    constructor
    · rintro rfl; simp
    · intro h; rw [← h]; simp

theorem wire_length (big : Bool) (v : Nat) : (wire big v).length = 4 := by
  cases big <;> simp [wire]

theorem append_inj4 {a b c d : List Byte} (h : a.length = c.length) : a ++ b = c ++ d ↔ a = c ∧ b = d :=
  ⟨fun e => List.append_inj e h, fun ⟨e, f⟩ => by rw [e, f]⟩

theorem take12 {r : List Byte} : r.take 12 = chunk r 0 ++ chunk r 1 ++ chunk r 2 := by
  have e1 : r.take 12 = r.take (4 + (4 + 4)) := rfl
  rw [e1, List.take_add, List.take_add, ← List.append_assoc]
  simp [chunk]

theorem take8 {r : List Byte} : r.take 8 = chunk r 0 ++ chunk r 1 := by
  have e1 : r.take 8 = r.take (4 + 4) := rfl
  rw [e1, List.take_add]
  simp [chunk]

theorem remReply_iff {r : List Byte} (hr : r.length = 524) {id st : Nat} (hi : id < 256 ^ 4)
    (hs : st < 256 ^ 4) : RemReply r id st ↔
      (word r 0 = 1 ∧ word r 1 = id ∧ word r 2 = st) ∨
      (swapped r 0 = 1 ∧ swapped r 1 = id ∧ swapped r 2 = st) := by
  have h0 := chunk_length (r := r) (k := 0) (by omega)
  have h1 := chunk_length (r := r) (k := 1) (by omega)
  have h2 := chunk_length (r := r) (k := 2) (by omega)
  have key : ∀ big, r.take 12 = wire big 1 ++ wire big id ++ wire big st ↔
      chunk r 0 = wire big 1 ∧ chunk r 1 = wire big id ∧ chunk r 2 = wire big st := by
    intro big
    rw [take12, append_inj4 (by simp [h0, h1, wire_length]), append_inj4 (by simp [h0, wire_length]), and_assoc]
  unfold RemReply
  constructor
  · rintro ⟨big, h⟩
    rw [key, wire_iff h0 (by decide), wire_iff h1 hi, wire_iff h2 hs] at h
    cases big with
    | false => exact Or.inl h
    | true => exact Or.inr h
  · rintro (h | h)
    · refine ⟨false, ?_⟩
      rw [key, wire_iff h0 (by decide), wire_iff h1 hi, wire_iff h2 hs]
      exact h
    · refine ⟨true, ?_⟩
      rw [key, wire_iff h0 (by decide), wire_iff h1 hi, wire_iff h2 hs]
      exact h

theorem prompterReply_iff {r : List Byte} (hr : r.length = 8) {st : Nat} (hs : st < 256 ^ 4) :
    PrompterReply r st ↔ (word r 0 = 1 ∧ word r 1 = st) ∨ (swapped r 0 = 1 ∧ swapped r 1 = st) := by
  have h0 := chunk_length (r := r) (k := 0) (by omega)
  have h1 := chunk_length (r := r) (k := 1) (by omega)
  have key : ∀ big, r.take 8 = wire big 1 ++ wire big st ↔
      chunk r 0 = wire big 1 ∧ chunk r 1 = wire big st := by
    intro big
    rw [take8, append_inj4 (by simp [h0, wire_length])]
  unfold PrompterReply
  constructor
  · rintro ⟨big, h⟩
    rw [key, wire_iff h0 (by decide), wire_iff h1 hs] at h
    cases big with
    | false => exact Or.inl h
    | true => exact Or.inr h
  · rintro (h | h)
    · refine ⟨false, ?_⟩
      rw [key, wire_iff h0 (by decide), wire_iff h1 hs]
      exact h
    · refine ⟨true, ?_⟩
      rw [key, wire_iff h0 (by decide), wire_iff h1 hs]
      exact h

/-- A record cannot carry the mark in both byte orders. -/
theorem mark_once {r : List Byte} (hr : 4 ≤ r.length) (h : word r 0 = 1) : swapped r 0 ≠ 1 := by
  have h0 := chunk_length (r := r) (k := 0) (by omega)
  have e : chunk r 0 = enc 4 1 := (enc_inj4 h0 (by decide)).2 h
  intro h'
  have : dec (chunk r 0).reverse = 1 := h'
  rw [e] at this
  revert this
  decide

theorem word_lt (r : List Byte) (k : Nat) : word r k < 256 ^ 4 := by
  have h := dec_lt ((r.drop (4 * k)).take 4)
  exact Nat.lt_of_lt_of_le h (Nat.pow_le_pow_right (by decide) (by simp; omega))

theorem swapped_lt (r : List Byte) (k : Nat) : swapped r k < 256 ^ 4 := by
  have h := dec_lt ((r.drop (4 * k)).take 4).reverse
  exact Nat.lt_of_lt_of_le h (Nat.pow_le_pow_right (by decide) (by simp; omega))

/-- Reading of a reply of MBS. -/
theorem judge_rem {r : List Byte} (hr : r.length = 524) (i : Nat) :
    (∃ id st, id < 256 ^ 4 ∧ st < 256 ^ 4 ∧ RemReply r id st ∧
      judge .rem i r = if id = 0xffffffff then none else some (decide (st = 0 ∧ i = id))) ∨
    ((∀ id st, id < 256 ^ 4 → st < 256 ^ 4 → ¬ RemReply r id st) ∧ judge .rem i r = none) := by
  by_cases h0 : word r 0 = 1
  · left
    refine ⟨word r 1, word r 2, word_lt _ _, word_lt _ _,
      (remReply_iff hr (word_lt _ _) (word_lt _ _)).2 (Or.inl ⟨h0, rfl, rfl⟩), ?_⟩
    unfold judge
    simp only [if_pos h0]
    rw [if_neg (by rw [h0]; decide)]
  · by_cases h1 : swapped r 0 = 1
    · left
      refine ⟨swapped r 1, swapped r 2, swapped_lt _ _, swapped_lt _ _,
        (remReply_iff hr (swapped_lt _ _) (swapped_lt _ _)).2 (Or.inr ⟨h1, rfl, rfl⟩), ?_⟩
      unfold judge
      simp only [if_neg h0]
      rw [if_neg (by rw [h1]; decide)]
    · right
      constructor
      · intro id st hi hs h
        rcases (remReply_iff hr hi hs).1 h with h | h
        · exact h0 h.1
        · exact h1 h.1
      · simp only [judge, if_neg h0, ne_eq, h1, not_false_eq_true, if_true]

/-- A reply is read in one way only. -/
theorem remReply_unique {r : List Byte} (hr : r.length = 524) {id st id' st' : Nat}
    (h1 : id < 256 ^ 4) (h2 : st < 256 ^ 4) (h3 : id' < 256 ^ 4) (h4 : st' < 256 ^ 4)
    (h : RemReply r id st) (h' : RemReply r id' st') : id = id' ∧ st = st' := by
  have hm := fun e => mark_once (r := r) (by omega) e
  rcases (remReply_iff hr h1 h2).1 h with a | a <;> rcases (remReply_iff hr h3 h4).1 h' with b | b
  · exact ⟨a.2.1.symm.trans b.2.1, a.2.2.symm.trans b.2.2⟩
  · exact absurd b.1 (hm a.1)
  · exact absurd a.1 (hm b.1)
  · exact ⟨a.2.1.symm.trans b.2.1, a.2.2.symm.trans b.2.2⟩

theorem judge_prompter {r : List Byte} (hr : r.length = 8) (pfx : List Byte) (i : Nat) :
    ∃ b, judge (.prompter pfx) i r = some b ∧ (b = true ↔ PrompterReply r 0) := by
  refine ⟨_, rfl, ?_⟩
  rw [decide_eq_true_iff, prompterReply_iff hr (by decide)]
  by_cases h0 : word r 0 = 1
  · rw [if_pos h0]
    constructor
    · exact Or.inl
    · rintro (h | h)
      · exact h
      · exact absurd h.1 (mark_once (by omega) h0)
  · rw [if_neg h0]
    constructor
    · exact Or.inr
    · rintro (h | h)
      · exact absurd h.1 h0
      · exact h

/-! ## Invariant -/

structure Inv (P : Proto) (s : St) (subs : List Cmd) : Prop where
  order : s.replies.map (·.1) ++ s.cmds = subs
  wait : s.wait = true → s.cmds ≠ []
  fit : s.wait = true → ∀ c ∈ s.cmds.head?, Fits P c
  conn : s.wait = true → s.conn = true
  sent : s.sent.map (textIn P) =
    ((s.replies.map (·.1) ++ if s.wait then s.cmds.take 1 else []).filter (Fits P)).map (expected P)
  long : ∀ p ∈ s.replies, ¬ Fits P p.1 → p.2 = false
  buf : s.buf.length = 256
  ub : s.ub = false

theorem inv_sendNext {P : Proto} {subs : List Cmd} (hg : Good P subs) :
    ∀ (l : List Cmd) (s : St), s.wait = false → s.conn = true → Inv P { s with cmds := l } subs →
      Inv P (sendNext P s l) subs := by
  intro l
  induction l with
  | nil => intro s _ _ hi; exact hi
  | cons c l ih =>
    intro s hw hc hi
    have hlen : ∀ pfx, P = .prompter pfx → pfx.length ≤ 256 := fun p e => (hg.pfx p e).2
    have hmem : c ∈ subs := by
      rw [← hi.order]; simp
    have hsent := hi.sent
    simp only [hw] at hsent
    simp only [Bool.false_eq_true, if_false, List.append_nil] at hsent
    cases ht : tooLong P c.text with
    | true =>
      rw [sendNext, if_pos ht]
      have hnf : ¬ Fits P c := by
        intro h
        rw [(tooLong_iff hlen c).2 h] at ht
        cases ht
      apply ih
      · exact hw
      · exact hc
      · refine ⟨?_, ?_, ?_, ?_, ?_, ?_, hi.buf, hi.ub⟩
        · rw [← hi.order]; simp
        · intro h; rw [show s.wait = true from h] at hw; cases hw
        · intro h; rw [show s.wait = true from h] at hw; cases hw
        · intro h; rw [show s.wait = true from h] at hw; cases hw
        · simp only [hw, Bool.false_eq_true, if_false, List.append_nil, List.map_append,
            List.filter_append, hsent]
          simp [hnf]
        · intro p hp hf
          rcases List.mem_append.1 hp with h | h
          · exact hi.long p h hf
          · rw [List.mem_singleton.1 h]
    | false =>
      have hf : Fits P c := (tooLong_iff hlen c).1 ht
      rw [sendNext, if_neg (by rw [ht]; decide)]
      cases P with
      | rem =>
        unfold send
        dsimp only
        refine ⟨hi.order, by simp, ?_, fun _ => hc, ?_, hi.long, hi.buf, hi.ub⟩
        · intro _ c' h; cases h; exact hf
        · simp only [List.map_append, hsent, if_true, List.take_succ_cons, List.take_zero, List.filter_append]
          rw [List.map_singleton, textIn_rem (hg.texts c hmem) hf]
          simp [hf, expected]
      | prompter pfx =>
        have hb := prompter_length (t := c.text) hi.buf hf
        unfold send
        dsimp only
        refine ⟨hi.order, by simp, ?_, fun _ => hc, ?_, hi.long, hb, ?_⟩
        · intro _ c' h; cases h; exact hf
        · simp only [List.map_append, hsent, if_true, List.take_succ_cons, List.take_zero, List.filter_append]
          rw [List.map_singleton, textIn_prompter (hg.pfx pfx rfl).1 (hg.texts c hmem)]
          simp [hf, expected]
        · have h1 := hi.ub
          simp only at h1 hb
          simp only [h1, hb, Bool.false_or, decide_eq_false_iff_not]
          omega

theorem inv_next {P : Proto} {subs : List Cmd} (hg : Good P subs) {s : St} (hi : Inv P s subs) :
    Inv P (next P s) subs := by
  unfold next
  split
  · exact hi
  · rename_i hw
    split
    · exact hi
    · split
      · exact ⟨hi.order, hi.wait, hi.fit, hi.conn, hi.sent, hi.long, hi.buf, hi.ub⟩
      · rename_i hc
        exact inv_sendNext hg s.cmds s (by simpa using hw) (by simpa using hc) hi

theorem inv_answer {P : Proto} {subs : List Cmd} {s : St} (hi : Inv P s subs) (hw : s.wait = true)
    (b : Bool) : Inv P (answer s b) subs := by
  unfold answer
  have h0 := hi.wait hw
  have hsent := hi.sent
  have hfit := hi.fit hw
  split
  · exact hi
  · rename_i c l e
    have hf := hfit c (by rw [e]; rfl)
    refine ⟨?_, by simp, by simp, by simp, ?_, ?_, hi.buf, hi.ub⟩
    · rw [← hi.order, e]; simp
    · simp only [hw, e, if_true, List.take_succ_cons, List.take_zero] at hsent
      simp only [hsent, Bool.false_eq_true, if_false, List.append_nil, List.map_append, List.map_singleton]
    · intro p hp hn
      rcases List.mem_append.1 hp with h | h
      · exact hi.long p h hn
      · rw [List.mem_singleton.1 h] at hn; exact absurd hf hn

theorem inv_mono {P : Proto} {s : St} {subs : List Cmd} (hi : Inv P s subs) (b : Bool) (t : Bool)
    (h : s.wait = true → b = true) : Inv P { s with conn := b, timer := t } subs :=
  ⟨hi.order, hi.wait, hi.fit, h, hi.sent, hi.long, hi.buf, hi.ub⟩

theorem submitted_append (a b : List Op) : submitted (a ++ b) = submitted a ++ submitted b := by
  induction a with
  | nil => rfl
  | cons o a ih => cases o <;> simp [submitted, ih]

theorem inv_step {P : Proto} {s : St} {subs : List Cmd} {o : Op} (hg : Good P (subs ++ submitted [o]))
    (hx : s.exited = false) (hi : Inv P s subs) : Inv P (step P s o) (subs ++ submitted [o]) := by
  unfold step
  rw [if_neg (by rw [hx]; decide)]
  have e0 : ∀ o, submitted [o] = [] → subs ++ submitted [o] = subs := fun o h => by rw [h, List.append_nil]
  cases o with
  | submit c =>
    apply inv_next hg
    refine ⟨?_, ?_, ?_, hi.conn, ?_, hi.long, hi.buf, hi.ub⟩
    · rw [← hi.order]; simp [submitted]
    · simp
    · intro hw c' hc'
      have hne := hi.wait hw
      apply hi.fit hw
      cases hcm : s.cmds with
      | nil => exact absurd hcm hne
      | cons a l => simp only [hcm] at hc'; exact hc'
    · simp only [hi.sent]
      cases hw : s.wait with
      | false => simp
      | true =>
        have hne := hi.wait hw
        cases hcm : s.cmds with
        | nil => exact absurd hcm hne
        | cons a l => simp
  | sendInfo => rw [e0 _ rfl]; exact hi
  | recv r =>
    rw [e0 _ rfl]
    have h1 : Inv P (received P s r) subs := by
      unfold received
      split
      · rename_i hw
        split
        · exact inv_answer hi hw _
        · exact hi
      · exact hi
    dsimp only
    split
    · exact h1
    · exact ⟨h1.order, h1.wait, h1.fit, h1.conn, h1.sent, h1.long, h1.buf, h1.ub⟩
  | close =>
    rw [e0 _ rfl]
    dsimp only
    split
    · rename_i hw
      have h1 := inv_answer hi hw false
      have hne := hi.wait hw
      unfold answer at h1 ⊢
      dsimp only
      cases hcm : s.cmds with
      | nil => exact absurd hcm hne
      | cons a l =>
        rw [hcm] at h1
        exact ⟨h1.order, h1.wait, h1.fit, (fun h => by cases h), h1.sent, h1.long, h1.buf, h1.ub⟩
    · rename_i hw
      exact inv_mono hi _ _ (fun h => absurd h hw)
  | timeout ok =>
    rw [e0 _ rfl]
    rw [e0 _ rfl] at hg
    dsimp only
    split
    · exact hi
    · split
      · exact inv_next hg (inv_mono hi _ _ (fun _ => rfl))
      · exact hi

theorem exited_step {P : Proto} {s : St} (o : Op) (h : s.exited = true) : step P s o = s := by
  unfold step; rw [if_pos h]

theorem run_snoc (P : Proto) (s : St) (ops : List Op) (o : Op) :
    run P s (ops ++ [o]) = step P (run P s ops) o := by
  simp [run, List.foldl_append]

theorem good_left {P : Proto} {a b : List Cmd} (h : Good P (a ++ b)) : Good P a :=
  ⟨h.pfx, fun c hc => h.texts c (List.mem_append_left _ hc)⟩

theorem inv_run {P : Proto} (ok : Bool) {buf : List Byte} (hb : buf.length = 256) :
    ∀ (n : Nat) (ops : List Op), ops.length = n → Good P (submitted ops) →
      (run P (init ok buf) ops).exited = false → Inv P (run P (init ok buf) ops) (submitted ops) := by
  intro n
  induction n with
  | zero =>
    intro ops h _ _
    rw [List.length_eq_zero_iff.1 h]
    exact ⟨rfl, by simp [run, init], by simp [run, init], by simp [run, init], by simp [run, init],
      by simp [run, init], hb, rfl⟩
  | succ n ih =>
    intro ops hl hg hx
    rcases List.eq_nil_or_concat ops with rfl | ⟨a, o, rfl⟩
    · simp at hl
    · rw [List.concat_eq_append] at *
      rw [submitted_append] at hg ⊢
      rw [run_snoc] at hx ⊢
      have hx' : (run P (init ok buf) a).exited = false := by
        cases h : (run P (init ok buf) a).exited with
        | false => rfl
        | true => rw [exited_step o h, h] at hx; cases hx
      exact inv_step hg hx' (ih a (by simpa using hl) (good_left hg) hx')

/-! ## Numbers of commands -/

structure IdInv (s : St) : Prop where
  next : s.sendId = s.sent.length % 0x7fff0000 + 1
  ids : ∀ (i : Nat) (r : List Byte), s.sent[i]? = some r → idIn r = (i + 1) % 0x7fff0000 + 1

theorem id_sendNext : ∀ (l : List Cmd) (s : St), IdInv s → IdInv (sendNext .rem s l) := by
  intro l
  induction l with
  | nil => intro s h; exact ⟨h.next, h.ids⟩
  | cons c l ih =>
    intro s h
    rw [sendNext]
    split
    · exact ih _ ⟨h.next, h.ids⟩
    · have hn : nextId s.sendId = (s.sent.length + 1) % 0x7fff0000 + 1 := by
        have := h.next
        unfold nextId
        split <;> omega
      unfold send
      dsimp only
      refine ⟨?_, ?_⟩
      · simp only [List.length_append, List.length_singleton]
        exact hn
      · intro i r hr
        rcases Nat.lt_or_ge i s.sent.length with hi | hi
        · rw [List.getElem?_append_left hi] at hr
          exact h.ids i r hr
        · rw [List.getElem?_append_right hi] at hr
          rcases Nat.eq_zero_or_pos (i - s.sent.length) with h0 | h0
          · rw [h0] at hr
            simp only [List.getElem?_cons_zero, Option.some.injEq] at hr
            rw [← hr, idIn_rem (by rw [hn]; omega), hn]
            have : i = s.sent.length := by omega
            rw [this]
          · rw [List.getElem?_eq_none (by simp; omega)] at hr
            cases hr

theorem id_next {s : St} (h : IdInv s) : IdInv (next .rem s) := by
  unfold next
  split
  · exact h
  · split
    · exact h
    · split
      · exact ⟨h.next, h.ids⟩
      · exact id_sendNext _ _ h

theorem id_answer {s : St} (h : IdInv s) (b : Bool) : IdInv (answer s b) := by
  unfold answer
  split
  · exact h
  · exact ⟨h.next, h.ids⟩

theorem id_step {s : St} (h : IdInv s) (o : Op) : IdInv (step .rem s o) := by
  unfold step
  split
  · exact h
  · cases o with
    | submit c => exact id_next ⟨h.next, h.ids⟩
    | sendInfo => exact h
    | recv r =>
      have h1 : IdInv (received .rem s r) := by
        unfold received
        split
        · split
          · exact id_answer h _
          · exact h
        · exact h
      dsimp only
      split
      · exact h1
      · exact ⟨h1.next, h1.ids⟩
    | close =>
      dsimp only
      split
      · exact id_answer (s := { s with conn := false, timer := true }) ⟨h.next, h.ids⟩ _
      · exact ⟨h.next, h.ids⟩
    | timeout ok =>
      dsimp only
      split
      · exact h
      · split
        · exact id_next ⟨h.next, h.ids⟩
        · exact h

theorem id_run (ok : Bool) (buf : List Byte) (ops : List Op) : IdInv (run .rem (init ok buf) ops) := by
  have : ∀ (ops : List Op) (s : St), IdInv s → IdInv (run .rem s ops) := by
    intro ops
    induction ops with
    | nil => intro s h; exact h
    | cons o l ih => intro s h; exact ih _ (id_step h o)
  exact this ops _ ⟨rfl, by simp [init]⟩

/-! ## Connection -/

/-- A reply is expected only while there is a connection, and after a record was sent. -/
structure ConnInv (s : St) : Prop where
  conn : s.wait = true → s.conn = true
  sent : s.wait = true → s.sent ≠ []
  cmds : s.wait = true → s.cmds ≠ []

theorem send_fields (P : Proto) (s : St) (t : List Byte) :
    (send P s t).conn = s.conn ∧ (send P s t).wait = true ∧ (send P s t).cmds = s.cmds ∧
    (send P s t).exited = s.exited ∧ (send P s t).replies = s.replies ∧ (send P s t).timer = s.timer ∧
    (send P s t).sent ≠ [] := by
  cases P <;> simp [send]

theorem sendNext_fields (P : Proto) : ∀ (l : List Cmd) (s : St),
    (sendNext P s l).conn = s.conn ∧ (sendNext P s l).exited = s.exited ∧
    (sendNext P s l).timer = s.timer ∧
    (s.wait = false →
      ((sendNext P s l).wait = true ∧ (sendNext P s l).cmds ≠ [] ∧ (sendNext P s l).sent ≠ []) ∨
      ((sendNext P s l).wait = false ∧ (sendNext P s l).cmds = [])) := by
  intro l
  induction l with
  | nil => intro s; exact ⟨rfl, rfl, rfl, fun h => Or.inr ⟨h, rfl⟩⟩
  | cons c l ih =>
    intro s
    rw [sendNext]
    split
    · exact ih _
    · have h := send_fields P { s with cmds := c :: l } c.text
      exact ⟨h.1, h.2.2.2.1, h.2.2.2.2.2.1, fun _ => Or.inl ⟨h.2.1, by rw [h.2.2.1]; simp, h.2.2.2.2.2.2⟩⟩

theorem conn_next {P : Proto} {s : St} (h : ConnInv s) : ConnInv (next P s) := by
  unfold next
  split
  · exact h
  · rename_i hw
    split
    · exact h
    · split
      · exact ⟨h.conn, h.sent, h.cmds⟩
      · rename_i hc
        have hf := sendNext_fields P s.cmds s
        have hc' : s.conn = true := by simpa using hc
        rcases hf.2.2.2 (by simpa using hw) with ⟨h1, h2, h3⟩ | ⟨h1, h2⟩
        · exact ⟨fun _ => by rw [hf.1, hc'], fun _ => h3, fun _ => h2⟩
        · exact ⟨fun e => by rw [h1] at e; (cases e), fun e => by rw [h1] at e; (cases e),
            fun e => by rw [h1] at e; (cases e)⟩

theorem conn_answer {s : St} (h : s.wait = true → s.cmds ≠ []) (hw : s.wait = true) (b : Bool) :
    ConnInv (answer s b) := by
  unfold answer
  split
  · rename_i e; exact absurd e (h hw)
  · exact ⟨by simp, by simp, by simp⟩

theorem conn_received {P : Proto} {s : St} (h : ConnInv s) (r : List Byte) : ConnInv (received P s r) := by
  unfold received
  split
  · rename_i hw
    split
    · exact conn_answer h.cmds hw _
    · exact h
  · exact h

theorem conn_step {P : Proto} {s : St} (h : ConnInv s) (o : Op) : ConnInv (step P s o) := by
  unfold step
  split
  · exact h
  · cases o with
    | submit c => exact conn_next ⟨h.conn, h.sent, by simp⟩
    | sendInfo => exact h
    | recv r =>
      have h1 := conn_received (P := P) h r
      dsimp only
      split
      · exact h1
      · exact ⟨h1.conn, h1.sent, h1.cmds⟩
    | close =>
      dsimp only
      split
      · rename_i hw
        exact conn_answer (s := { s with conn := false, timer := true }) h.cmds hw _
      · rename_i hw
        exact ⟨fun e => absurd e hw, fun e => absurd e hw, fun e => absurd e hw⟩
    | timeout ok =>
      dsimp only
      split
      · exact h
      · split
        · exact conn_next ⟨fun _ => rfl, h.sent, h.cmds⟩
        · exact h

theorem conn_run (P : Proto) (ok : Bool) (buf : List Byte) (ops : List Op) :
    ConnInv (run P (init ok buf) ops) := by
  have : ∀ (ops : List Op) (s : St), ConnInv s → ConnInv (run P s ops) := by
    intro ops
    induction ops with
    | nil => intro s h; exact h
    | cons o l ih => intro s h; exact ih _ (conn_step h o)
  exact this ops _ ⟨by simp [init], by simp [init], by simp [init]⟩

theorem next_exited {P : Proto} {s : St} (h : s.exited = false) :
    (next P s).exited = true ↔ s.wait = false ∧ s.cmds ≠ [] ∧ s.conn = false := by
  unfold next
  split
  · rename_i hw; simp [h, hw]
  · rename_i hw
    split
    · rename_i hc; simp [h, hc]
    · rename_i hc
      split
      · rename_i hn
        simp only [Bool.not_eq_true'] at hn
        simp [hw, hc, hn]
      · rename_i hn
        rw [(sendNext_fields P s.cmds s).2.1, h]
        simp only [Bool.not_eq_true', Bool.not_eq_false] at hn
        simp [hn]

theorem received_fields (P : Proto) (s : St) (r : List Byte) :
    (received P s r).exited = s.exited ∧ (received P s r).conn = s.conn ∧
    (received P s r).timer = s.timer ∧ (received P s r).sent = s.sent := by
  unfold received answer
  split
  · split
    · split <;> exact ⟨rfl, rfl, rfl, rfl⟩
    · exact ⟨rfl, rfl, rfl, rfl⟩
  · exact ⟨rfl, rfl, rfl, rfl⟩

theorem step_exited {P : Proto} {s : St} (h : s.exited = false) (hi : ConnInv s) (o : Op) :
    (step P s o).exited = true ↔ (∃ c, o = .submit c) ∧ s.conn = false := by
  unfold step
  rw [if_neg (by rw [h]; decide)]
  cases o with
  | submit c =>
    dsimp only
    rw [next_exited (by exact h)]
    constructor
    · rintro ⟨_, _, hc⟩; exact ⟨⟨c, rfl⟩, hc⟩
    · rintro ⟨_, hc⟩
      refine ⟨?_, by simp, hc⟩
      cases hw : s.wait with
      | false => rfl
      | true => rw [hi.conn hw] at hc; cases hc
  | sendInfo => simp [h]
  | recv r =>
    have hf := (received_fields P s r).1
    dsimp only
    split
    · rw [hf, h]; simp
    · simp [hf, h]
  | close =>
    dsimp only
    split
    · unfold answer; split <;> simp [h]
    · simp [h]
  | timeout ok =>
    dsimp only
    split
    · simp [h]
    · split
      · rw [next_exited (by exact h)]
        simp
      · simp [h]

theorem judge_of_reply {r : List Byte} (hr : r.length = 524) {id st : Nat} (hi : id < 256 ^ 4)
    (hs : st < 256 ^ 4) (h : RemReply r id st) (i : Nat) :
    judge .rem i r = if id = 0xffffffff then none else some (decide (st = 0 ∧ i = id)) := by
  rcases judge_rem hr i with ⟨id', st', h1, h2, h3, h4⟩ | ⟨h1, _⟩
  · obtain ⟨rfl, rfl⟩ := remReply_unique hr hi hs h1 h2 h h3
    exact h4
  · exact absurd h (h1 id st hi hs)

theorem last_id {s : St} (h : IdInv s) (hn : s.sent ≠ []) : s.sent.getLast?.map idIn = some s.sendId := by
  have hp : 0 < s.sent.length := List.length_pos_iff.2 hn
  have e : s.sent.getLast? = some (s.sent.getLast hn) := List.getLast?_eq_getLast hn
  rw [e, Option.map_some, h.ids (s.sent.length - 1) (s.sent.getLast hn), h.next]
  · congr 2
    rw [Nat.sub_add_cancel hp]
  · rw [← List.getLast?_eq_getElem?, e]

theorem run_append (P : Proto) (s : St) (a b : List Op) : run P s (a ++ b) = run P (run P s a) b := by
  simp [run, List.foldl_append]

theorem exited_run {P : Proto} {s : St} (ops : List Op) (h : s.exited = true) : run P s ops = s := by
  induction ops with
  | nil => rfl
  | cons o l ih => show run P (step P s o) l = s; rw [exited_step o h]; exact ih

end Verif.MbsCmd
