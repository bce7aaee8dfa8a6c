import Verif.CombinerLemmas

/-! # The HADAQ event builder as BNET sender: destinations of buffers -/

namespace Verif.Combiner

open Verif.Trig

/-- Events in sent buffers and in the open one have the destination of the buffer. -/
structure Dest (c : Cfg) (st : St) : Prop where
  sent : ∀ x ∈ st.sent, ∀ e ∈ x.2, destination c (e.seq >>> 8) = x.1
  out : ∀ cap evs, st.out = some (cap, evs) → ∀ e ∈ evs, st.last ≠ 0xffffffff ∧ destination c (e.seq >>> 8) = destination c st.last

theorem Dest.same {c : Cfg} {st st' : St} (h : Dest c st) (h1 : st'.sent = st.sent) (h2 : st'.out = st.out) (h3 : st'.last = st.last) : Dest c st' :=
  ⟨by rw [h1]; exact h.sent, by rw [h2, h3]; exact h.out⟩

theorem flush_dest {c : Cfg} {st : St} (h : Dest c st) (env : Env) : Dest c (flush c env st).1 ∧ (flush c env st).1.last = st.last ∧
    ((flush c env st).2 = true → (flush c env st).1.out = none) := by
  unfold flush
  rcases ho : st.out with _ | ⟨cap, evs⟩
  · exact ⟨h, rfl, fun e => by (cases e)⟩
  · dsimp only
    split
    · exact ⟨h, rfl, fun e => by (cases e)⟩
    · split
      · refine ⟨⟨?_, ?_⟩, rfl, fun _ => rfl⟩
        · intro x hx e he
          rcases List.mem_append.1 hx with g | g
          · exact h.sent x g e he
          · rw [List.mem_singleton.1 g] at he ⊢
            exact (h.out cap evs ho e he).2
        · intro cap evs ho
          cases ho
      · exact ⟨h, rfl, fun e => by (cases e)⟩

/-- The open buffer has events of the destination of the number only. -/
theorem prepare_dest {c : Cfg} {st : St} (h : Dest c st) (hs : c.send = true) (env : Env) (size : Nat) (b : Word) : Dest c (prepare c env st size b).1 ∧
    ((prepare c env st size b).2.1 = true → ∀ cap evs, (prepare c env st size b).1.out = some (cap, evs) → ∀ e ∈ evs, destination c (e.seq >>> 8) = destination c b) := by
  unfold prepare
  dsimp only
  have hm : Dest c (makeRoom c env st size b).1 ∧ ((makeRoom c env st size b).2 = true → ∀ cap evs, (makeRoom c env st size b).1.out = some (cap, evs) →
      ∀ e ∈ evs, destination c (e.seq >>> 8) = destination c b) := by
    unfold makeRoom
    rcases ho : st.out with _ | ⟨cap, evs⟩
    · refine ⟨h, fun _ cap evs h => ?_⟩
      dsimp only at h
      rw [ho] at h
      cases h
    · dsimp only
      split
      · obtain ⟨f1, f2, f3⟩ := flush_dest h env
        refine ⟨f1, fun hr cap evs h => ?_⟩
        rw [f3 hr] at h
        cases h
      · rename_i hf
        refine ⟨h, fun _ cap' evs' h' e he => ?_⟩
        dsimp only at h'
        obtain ⟨d1, d2⟩ := h.out cap' evs' h' e he
        rw [d2]
        rw [Bool.or_eq_true, not_or] at hf
        have h2 := hf.2
        unfold checkDestination at h2
        rw [hs] at h2
        simp only [Bool.not_true, Bool.false_or, decide_eq_true_eq, Bool.not_eq_true', Bool.not_eq_false] at h2
        rw [if_neg d1] at h2
        exact of_decide_eq_true h2
  generalize makeRoom c env st size b = r at hm ⊢
  cases hr : r.2 with
  | false =>
    rw [if_pos rfl]
    exact ⟨hm.1, fun h => by (cases h)⟩
  | true =>
    rw [if_neg (by decide)]
    rcases ho : r.1.out with _ | ⟨cap, evs⟩
    · dsimp only
      cases env.pool with
      | none => exact ⟨hm.1, fun h => by (cases h)⟩
      | some cap =>
        dsimp only
        split
        · exact ⟨hm.1, fun h => by (cases h)⟩
        · refine ⟨⟨hm.1.sent, ?_⟩, ?_⟩
          · intro cap evs h e he
            cases h
            cases he
          · intro _ cap evs h e he
            cases h
            cases he
    · exact ⟨hm.1, fun _ => hm.2 hr⟩

theorem seq_nr (nr trig : Word) (h : nr.toNat < 2 ^ 24) : ((nr <<< 8) ||| (trig &&& 0xff)) >>> 8 = nr := by
  rw [BitVec.ushiftRight_or_distrib, BitVec.ushiftRight_and_distrib]
  have e : (0xff : Word) >>> 8 = 0 := by decide
  have e2 : (trig >>> 8) &&& (0 : Word) = 0 := BitVec.and_zero
  have e3 : ∀ x : Word, x ||| (0 : Word) = x := fun x => BitVec.or_zero
  rw [e, e2, e3]
  apply BitVec.eq_of_toNat_eq
  rw [BitVec.toNat_ushiftRight, BitVec.toNat_shiftLeft, Nat.shiftRight_eq_div_pow, Nat.shiftLeft_eq]
  omega

theorem carries_lt {c : Cfg} (hr : 0 < c.range.toNat) {it : Item} {n : Word} (h : Carries c it n) : n.toNat < c.range.toNat := by
  have hm : c.mask.toNat < c.range.toNat := by
    unfold Cfg.mask
    rw [BitVec.toNat_sub]
    have := c.range.isLt
    have e : (1 : Word).toNat = 1 := rfl
    rw [e]
    omega
  have ha : ∀ x : Word, (x &&& c.mask).toNat < c.range.toNat := by
    intro x
    rw [BitVec.toNat_and]
    exact Nat.lt_of_le_of_lt Nat.and_le_right hm
  rcases h with h | ⟨_, _, _, h⟩
  · rw [← h]; exact ha _
  · rw [h]; exact ha _

theorem finish_dest {c : Cfg} {st : St} (h : Dest c st) (hs : c.send = true) (hr : 0 < c.range.toNat) (hr2 : c.range.toNat ≤ 2 ^ 24) (env : Env) (s : Sum) (nr : Word)
    (hm : ∃ i is k, st.inps = i :: is ∧ i.cur = some k ∧ k.nr = nr ∧ Carries c k.item k.nr) : Dest c (finish c env st s nr).1 := by
  obtain ⟨i, is, k, m1, m2, m3, m4⟩ := hm
  have hlt := carries_lt hr m4
  rw [m3] at hlt
  have hseq : sequence c st >>> 8 = nr := by
    unfold sequence
    rw [if_pos hs, m1]
    dsimp only
    rw [m2]
    dsimp only
    rw [← m3]
    exact seq_nr k.nr k.item.trig (by rw [m3]; omega)
  unfold finish
  dsimp only
  generalize sequence c st = seq at hseq ⊢
  generalize (s.complete && c.checkTag && s.tagError) = tagbad
  have h1 : Dest c ({ st with tagErrors := if tagbad then st.tagErrors + 1 else st.tagErrors } : St) := h.same rfl rfl rfl
  generalize ({ st with tagErrors := if tagbad then st.tagErrors + 1 else st.tagErrors } : St) = st1 at h1 ⊢
  cases (s.complete && !tagbad) with
  | false =>
    simp only [Bool.false_eq_true, if_false, Bool.false_and, Bool.true_eq_false]
    exact h1.same rfl rfl rfl
  | true =>
    rw [if_pos rfl]
    obtain ⟨p1, p2⟩ := prepare_dest h1 hs env s.size nr
    generalize prepare c env st1 s.size nr = p at p1 p2 ⊢
    cases hr : p.2.1 with
    | false => rw [if_pos rfl]; exact p1
    | true =>
      rw [if_neg (by decide)]
      split
      · refine ⟨p1.sent, ?_⟩
        intro cap evs ho e he
        change Option.map _ p.1.out = some (cap, evs) at ho
        show nr ≠ 0xffffffff ∧ destination c (e.seq >>> 8) = destination c nr
        refine ⟨fun e => ?_, ?_⟩
        · rw [e] at hlt
          have : (0xffffffff : Word).toNat = 4294967295 := rfl
          rw [this] at hlt
          omega
        · rcases hp : p.1.out with _ | ⟨cap', evs'⟩
          · rw [hp] at ho; cases ho
          · rw [hp, Option.map_some, Option.some.injEq, Prod.mk.injEq] at ho
            rw [← ho.2] at he
            rcases List.mem_append.1 he with g | g
            · exact p2 hr cap' evs' hp e g
            · rw [List.mem_singleton.1 g]
              show destination c (seq >>> 8) = _
              rw [hseq]
      · exact p1.same rfl rfl rfl

theorem Evo.cur {c : Cfg} {a b : List Inp} (h : Evo c a b) (hc : ∀ i ∈ a, ∀ k, i.cur = some k → Carries c k.item k.nr) :
    ∀ j ∈ b, ∀ k, j.cur = some k → Carries c k.item k.nr := by
  induction h with
  | nil => intro j hj; cases hj
  | cons hh _ ih =>
    intro x hx
    rcases List.mem_cons.1 hx with e | e
    · rw [e]; exact hh.current (hc _ (List.mem_cons_self ..))
    · exact ih (fun y hy => hc y (List.mem_cons_of_mem _ hy)) x e

theorem buildEvent_dest {c : Cfg} {st st' : St} (h : Dest c st) (hs : c.send = true) (hr : 0 < c.range.toNat) (hr2 : c.range.toNat ≤ 2 ^ 24)
    (hc : ∀ i ∈ st.inps, ∀ k, i.cur = some k → Carries c k.item k.nr) (env : Env) (r : Bool) (hb : buildEvent c env st = some (st', r)) : Dest c st' := by
  unfold buildEvent at hb
  dsimp only at hb
  have hg := gather_evo c st.inps { any := false, minid := 0, maxid := 0, build := 0, incomplete := false }
  generalize hgg : gather c st.inps { any := false, minid := 0, maxid := 0, build := 0, incomplete := false } = g at hg hb
  have h1 : Dest c { st with inps := g.1 } := h.same rfl rfl rfl
  split at hb
  · cases hb
    exact h1.same rfl rfl rfl
  by_cases hinc : g.2.incomplete = true
  · rw [if_pos hinc] at hb
    cases hb
    exact h1
  rw [if_neg hinc] at hb
  cases hi : st.inps with
  | nil =>
    rw [hi] at hgg
    have : g.1 = [] := by rw [← hgg]; rfl
    rw [this] at hb
    cases hb
  | cons i0 is0 =>
    rw [hi] at hgg
    obtain ⟨master, ms, k, m1, m2, m3⟩ := gather_first c i0 is0 _ rfl (by rw [hgg]; simpa using hinc)
    rw [hgg] at m1 m3
    rw [m1] at hb
    dsimp only at hb
    rw [m2] at hb
    dsimp only at hb
    obtain ⟨js, s, goes, a1, a2, a3⟩ := align_spec c g.2.build k.tag (master :: ms) { size := 0, tagError := false, dataError := false, complete := true, dropped := 0 }
    rw [a1] at hb
    dsimp only at hb
    obtain ⟨t, ht⟩ := align_first c g.2.build k.tag master ms js _ s goes k m2 m3.symm a1
    have h2 : Dest c { st with inps := js, droppedData := st.droppedData + s.dropped } := h.same rfl rfl rfl
    cases goes with
    | false => cases hb; exact h2
    | true =>
      rw [if_pos rfl, Option.some.injEq] at hb
      have := finish_dest h2 hs hr hr2 env s g.2.build ⟨master, t, k, ht, m2, m3.symm, by
        exact hg.cur hc master (by rw [m1]; exact List.mem_cons_self ..) k m2⟩
      rw [hb] at this
      exact this

end Verif.Combiner
