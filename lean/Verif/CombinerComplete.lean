import Verif.CombinerLemmas
import Verif.Props.Trig

/-! # The HADAQ event builder loses no complete event -/

namespace Verif.Combiner

open Verif.Trig

theorem Ahead.diff {R a b : Word} (hR : R.toNat < 2 ^ 31) (h : Ahead R a b) : diff R a b > 0 := by
  obtain ⟨h1, h2, h3, h4⟩ := h
  have hs : steps R.toNat a.toNat a.toNat = 0 := by
    unfold steps
    rw [Nat.add_sub_cancel_left, Nat.mod_self]
  have hw : Window R.toNat a.toNat [a, b] := by
    refine ⟨h1, fun t ht => ?_⟩
    rcases List.mem_cons.1 ht with e | e
    · rw [e]; exact ⟨h1, by rw [hs]; omega⟩
    · rw [List.mem_singleton.1 e]; exact ⟨h2, h4⟩
  have := diff_window hR hw (List.mem_cons_self ..) (List.mem_cons_of_mem _ (List.mem_singleton.2 rfl))
  rw [this, hs]
  omega

theorem Ahead.not_diff {R a b : Word} (hR : R.toNat < 2 ^ 31) (h : Ahead R a b) : ¬Trig.diff R b a > 0 := by
  have h1 := h.diff hR
  have := C34_antisymmetric hR h.1 h.2.1
  omega

/-- Number of items and buffers of an input. -/
def wait1 (i : Inp) : Nat := (unused i).length + i.queue.length

/-- The input goes from `i` to `j` without losing the item numbered `n`. -/
structure Sub (c : Cfg) (n : Word) (i j : Inp) : Prop where
  lab : ∃ D, labelled c i = D ++ labelled c j ∧ ∀ x ∈ D, x.2 ≠ n
  wait : wait1 j ≤ wait1 i

theorem Sub.refl (c : Cfg) (n : Word) (i : Inp) : Sub c n i i := ⟨⟨[], rfl, fun x hx => by (cases hx)⟩, Nat.le_refl _⟩

theorem Sub.trans {c : Cfg} {n : Word} {i j k : Inp} (h1 : Sub c n i j) (h2 : Sub c n j k) : Sub c n i k := by
  obtain ⟨⟨D, a1, a2⟩, a3⟩ := h1
  obtain ⟨⟨E, b1, b2⟩, b3⟩ := h2
  refine ⟨⟨D ++ E, by rw [a1, b1, List.append_assoc], fun x hx => ?_⟩, Nat.le_trans b3 a3⟩
  rcases List.mem_append.1 hx with e | e
  · exact a2 x e
  · exact b2 x e

theorem Sub.mem {c : Cfg} {n : Word} {i j : Inp} (h : Sub c n i j) : ∀ x ∈ labelled c j, x ∈ labelled c i := by
  obtain ⟨⟨D, a1, _⟩, _⟩ := h
  intro x hx
  rw [a1]
  exact List.mem_append_right _ hx

theorem Sub.has {c : Cfg} {n : Word} {i j : Inp} (h : Sub c n i j) (hi : ∃ it, (it, n) ∈ labelled c i) : ∃ it, (it, n) ∈ labelled c j := by
  obtain ⟨⟨D, a1, a2⟩, _⟩ := h
  obtain ⟨it, h1⟩ := hi
  rw [a1] at h1
  rcases List.mem_append.1 h1 with e | e
  · exact absurd rfl (a2 _ e)
  · exact ⟨it, e⟩

theorem Sub.ordered {c : Cfg} {n : Word} {i j : Inp} (h : Sub c n i j) (hi : (labelled c i).Pairwise fun a b => Ahead c.range a.2 b.2) :
    (labelled c j).Pairwise fun a b => Ahead c.range a.2 b.2 := by
  obtain ⟨⟨D, a1, a2⟩, _⟩ := h
  rw [a1] at hi
  exact (List.pairwise_append.1 hi).2.1

theorem next_queue : ∀ (q : List Buf) (r : List Item), (next r q).2.2.length ≤ q.length ∧
    ((next r q).1 = none → r ++ itemsOf q ≠ [] → (next r q).2.2.length < q.length) := by
  intro q
  induction q with
  | nil =>
    intro r
    cases r with
    | nil => rw [next]; exact ⟨Nat.le_refl _, fun _ h => absurd rfl h⟩
    | cons a r => rw [next]; exact ⟨Nat.le_refl _, fun h => by (cases h)⟩
  | cons b q ih =>
    intro r
    cases r with
    | cons a r => rw [next]; exact ⟨Nat.le_refl _, fun h => by (cases h)⟩
    | nil =>
      cases b with
      | other => rw [next]; exact ⟨Nat.le_succ _, fun _ _ => Nat.lt_succ_self _⟩
      | items l =>
        rw [next]
        obtain ⟨h1, h2⟩ := ih l
        exact ⟨Nat.le_succ_of_le h1, fun h g => Nat.lt_succ_of_lt (h2 h g)⟩

/-- What `shift` does to the numbered items. -/
theorem shift_labelled (c : Cfg) (d : Bool) (i : Inp) :
    labelled c i = (i.cur.map fun k => (k.item, k.nr)).toList ++ labelled c (shift c false d i).1 ∧
    wait1 (shift c false d i).1 + i.cur.toList.length ≤ wait1 i ∧
    ((shift c false d i).2 = false → i.rest ++ itemsOf i.queue ≠ [] → wait1 (shift c false d i).1 + i.cur.toList.length < wait1 i) := by
  have hs := (shift_spec c d i).1
  have hq := next_queue i.queue i.rest
  have hn := next_spec i.queue i.rest
  have hw : (unused i).length = i.cur.toList.length + (unused (shift c false d i).1).length := by
    rw [hs, List.length_append]
    cases i.cur <;> rfl
  have hq1 : (shift c false d i).1.queue = (next i.rest i.queue).2.2 ∧ ((shift c false d i).2 = false → (next i.rest i.queue).1 = none) := by
    unfold shift
    dsimp only
    rcases next i.rest i.queue with ⟨o, r, q⟩
    cases o with
    | none => exact ⟨rfl, fun _ => rfl⟩
    | some s => exact ⟨rfl, fun h => by (cases h)⟩
  refine ⟨?_, ?_, ?_⟩
  · unfold labelled
    congr 1
    unfold shift
    dsimp only
    rcases hx : next i.rest i.queue with ⟨o, r, q⟩
    rw [hx] at hn
    cases o with
    | none =>
      have := (hn.2 r q rfl).1
      rw [this]
      rfl
    | some s =>
      have := hn.1 s r q rfl
      rw [this]
      rfl
  · unfold wait1
    rw [hq1.1, hw]
    omega
  · intro h1 h2
    have := hq.2 (hq1.2 h1) h2
    unfold wait1
    rw [hq1.1, hw]
    omega

/-- The current item, with another number, is given up. -/
theorem shift_sub (c : Cfg) (n : Word) (d : Bool) (i : Inp) (h : ∀ k, i.cur = some k → k.nr ≠ n) : Sub c n i (shift c false d i).1 := by
  obtain ⟨h1, h2, _⟩ := shift_labelled c d i
  refine ⟨⟨_, h1, ?_⟩, by omega⟩
  intro x hx
  cases hc : i.cur with
  | none => rw [hc] at hx; cases hx
  | some k =>
    rw [hc] at hx
    cases List.mem_singleton.1 hx
    exact h k hc

inductive Keep (c : Cfg) (n : Word) : List Inp → List Inp → Prop where
  | nil : Keep c n [] []
  | cons {i j : Inp} {is js : List Inp} : Sub c n i j → Keep c n is js → Keep c n (i :: is) (j :: js)

theorem Keep.refl (c : Cfg) (n : Word) : ∀ is, Keep c n is is
  | [] => .nil
  | i :: is => .cons (.refl c n i) (Keep.refl c n is)

theorem Keep.trans {c : Cfg} {n : Word} {a b d : List Inp} (h1 : Keep c n a b) (h2 : Keep c n b d) : Keep c n a d := by
  induction h1 generalizing d with
  | nil => exact h2
  | cons h _ ih =>
    cases h2 with
    | cons g gs => exact .cons (h.trans g) (ih gs)

theorem Keep.length {c : Cfg} {n : Word} {a b : List Inp} (h : Keep c n a b) : b.length = a.length := by
  induction h with
  | nil => rfl
  | cons _ _ ih => rw [List.length_cons, List.length_cons, ih]

theorem Keep.get {c : Cfg} {n : Word} {a b : List Inp} (h : Keep c n a b) : ∀ (p : Nat) i, a[p]? = some i → ∃ j, b[p]? = some j ∧ Sub c n i j := by
  induction h with
  | nil => intro n j h; simp at h
  | cons hh _ ih =>
    intro p j h
    cases p with
    | zero =>
      rw [List.getElem?_cons_zero] at h
      cases h
      exact ⟨_, rfl, hh⟩
    | succ p =>
      rw [List.getElem?_cons_succ] at h
      obtain ⟨i, h1, h2⟩ := ih p j h
      exact ⟨i, by rw [List.getElem?_cons_succ]; exact h1, h2⟩

theorem Keep.mem {c : Cfg} {n : Word} {a b : List Inp} (h : Keep c n a b) : ∀ j ∈ b, ∃ i ∈ a, Sub c n i j := by
  induction h with
  | nil => intro j hj; cases hj
  | @cons i j is js hh _ ih =>
    intro x hx
    rcases List.mem_cons.1 hx with e | e
    · exact ⟨i, List.mem_cons_self .., by rw [e]; exact hh⟩
    · obtain ⟨y, y1, y2⟩ := ih x e
      exact ⟨y, List.mem_cons_of_mem _ y1, y2⟩

/-- Waiting items and buffers of all inputs. -/
def waits (is : List Inp) : Nat := (is.map wait1).sum

theorem waits_cons (i : Inp) (is : List Inp) : waits (i :: is) = wait1 i + waits is := rfl

theorem Keep.waits {c : Cfg} {n : Word} {a b : List Inp} (h : Keep c n a b) : waits b ≤ waits a := by
  induction h with
  | nil => exact Nat.le_refl _
  | cons hh _ ih =>
    rw [waits_cons, waits_cons]
    have := hh.wait
    omega

theorem gather_keep (c : Cfg) (n : Word) : ∀ (is : List Inp) (a : Acc), (∀ i ∈ is, ∃ it, (it, n) ∈ labelled c i) →
    Keep c n is (gather c is a).1 ∧ ((gather c is a).2.incomplete = true → a.incomplete = true ∨ waits (gather c is a).1 < waits is) := by
  intro is
  induction is with
  | nil => intro a _; exact ⟨.nil, fun h => .inl h⟩
  | cons i is ih =>
    intro a hh
    have hi := hh i (List.mem_cons_self ..)
    rw [gather]
    dsimp only
    generalize hr : (if i.cur.isSome = true then (i, true) else shift c false false i) = r
    have hsub : Sub c n i r.1 ∧ (r.1.cur = none → wait1 r.1 < wait1 i) := by
      rw [← hr]
      cases hc : i.cur with
      | some k =>
        rw [if_pos (by rfl)]
        exact ⟨.refl c n i, fun h => by rw [hc] at h; cases h⟩
      | none =>
        rw [if_neg (by simp)]
        refine ⟨shift_sub c n false i fun k hk => by (rw [hc] at hk; cases hk), fun h => ?_⟩
        have h1 := (shift_labelled c false i).2.2
        rw [shift_some, h, hc] at h1
        refine h1 rfl ?_
        intro h0
        obtain ⟨it, hit⟩ := hi
        unfold labelled at hit
        rw [hc, h0] at hit
        cases hit
    obtain ⟨k1, k2⟩ := ih (collect c a r.1.cur)
      fun x hx => hh x (List.mem_cons_of_mem _ hx)
    refine ⟨.cons hsub.1 k1, fun h => ?_⟩
    rw [waits_cons, waits_cons]
    have w1 := hsub.1.wait
    have w2 := k1.waits
    rcases k2 h with e | e
    · cases hc : r.1.cur with
      | none =>
        have := hsub.2 hc
        rw [hc] at w2
        right
        omega
      | some k =>
        rw [hc] at e
        unfold collect at e
        dsimp only at e
        left
        split at e <;> exact e
    · right
      omega

/-- The first number of an input is not behind a number it has. -/
theorem first_ahead {c : Cfg} {n : Word} {i : Inp} {k : Cur} (hc : i.cur = some k) (hh : ∃ it, (it, n) ∈ labelled c i)
    (ho : (labelled c i).Pairwise fun a b => Ahead c.range a.2 b.2) : k.nr = n ∨ Ahead c.range k.nr n := by
  obtain ⟨it, hit⟩ := hh
  unfold labelled at hit ho
  rw [hc] at hit ho
  change (it, n) ∈ (k.item, k.nr) :: _ at hit
  change List.Pairwise _ ((k.item, k.nr) :: _) at ho
  rcases List.mem_cons.1 hit with e | e
  · left
    exact (Prod.mk.inj e).2.symm
  · right
    exact (List.pairwise_cons.1 ho).1 _ e

theorem align1_keep {c : Cfg} (hR : c.range.toNat < 2 ^ 31) (n b : Word) (hb : b = n ∨ Ahead c.range b n) : ∀ (f : Nat) (i : Inp) (by0 : Nat), left i < f →
    (∃ it, (it, n) ∈ labelled c i) → ((labelled c i).Pairwise fun a b => Ahead c.range a.2 b.2) →
    ∃ j o by1, align1 c b f i by0 = some (j, o, by1) ∧ Sub c n i j ∧ (o = .nodata → i.cur.isSome = true → wait1 j < wait1 i) ∧ (o = .bigger → b ≠ n) := by
  intro f
  induction f with
  | zero => intro i by0 h; omega
  | succ f ih =>
    intro i by0 h hh ho
    rw [align1]
    cases hc : i.cur with
    | none => exact ⟨i, .nodata, by0, rfl, .refl c n i, (fun _ h => by cases h), fun h => by (cases h)⟩
    | some k =>
      dsimp only
      by_cases e : k.nr = b
      · rw [if_pos e]
        exact ⟨i, .found, by0, rfl, .refl c n i, (fun h => by cases h), fun h => by (cases h)⟩
      · rw [if_neg e]
        have hfa := first_ahead hc hh ho
        by_cases hd : diff c.range k.nr b > 0
        · rw [if_pos hd]
          have hkn : k.nr ≠ n := by
            intro hkn
            rcases hb with hb | hb
            · exact e (hkn.trans hb.symm)
            · rw [hkn] at hd
              exact hb.not_diff hR hd
          have hs := shift_sub c n true i fun k' hk' => by (rw [hc] at hk'; cases hk'; exact hkn)
          have hw := (shift_labelled c true i).2.1
          rw [hc] at hw
          change _ + 1 ≤ _ at hw
          cases hr : (shift c false true i).2 with
          | false =>
            rw [if_neg (by simp)]
            exact ⟨_, .nodata, _, rfl, hs, (fun _ _ => by omega), fun h => by (cases h)⟩
          | true =>
            rw [if_pos rfl]
            have hl := (shift_spec c true i).2.2.2 hr
            obtain ⟨j, o, by1, g1, g2, g3, g4⟩ := ih (shift c false true i).1 (by0 + k.item.size) (by omega) (hs.has hh) (hs.ordered ho)
            refine ⟨j, o, by1, g1, hs.trans g2, fun _ _ => ?_, g4⟩
            have := g2.wait
            omega
        · rw [if_neg hd]
          refine ⟨i, .bigger, by0, rfl, .refl c n i, (fun h => by cases h), fun _ hbn => ?_⟩
          rcases hfa with g | g
          · exact e (g.trans hbn.symm)
          · rw [hbn] at hd
            exact hd (g.diff hR)

theorem cur_labelled {c : Cfg} {i : Inp} {k : Cur} (h : i.cur = some k) : (k.item, k.nr) ∈ labelled c i := by
  unfold labelled
  rw [h]
  exact List.mem_cons_self ..

theorem align_keep {c : Cfg} (hR : c.range.toNat < 2 ^ 31) (n b tag : Word) (hb : b = n ∨ Ahead c.range b n) : ∀ (is : List Inp) (s : Sum),
    (∀ i ∈ is, ∃ it, (it, n) ∈ labelled c i) → (∀ i ∈ is, (labelled c i).Pairwise fun a b => Ahead c.range a.2 b.2) → (∀ i ∈ is, i.cur.isSome = true) →
    ∃ js s' goes, align c b tag is s = some (js, s', goes) ∧ Keep c n is js ∧ (goes = false → waits js < waits is) ∧
      (b = n → s.complete = true → goes = true → s'.complete = true) ∧
      (b = n → (∀ i ∈ is, ∀ x ∈ labelled c i, x.2 = n → x.1.trig &&& 0xff = tag) → s.tagError = false → goes = true → s'.tagError = false) := by
  intro is
  induction is with
  | nil => intro s _ _ _; exact ⟨[], s, true, rfl, .nil, (fun h => by cases h), (fun _ h _ => h), fun _ _ h _ => h⟩
  | cons i is ih =>
    intro s hh ho hc
    obtain ⟨j, o, by1, e1, e2, e3, e4⟩ := align1_keep hR n b hb (left i + 1) i 0 (by omega) (hh i (List.mem_cons_self ..)) (ho i (List.mem_cons_self ..))
    have ih := fun s => ih s (fun x hx => hh x (List.mem_cons_of_mem _ hx)) (fun x hx => ho x (List.mem_cons_of_mem _ hx)) (fun x hx => hc x (List.mem_cons_of_mem _ hx))
    have hw := e2.wait
    rw [align, e1]
    cases o with
    | nodata =>
      refine ⟨_, _, false, rfl, .cons e2 (.refl c n is), (fun _ => ?_), (fun _ _ h => by cases h), fun _ _ _ h => by (cases h)⟩
      have := e3 rfl (hc i (List.mem_cons_self ..))
      rw [waits_cons, waits_cons]
      omega
    | bigger =>
      dsimp only
      obtain ⟨js, s', goes, g1, g2, g3, g4, g5⟩ := ih { s with complete := false, dropped := s.dropped + by1 }
      rw [g1]
      refine ⟨j :: js, s', goes, rfl, .cons e2 g2, (fun h => ?_), (fun h => absurd h (e4 rfl)), fun h => absurd h (e4 rfl)⟩
      have := g3 h
      rw [waits_cons, waits_cons]
      omega
    | found =>
      dsimp only
      generalize hs1 : addItem c tag s j.cur = s1
      have hcc : s1.complete = s.complete := by
        rw [← hs1]
        cases j.cur with
        | none => rfl
        | some k => unfold addItem; dsimp only; split <;> rfl
      obtain ⟨js, s', goes, g1, g2, g3, g4, g5⟩ := ih { s1 with dropped := s1.dropped + by1 }
      rw [g1]
      refine ⟨j :: js, s', goes, rfl, .cons e2 g2, (fun h => ?_), (fun hbn hs => g4 hbn (by rw [← hs]; exact hcc)), fun hbn ht hs => ?_⟩
      rotate_left
      · refine g5 hbn (fun x hx => ht x (List.mem_cons_of_mem _ hx)) ?_
        show s1.tagError = false
        rw [← hs1]
        obtain ⟨j', f', by1', D, q1, q2, q3⟩ := align1_spec c b (left i + 1) i 0 (by omega)
        rw [e1] at q1
        cases q1
        obtain ⟨k, k1, k2⟩ := q3 rfl
        rw [k1]
        unfold addItem
        dsimp only
        have := ht i (List.mem_cons_self ..) _ (e2.mem _ (cur_labelled k1)) (k2.trans hbn)
        split
        · dsimp only
          rw [hs, Bool.false_or]
          exact decide_eq_false fun h => h this
        · exact hs
      have := g3 h
      rw [waits_cons, waits_cons]
      omega

theorem flush_good (c : Cfg) (env : Env) (st : St) (h : ∀ d, env.canSend d = true) (cap : Nat) (evs : List Ev) (ho : st.out = some (cap, evs)) (he : evs ≠ []) :
    (flush c env st).2 = true ∧ (flush c env st).1.out = none := by
  unfold flush
  rw [ho]
  dsimp only
  rw [if_neg he, if_pos (h _)]
  exact ⟨rfl, rfl⟩

/-- There is place for the event. -/
theorem prepare_good {need : Nat} {env : Env} (hg : Good need env) (c : Cfg) (st : St) (size : Nat) (b : Word) (hs : size ≤ need)
    (ho : ∀ cap evs, st.out = some (cap, evs) → evs ≠ []) : (prepare c env st size b).2 = (true, true) := by
  unfold prepare
  dsimp only
  have hm : (makeRoom c env st size b).2 = true ∧ ((makeRoom c env st size b).1.out = none ∨
      ∃ cap evs, (makeRoom c env st size b).1.out = some (cap, evs) ∧ 32 + size ≤ cap - used evs) := by
    unfold makeRoom
    rcases hs : st.out with _ | ⟨cap, evs⟩
    · exact ⟨rfl, .inl hs⟩
    · dsimp only
      split
      · obtain ⟨f1, f2⟩ := flush_good c env st hg.send cap evs hs (ho cap evs hs)
        exact ⟨f1, .inl f2⟩
      · rename_i hf
        rw [Bool.or_eq_true, not_or] at hf
        have h1 := hf.1
        rw [decide_eq_true_eq] at h1
        exact ⟨rfl, .inr ⟨cap, evs, hs, by omega⟩⟩
  rw [if_neg (by rw [hm.1]; decide)]
  rcases hm.2 with e | ⟨cap, evs, e, e1⟩
  · rw [e]
    dsimp only
    obtain ⟨cap, p1, p2, p3⟩ := hg.pool
    rw [p1]
    dsimp only
    rw [if_neg (by omega)]
    dsimp only
    rw [decide_eq_true (by omega)]
  · rw [e]
    dsimp only
    rw [decide_eq_true e1]

theorem advance_keep (c : Cfg) (n b : Word) (d : Bool) (hb : b ≠ n) (is : List Inp) : Keep c n is (advance c b d is) := by
  induction is with
  | nil => exact .nil
  | cons i is ih =>
    unfold advance at ih ⊢
    rw [List.map_cons]
    cases hc : i.cur with
    | none => exact .cons (.refl c n i) ih
    | some k =>
      dsimp only
      by_cases e : k.nr = b
      · rw [if_pos e]
        exact .cons (shift_sub c n _ i fun k' hk' => by (rw [hc] at hk'; cases hk'; rw [e]; exact hb)) ih
      · rw [if_neg e]; exact .cons (.refl c n i) ih

theorem advance_waits (c : Cfg) (b : Word) (d : Bool) (i : Inp) (is : List Inp) (k : Cur) (hc : i.cur = some k) (hk : k.nr = b) :
    waits (advance c b d (i :: is)) < waits (i :: is) := by
  have h : ∀ is, waits (advance c b d is) ≤ waits is := by
    intro is
    induction is with
    | nil => exact Nat.le_refl _
    | cons i is ih =>
      unfold advance at ih ⊢
      rw [List.map_cons, waits_cons, waits_cons]
      have h2 := (shift_labelled c (!d) i).2.1
      cases hc : i.cur with
      | none => dsimp only; omega
      | some k => dsimp only; split <;> omega
  have h1 := h is
  unfold advance at h1 ⊢
  rw [List.map_cons, waits_cons, waits_cons, hc]
  dsimp only
  rw [if_pos hk]
  have h2 := (shift_labelled c (!d) i).2.1
  rw [hc] at h2
  change _ + 1 ≤ _ at h2
  omega

theorem Ready.keep {c : Cfg} {n t : Word} {m : Nat} {st st' : St} (h : Ready c n t m st) (hk : Keep c n st.inps st'.inps)
    (ho : ∀ cap evs, st'.out = some (cap, evs) → evs ≠ []) : Ready c n t m st' := by
  refine ⟨?_, ?_, ?_, ?_, ?_, ho⟩
  · intro e
    have := hk.length
    rw [e] at this
    exact h.inputs (List.eq_nil_of_length_eq_zero this.symm)
  · intro j hj
    obtain ⟨i, i1, i2⟩ := hk.mem j hj
    exact i2.has (h.has i i1)
  · intro j hj
    obtain ⟨i, i1, i2⟩ := hk.mem j hj
    exact i2.ordered (h.ordered i i1)
  · intro j hj x hx
    obtain ⟨i, i1, i2⟩ := hk.mem j hj
    exact h.small i i1 x (i2.mem x hx)
  · intro hc j hj x hx
    obtain ⟨i, i1, i2⟩ := hk.mem j hj
    exact h.tags hc i i1 x (i2.mem x hx)

theorem sum_le (m : Nat) : ∀ (l : List Item), (∀ it ∈ l, it.size ≤ m) → (l.map Item.size).sum ≤ l.length * m := by
  intro l
  induction l with
  | nil => intro _; exact Nat.zero_le _
  | cons a l ih =>
    intro h
    have h1 := h a (List.mem_cons_self ..)
    have h2 := ih fun x hx => h x (List.mem_cons_of_mem _ hx)
    rw [List.map_cons, List.sum_cons, List.length_cons, Nat.add_mul]
    omega

theorem column_mem {is : List Inp} {it : Item} (h : it ∈ column is) : ∃ i ∈ is, ∃ k, i.cur = some k ∧ k.item = it := by
  unfold column at h
  obtain ⟨i, i1, i2⟩ := List.mem_filterMap.1 h
  cases hc : i.cur with
  | none => rw [hc] at i2; cases i2
  | some k => rw [hc] at i2; cases i2; exact ⟨i, i1, k, hc, rfl⟩

/-- What a call does: either the event is made, or it waits nearer to the front. -/
def Progress (c : Cfg) (n t : Word) (m : Nat) (st st' : St) : Prop :=
  (∃ pre ev, events st' = pre ++ [ev] ∧ ∃ col, ev.items = kept c col ∧ col.length = st.inps.length ∧
    ∀ (p : Nat) i, st.inps[p]? = some i → ∃ it, col[p]? = some it ∧ (it, n) ∈ labelled c i) ∨
  (Ready c n t m st' ∧ Keep c n st.inps st'.inps ∧ waits st'.inps < waits st.inps)

theorem finish_good {c : Cfg} {n t : Word} {m : Nat} {env : Env} {st : St} (h : Ready c n t m st) (hg : Good (st.inps.length * m) env) (s : Sum) (nr : Word)
    (hs : s.complete = true → (∀ j ∈ st.inps, ∃ k, j.cur = some k ∧ k.nr = nr) ∧ s.size = ((chosen c st.inps).map Item.size).sum)
    (hn : nr = n → s.complete = true) (ht : nr = n → c.checkTag = true → s.tagError = false)
    (hm : ∃ i is k, st.inps = i :: is ∧ i.cur = some k ∧ k.nr = nr) (hr : ∀ cap evs, st.out = some (cap, evs) → used evs ≤ cap) :
    Progress c n t m st (finish c env st s nr).1 := by
  obtain ⟨i0, is0, k0, m1, m2, m3⟩ := hm
  unfold finish
  dsimp only
  generalize sequence c st = seq
  generalize htb : (s.complete && c.checkTag && s.tagError) = tagbad
  generalize hst1 : ({ st with tagErrors := if tagbad then st.tagErrors + 1 else st.tagErrors } : St) = st1
  have hinps : st1.inps = st.inps := by rw [← hst1]
  have hout : st1.out = st.out := by rw [← hst1]
  have hlt : ∀ d, waits (advance c nr d st.inps) < waits st.inps := by
    intro d
    rw [m1]
    exact advance_waits c nr d i0 is0 k0 m2 m3
  clear hst1
  generalize hc : (s.complete && !tagbad) = complete
  cases complete with
  | false =>
    simp only [Bool.false_eq_true, if_false, Bool.false_and, Bool.true_eq_false]
    have hne : nr ≠ n := by
      intro e
      have e1 := hn e
      rw [e1, Bool.true_and] at hc htb
      rw [← htb] at hc
      cases hct : c.checkTag with
      | false => rw [hct] at hc; cases hc
      | true => rw [hct, ht e hct] at hc; cases hc
    right
    have hk : Keep c n st.inps (advance c nr false st1.inps) := by rw [hinps]; exact advance_keep c n nr false hne st.inps
    exact ⟨h.keep hk (by rw [hout]; exact h.open_), hk, by rw [hinps]; exact hlt false⟩
  | true =>
    rw [if_pos rfl]
    rw [Bool.and_eq_true] at hc
    obtain ⟨s1, s2⟩ := hs hc.1
    have hsome : ∀ j ∈ st.inps, j.cur.isSome = true := by
      intro j hj
      obtain ⟨k, k1, _⟩ := s1 j hj
      rw [k1]; rfl
    have hsz : s.size ≤ st.inps.length * m := by
      rw [s2]
      refine Nat.le_trans (sum_le m _ ?_) (Nat.mul_le_mul_right m ?_)
      · intro it hit
        rw [chosen_column] at hit
        obtain ⟨i, i1, k, k1, k2⟩ := column_mem (List.mem_filter.1 hit).1
        rw [← k2]
        exact h.small i i1 _ (cur_labelled k1)
      · rw [chosen_column]
        exact Nat.le_trans (List.length_filter_le _ _) (Nat.le_of_eq (column_length st.inps hsome))
    have hp2 := prepare_good hg c st1 s.size nr hsz (by rw [hout]; exact h.open_)
    obtain ⟨p1, p2, p3, p4, p5, p6, p7⟩ := prepare_spec c env st1 s.size nr (by rw [hout]; exact hr)
    generalize hp : prepare c env st1 s.size nr = p at hp2 p1 p2 p3 p4 p5 p6 p7 ⊢
    have hp1 : p.2.1 = true ∧ p.2.2 = true := by rw [hp2]; exact ⟨rfl, rfl⟩
    rw [if_neg (by rw [hp1.1]; decide), if_pos (by rw [hp1.2]; rfl)]
    obtain ⟨cap, evs, o1, o2⟩ := p7 hp1.1 hp1.2
    have hin : p.1.inps = st.inps := by rw [p2, hinps]
    by_cases hne : nr = n
    · left
      refine ⟨_, _, events_build c p.1 s nr seq cap evs o1, column st.inps, ?_, column_length st.inps hsome, ?_⟩
      · show chosen c p.1.inps = _
        rw [hin, chosen_column]
      · intro q i hq
        obtain ⟨k, k1, k2⟩ := s1 i (List.mem_of_getElem? hq)
        refine ⟨k.item, column_get st.inps hsome q i k hq k1, ?_⟩
        have := cur_labelled (c := c) k1
        rw [k2, hne] at this
        exact this
    · right
      have hk : Keep c n st.inps (advance c nr true p.1.inps) := by rw [hin]; exact advance_keep c n nr true hne st.inps
      refine ⟨h.keep hk ?_, hk, by show waits (advance c nr true p.1.inps) < _; rw [hin]; exact hlt true⟩
      intro cap' evs' he
      change Option.map _ p.1.out = some (cap', evs') at he
      rw [o1, Option.map_some, Option.some.injEq, Prod.mk.injEq] at he
      rw [← he.2]
      simp

/-- One call of `BuildEvent`. -/
theorem buildEvent_good {c : Cfg} (hR : c.range.toNat < 2 ^ 31) {n t : Word} {m : Nat} {env : Env} {st : St} (h : Ready c n t m st) (hg : Good (st.inps.length * m) env)
    (hr : ∀ cap evs, st.out = some (cap, evs) → used evs ≤ cap) :
    ∃ st' r, buildEvent c env st = some (st', r) ∧ Progress c n t m st st' := by
  unfold buildEvent
  dsimp only
  obtain ⟨k1, k2⟩ := gather_keep c n st.inps { any := false, minid := 0, maxid := 0, build := 0, incomplete := false } h.has
  generalize hgg : gather c st.inps { any := false, minid := 0, maxid := 0, build := 0, incomplete := false } = g at k1 k2 ⊢
  have hgu : ¬giveUp c env g.2 g.1.length = true := by
    unfold giveUp
    rw [hg.time]
    simp
  rw [if_neg hgu]
  by_cases hinc : g.2.incomplete = true
  · rw [if_pos hinc]
    refine ⟨_, _, rfl, .inr ⟨h.keep k1 h.open_, k1, ?_⟩⟩
    rcases k2 hinc with e | e
    · cases e
    · exact e
  rw [if_neg hinc]
  have hinc' : g.2.incomplete = false := by simpa using hinc
  cases hi : st.inps with
  | nil => exact absurd hi h.inputs
  | cons i0 is0 =>
    rw [hi] at hgg
    obtain ⟨master, ms, k, m1, m2, m3⟩ := gather_first c i0 is0 _ rfl (by rw [hgg]; exact hinc')
    have hcur := (gather_incomplete c (i0 :: is0) _ (by rw [hgg]; exact hinc')).2
    rw [hgg] at m1 m3 hcur
    have h1 : Ready c n t m { st with inps := g.1 } := h.keep k1 h.open_
    rw [m1] at h1 hcur
    rw [m1] at k1
    rw [m1]
    dsimp only
    rw [m2]
    dsimp only
    have hb : g.2.build = n ∨ Ahead c.range g.2.build n := by
      rw [m3]
      exact first_ahead m2 (h1.has master (List.mem_cons_self ..)) (h1.ordered master (List.mem_cons_self ..))
    obtain ⟨js, s, goes, a1, a2, a3, a4, a5⟩ := align_keep hR n g.2.build k.tag hb (master :: ms) { size := 0, tagError := false, dataError := false, complete := true, dropped := 0 } h1.has h1.ordered hcur
    obtain ⟨js', s', goes', b1, b2, b3⟩ := align_spec c g.2.build k.tag (master :: ms) { size := 0, tagError := false, dataError := false, complete := true, dropped := 0 }
    obtain ⟨u, hu⟩ := align_first c g.2.build k.tag master ms js _ s goes k m2 m3.symm a1
    rw [a1] at b1
    cases b1
    rw [a1]
    dsimp only
    have hK : Keep c n st.inps js := k1.trans a2
    have h2 : Ready c n t m { st with inps := js, droppedData := st.droppedData + s.dropped } := h.keep hK h.open_
    cases goes with
    | false =>
      refine ⟨_, _, rfl, .inr ⟨h2, hK, ?_⟩⟩
      have := k1.waits
      have := a3 rfl
      show waits js < _
      omega
    | true =>
      rw [if_pos rfl]
      refine ⟨_, (finish c env _ s g.2.build).2, rfl, ?_⟩
      have hf := finish_good (env := env) h2 (by show Good (js.length * m) env; rw [hK.length]; exact hg) s g.2.build
        (fun hc => by
          obtain ⟨_, b4, b5, _⟩ := b3 rfl hc
          exact ⟨b4, by rw [b5]; simp⟩)
        (fun e => a4 e rfl rfl)
        (fun e hct => by
          refine a5 e ?_ rfl rfl
          intro i hi x hx hxn
          rw [h1.tags hct i hi x hx hxn, ← h1.tags hct master (List.mem_cons_self ..) _ (cur_labelled m2) (m3.symm.trans e)]
          rfl)
        ⟨master, u, k, hu, m2, m3.symm⟩ hr
      rcases hf with ⟨pre, ev, f1, col, f2, f3, f4⟩ | ⟨f1, f2, f3⟩
      · left
        refine ⟨pre, ev, f1, col, f2, f3.trans hK.length, fun p i hp => ?_⟩
        obtain ⟨j, j1, j2⟩ := hK.get p i hp
        obtain ⟨it, g1, g2⟩ := f4 p j j1
        exact ⟨it, g1, j2.mem _ g2⟩
      · right
        refine ⟨f1, hK.trans f2, Nat.lt_of_lt_of_le f3 hK.waits⟩

end Verif.Combiner
