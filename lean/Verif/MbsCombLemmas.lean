import Verif.Spec.MbsComb

/-! # Lemmas on the MBS event builder -/

namespace Verif.MbsComb

open Verif.Bytes Verif.MbsIter

theorem accept_ev {c : Cfg} {k : ICfg} {e : Ev} {v : Cur} (ha : accept c k e = some (some v)) : v.ev = e := by
  unfold accept at ha
  split at ha
  · injection ha with ha; injection ha with ha; rw [← ha]
  · split at ha
    · injection ha with ha; injection ha with ha; rw [← ha]
    · split at ha
      · injection ha with ha; injection ha with ha; rw [← ha]
      · split at ha
        · cases ha
        · split at ha
          · cases ha
          · split at ha
            · injection ha with ha; injection ha with ha; rw [← ha]
            · cases ha

theorem scan_spec (c : Cfg) (k : ICfg) : ∀ (l : List Ev) {v : Cur} {r : List Ev}, scan c k l = some (some (v, r)) →
    accept c k v.ev = some (some v) ∧ (v.ev :: r).Sublist l
  | [], v, r, h => by cases h
  | e :: l, v, r, h => by
    unfold scan at h
    cases ha : accept c k e with
    | none => rw [ha] at h; cases h
    | some x =>
      rw [ha] at h
      cases x with
      | none =>
        obtain ⟨h1, h2⟩ := scan_spec c k l h
        exact ⟨h1, h2.trans (List.sublist_cons_self _ _)⟩
      | some w =>
        injection h with h
        injection h with h
        injection h with h1 h2
        subst h1 h2
        rw [accept_ev ha]
        exact ⟨ha, List.Sublist.refl _⟩

theorem find_spec (c : Cfg) (k : ICfg) : ∀ (q : List (List Ev)) (l : List Ev) {u : Option Cur} {r : List Ev} {q' : List (List Ev)}, find c k l q = some (u, r, q') →
    (∀ v, u = some v → accept c k v.ev = some (some v)) ∧ (u.toList.map Cur.ev ++ r ++ q'.flatten).Sublist (l ++ q.flatten) := by
  have hsome : ∀ (q : List (List Ev)) (l : List Ev) (v : Cur) (r : List Ev), scan c k l = some (some (v, r)) →
      (∀ w, some v = some w → accept c k w.ev = some (some w)) ∧ ((some v).toList.map Cur.ev ++ r ++ q.flatten).Sublist (l ++ q.flatten) := by
    intro q l v r hs
    obtain ⟨h1, h2⟩ := scan_spec c k l hs
    refine ⟨fun w hw => ?_, List.Sublist.append_right h2 _⟩
    injection hw with hw
    subst hw
    exact h1
  intro q
  induction q with
  | nil =>
    intro l u r q' h
    unfold find at h
    cases hs : scan c k l with
    | none => rw [hs] at h; cases h
    | some x =>
      rw [hs] at h
      cases x with
      | none =>
        injection h with h
        injection h with h1 h2
        injection h2 with h2 h3
        subst h1 h2 h3
        exact ⟨fun v hv => (by cases hv), List.nil_sublist _⟩
      | some y =>
        injection h with h
        injection h with h1 h2
        injection h2 with h2 h3
        subst h1 h2 h3
        exact hsome [] l _ _ hs
  | cons b q ih =>
    intro l u r q' h
    unfold find at h
    cases hs : scan c k l with
    | none => rw [hs] at h; cases h
    | some x =>
      rw [hs] at h
      cases x with
      | none =>
        obtain ⟨h1, h2⟩ := ih b h
        refine ⟨h1, h2.trans ?_⟩
        rw [List.flatten_cons]
        exact List.sublist_append_right _ _
      | some y =>
        injection h with h
        injection h with h1 h2
        injection h2 with h2 h3
        subst h1 h2 h3
        exact hsome (b :: q) l _ _ hs

/-- The current event of an input has its number. -/
def CurOk (c : Cfg) (i : Inp) : Prop := ∀ u, i.cur = some u → accept c i.cfg u.ev = some (some u)

theorem shift_spec {c : Cfg} {i i' : Inp} (h : shift c i = some i') :
    i'.cfg = i.cfg ∧ CurOk c i' ∧ (pending i').Sublist (i.rest ++ i.queue.flatten) := by
  unfold shift at h
  cases hf : find c i.cfg i.rest i.queue with
  | none => rw [hf] at h; cases h
  | some q =>
    obtain ⟨u, r, q'⟩ := q
    rw [hf] at h
    injection h with h
    subst h
    obtain ⟨h1, h2⟩ := find_spec c i.cfg _ _ hf
    exact ⟨rfl, h1, h2⟩

/-- An input before and after, and what it contributed. -/
inductive Rel (c : Cfg) : List Inp → Parts → List Inp → Prop where
  | nil : Rel c [] [] []
  | cons {i i' : Inp} {o : Option Ev} {is is' : List Inp} {ps : Parts} : i'.cfg = i.cfg → CurOk c i' → (o.toList ++ pending i').Sublist (pending i) → Rel c is ps is' →
      Rel c (i :: is) ((i.cfg, o) :: ps) (i' :: is')

/-- No contributions. -/
def noParts (is : List Inp) : Parts := is.map fun i => (i.cfg, none)

theorem Rel.refl {c : Cfg} : ∀ {is : List Inp}, (∀ i ∈ is, CurOk c i) → Rel c is (noParts is) is
  | [], _ => .nil
  | i :: is, h => .cons rfl (h i (List.mem_cons_self ..)) (List.Sublist.refl _) (Rel.refl fun j hj => h j (List.mem_cons_of_mem _ hj))

theorem Rel.ok {c : Cfg} {is is' : List Inp} {ps : Parts} (h : Rel c is ps is') : ∀ i ∈ is', CurOk c i := by
  induction h with
  | nil => intro i hi; cases hi
  | cons _ h2 _ _ ih =>
    intro i hi
    rcases List.mem_cons.1 hi with rfl | hi
    · exact h2
    · exact ih i hi

/-- After steps without contributions. -/
theorem Rel.after {c : Cfg} {is is' is'' : List Inp} {ps : Parts} (h : Rel c is (noParts is) is') (h' : Rel c is' ps is'') : Rel c is ps is'' := by
  generalize hn : noParts is = n at h
  induction h generalizing ps is'' with
  | nil => exact h'
  | @cons i i' o is is' ps1 h1 h2 h3 _ ih =>
    cases h' with
    | @cons _ i'' o' _ is'' ps' g1 g2 g3 g4 =>
      unfold noParts at hn
      rw [List.map_cons] at hn
      injection hn with hn1 hn2
      injection hn1 with _ hn1
      subst hn1
      rw [h1]
      exact .cons (g1.trans h1) g2 (g3.trans h3) (ih g4 hn2)

theorem Rel.noParts_eq {c : Cfg} {is is' : List Inp} {ps : Parts} (h : Rel c is ps is') : noParts is' = noParts is := by
  induction h with
  | nil => rfl
  | cons h1 _ _ _ ih =>
    unfold noParts at ih ⊢
    rw [List.map_cons, List.map_cons, ih, h1]

theorem dropFull_rel (c : Cfg) (env : Env) : ∀ (n : Nat) (is : List Inp), (∀ i ∈ is, CurOk c i) → Rel c is (noParts is) (dropFull env n is)
  | _, [], _ => .nil
  | n, i :: is, h => by
    have ih := dropFull_rel c env (n + 1) is fun j hj => h j (List.mem_cons_of_mem _ hj)
    unfold dropFull
    split
    · unfold dropBuffer
      cases hc : i.cur with
      | none =>
        refine .cons rfl (fun u hu => by cases hu) ?_ ih
        unfold pending
        rw [hc]
        show (i.queue.tail.flatten).Sublist (i.rest ++ i.queue.flatten)
        cases i.queue with
        | nil => exact List.nil_sublist _
        | cons b q =>
          rw [List.flatten_cons]
          exact (List.sublist_append_right b _).trans (List.sublist_append_right _ _)
      | some u =>
        refine .cons rfl (fun u hu => by cases hu) ?_ ih
        unfold pending
        rw [hc]
        show (i.queue.flatten).Sublist (_ ++ i.rest ++ i.queue.flatten)
        exact List.sublist_append_right _ _
    · exact .cons rfl (h i (List.mem_cons_self ..)) (List.Sublist.refl _) ih

theorem collect_rel (c : Cfg) (env : Env) (mostly : Bool) : ∀ (n : Nat) (is : List Inp) {b : Bool} {is' : List Inp}, (∀ i ∈ is, CurOk c i) →
    collect c env mostly n is = some (b, is') → Rel c is (noParts is) is'
  | _, [], b, is', _, h => by
    injection h with h
    injection h with _ h
    subst h
    exact .nil
  | n, i :: is, b, is', hok, h => by
    unfold collect at h
    have hhead : ∀ i', (if i.cur.isSome then some i else shift c i) = some i' → i'.cfg = i.cfg ∧ CurOk c i' ∧ (pending i').Sublist (pending i) := by
      intro i' hi
      split at hi
      · injection hi with hi
        subst hi
        exact ⟨rfl, hok i (List.mem_cons_self ..), List.Sublist.refl _⟩
      · obtain ⟨h1, h2, h3⟩ := shift_spec hi
        refine ⟨h1, h2, h3.trans ?_⟩
        unfold pending
        rw [List.append_assoc]
        exact List.sublist_append_right _ _
    split at h
    · cases h
    · rename_i i' hi
      obtain ⟨h1, h2, h3⟩ := hhead i' hi
      split at h
      · cases hc : collect c env mostly (n + 1) is with
        | none => rw [hc] at h; cases h
        | some q =>
          obtain ⟨b', is2⟩ := q
          rw [hc] at h
          injection h with h
          injection h with hb h
          subst h
          exact .cons h1 h2 h3 (collect_rel c env mostly (n + 1) is (fun j hj => hok j (List.mem_cons_of_mem _ hj)) hc)
      · injection h with h
        injection h with _ h
        subst h
        exact .cons h1 h2 h3 (Rel.refl fun j hj => hok j (List.mem_cons_of_mem _ hj))

/-- Only current events are selected. -/
theorem selection_cur (nr : Word) (special : Bool) : ∀ (is : List Inp), List.Forall₂ (fun i o => ∀ u, o = some u → i.cur = some u) is (selection nr special is)
  | [] => .nil
  | i :: is => by
    have ih := selection_cur nr special is
    have hnone : ∀ is : List Inp, List.Forall₂ (fun i o => ∀ u, o = some u → i.cur = some u) is (is.map fun _ => (none : Option Cur)) := by
      intro is
      induction is with
      | nil => exact .nil
      | cons i is ih => exact .cons (fun u hu => by cases hu) ih
    unfold selection
    cases hc : i.cur with
    | none => exact .cons (fun u hu => by cases hu) ih
    | some u =>
      dsimp only
      split
      · split
        · exact .cons (fun v hv => by rw [hc]; exact hv) (hnone is)
        · exact .cons (fun u hu => by cases hu) ih
      · refine .cons (fun v hv => ?_) ih
        split at hv
        · rw [hc]; exact hv
        · cases hv

/-- Contributions by a selection. -/
def partsOf (sel : List (Inp × Option Cur)) : Parts := sel.map fun q => (q.1.cfg, q.2.map Cur.ev)

theorem advance_rel (c : Cfg) (skip : Bool) : ∀ (is : List Inp) (os : List (Option Cur)) {is' : List Inp}, List.Forall₂ (fun i o => ∀ u, o = some u → i.cur = some u) is os →
    (∀ i ∈ is, CurOk c i) → advance c skip (is.zip os) = some is' →
    Rel c is (noParts is) is' ∧ (skip = false → Rel c is (partsOf (is.zip os)) is')
  | [], [], is', _, _, h => by
    injection h with h
    subst h
    exact ⟨.nil, fun _ => .nil⟩
  | i :: is, o :: os, is', hf, hok, h => by
    cases hf with
    | cons hc hf =>
      rw [List.zip_cons_cons] at h
      unfold advance at h
      split at h
      · cases h
      · rename_i i' hi
        cases ha : advance c skip (is.zip os) with
        | none => rw [ha] at h; cases h
        | some is2 =>
          rw [ha] at h
          injection h with h
          subst h
          obtain ⟨r1, r2⟩ := advance_rel c skip is os hf (fun j hj => hok j (List.mem_cons_of_mem _ hj)) ha
          have hsub : (pending i).Sublist (pending i) := List.Sublist.refl _
          cases o with
          | none =>
            rw [if_neg (by simp)] at hi
            injection hi with hi
            subst hi
            exact ⟨.cons rfl (hok i (List.mem_cons_self ..)) hsub r1, fun hs => .cons rfl (hok i (List.mem_cons_self ..)) hsub (r2 hs)⟩
          | some u =>
            have hu := hc u rfl
            have hp : pending i = u.ev :: (i.rest ++ i.queue.flatten) := by
              unfold pending
              rw [hu]
              rfl
            split at hi
            · obtain ⟨h1, h2, h3⟩ := shift_spec hi
              refine ⟨.cons h1 h2 ?_ r1, fun hs => .cons h1 h2 ?_ (r2 hs)⟩
              · rw [hp]
                exact h3.trans (List.sublist_cons_self _ _)
              · rw [hp]
                exact h3.cons_cons _
            · rename_i hn
              injection hi with hi
              subst hi
              refine ⟨.cons rfl (hok i (List.mem_cons_self ..)) hsub r1, fun hs => ?_⟩
              rw [hs] at hn
              exact absurd rfl hn

/-! ## Numbers -/

theorem findSub_mem (id : Word) : ∀ (l : List Sub) {x : Sub}, findSub id l = some x → x ∈ l ∧ x.id = id
  | [], _, h => by cases h
  | y :: l, x, h => by
    unfold findSub at h
    split at h
    · injection h with h
      subst h
      exact ⟨List.mem_cons_self .., by assumption⟩
    · split at h
      · obtain ⟨h1, h2⟩ := findSub_mem id l h
        exact ⟨List.mem_cons_of_mem _ h1, h2⟩
      · cases h

theorem accept_special {c : Cfg} {k : ICfg} {e : Ev} {u : Cur} (h : accept c k e = some (some u)) : u.special = true ↔ Special c k e := by
  unfold accept at h
  unfold Special
  by_cases hs : (k.realMbs && decide (trigger e ≥ c.limit)) = true
  · rw [if_pos hs] at h
    injection h with h
    injection h with h
    subst h
    rw [Bool.and_eq_true, decide_eq_true_eq] at hs
    exact ⟨fun _ => hs, fun _ => rfl⟩
  · rw [if_neg hs] at h
    have : u.special = false := by
      split at h
      · injection h with h; injection h with h; rw [← h]
      · split at h
        · injection h with h; injection h with h; rw [← h]
        · split at h
          · cases h
          · split at h
            · cases h
            · split at h
              · injection h with h; injection h with h; rw [← h]
              · cases h
    rw [this]
    rw [Bool.and_eq_true, decide_eq_true_eq] at hs
    exact ⟨fun hf => (by cases hf), fun hf => absurd hf hs⟩

theorem accept_number {c : Cfg} {k : ICfg} {e : Ev} {u : Cur} (h : accept c k e = some (some u)) (hs : u.special = false) (hn : k.noNum = false) : IsNumber c k e u.nr := by
  have hsp := accept_special h
  rw [hs] at hsp
  unfold accept at h
  rw [if_neg] at h
  · by_cases hr : k.realNum = true
    · rw [if_pos hr] at h
      injection h with h
      injection h with h
      subst h
      exact Or.inl ⟨hr, rfl⟩
    · rw [if_neg hr, if_neg (by rw [hn]; decide)] at h
      refine Or.inr ⟨by simpa using hr, ?_⟩
      split at h
      · cases h
      · split at h
        · cases h
        · rename_i x hx
          split at h
          · rename_i hl
            injection h with h
            injection h with h
            subst h
            obtain ⟨h1, h2⟩ := findSub_mem _ _ hx
            exact ⟨x, h1, h2, hl, rfl⟩
          · cases h
  · intro hc
    rw [Bool.and_eq_true, decide_eq_true_eq] at hc
    have := hsp.2 hc
    cases this

end Verif.MbsComb
