import Verif.Spec.ModuleItems

/-!
# Invariants of the items of a module
-/

namespace Verif.ModuleItems
open Verif.ModuleItems.Spec

/-- A new value of `fSubId`. -/
def withSub (n : Nat) (it : Item) : Item := { it with sub := n }

theorem itemOf_setSub (its : List (Option Item)) (a n id : Nat) :
    itemOf (setSub its a n) id = if a = id then (itemOf its id).map (withSub n) else itemOf its id := by
  unfold itemOf setSub
  rw [List.getElem?_modify]
  by_cases h : a = id
  · subst h
    simp only [if_true]
    rcases its[a]? with _ | (_ | it) <;> rfl
  · simp only [if_neg h]
    rcases its[id]? with _ | (_ | it) <;> rfl

theorem length_setSub (its : List (Option Item)) (a n : Nat) : (setSub its a n).length = its.length := by simp [setSub]

/-- `SetItemSubId` for all elements of a list, from number `n` on. -/
def setAll : Nat → List Nat → List (Option Item) → List (Option Item)
  | _, [], its => its
  | n, a :: l, its => setAll (n + 1) l (setSub its a n)

theorem setAll_not {l : List Nat} : ∀ {n : Nat} {its : List (Option Item)} {id : Nat}, id ∉ l → itemOf (setAll n l its) id = itemOf its id := by
  induction l with
  | nil => intro n its id _; rfl
  | cons a l ih =>
    intro n its id h
    rw [List.mem_cons, not_or] at h
    rw [setAll, ih h.2, itemOf_setSub, if_neg (fun e => h.1 e.symm)]

theorem setAll_at {l : List Nat} : ∀ {n : Nat} {its : List (Option Item)} {i id : Nat}, l.Nodup → l[i]? = some id →
    itemOf (setAll n l its) id = (itemOf its id).map (withSub (n + i)) := by
  induction l with
  | nil => intro n its i id _ h; simp at h
  | cons a l ih =>
    intro n its i id hn h
    rw [List.nodup_cons] at hn
    cases i with
    | zero =>
      simp only [List.getElem?_cons_zero, Option.some.injEq] at h
      subst h
      rw [setAll, setAll_not hn.1, itemOf_setSub, if_pos rfl, Nat.add_zero]
    | succ i =>
      simp only [List.getElem?_cons_succ] at h
      have : a ≠ id := by rintro rfl; exact hn.1 (List.mem_of_getElem? h)
      rw [setAll, ih hn.2 h, itemOf_setSub, if_neg this]
      congr 2
      omega

theorem setAll_any (l : List Nat) : ∀ (n : Nat) (its : List (Option Item)) (id : Nat),
    ∃ f : Item → Item, (∀ it, ∃ s, f it = withSub s it) ∧ itemOf (setAll n l its) id = (itemOf its id).map f := by
  induction l with
  | nil => intro n its id; exact ⟨fun it => it, fun it => ⟨it.sub, rfl⟩, by simp [setAll]⟩
  | cons a l ih =>
    intro n its id
    obtain ⟨f, hf, h⟩ := ih (n + 1) (setSub its a n) id
    rw [setAll, h, itemOf_setSub]
    by_cases e : a = id
    · refine ⟨fun it => f (withSub n it), fun it => ?_, by rw [if_pos e, Option.map_map]; rfl⟩
      obtain ⟨s, hs⟩ := hf (withSub n it)
      exact ⟨s, hs⟩
    · exact ⟨f, hf, by rw [if_neg e]⟩

theorem renum_not {x : Nat} {l : List Nat} : ∀ {n : Nat} {its : List (Option Item)}, x ∉ l → renum x n false l its = (l, setAll n l its) := by
  induction l with
  | nil => intro n its _; rfl
  | cons a l ih =>
    intro n its h
    rw [List.mem_cons, not_or] at h
    rw [renum, if_neg (fun e => h.1 e.symm)]
    simp only [ih h.2, setAll]

theorem renum_at {x : Nat} {l t : List Nat} : ∀ {n : Nat} {its : List (Option Item)}, x ∉ l → x ∉ t →
    renum x n false (l ++ x :: t) its = (l ++ t, setAll (n + l.length + 1) t.tail (setAll n l its)) := by
  induction l with
  | nil =>
    intro n its _ h
    rw [List.nil_append, renum, if_pos rfl]
    cases t with
    | nil => rfl
    | cons b t =>
      rw [List.mem_cons, not_or] at h
      simp only [renum, renum_not h.2]
      rfl
  | cons a l ih =>
    intro n its h h'
    rw [List.mem_cons, not_or] at h
    rw [List.cons_append, renum, if_neg (fun e => h.1 e.symm)]
    simp only [ih h.2 h', setAll, List.cons_append, List.length_cons]
    rw [show n + 1 + l.length + 1 = n + (l.length + 1) + 1 by omega]

/-- What a loop of `RemoveModuleItem` does: the item is removed from its list; items of other lists stay; all items of the list
get their position as index, besides the one which takes the position of the removed one. -/
theorem renum_spec {x : Nat} {v : List Nat} {its : List (Option Item)} (hn : v.Nodup) :
    (renum x 0 false v its).1 = v.erase x ∧
    (∀ id, ∃ f : Item → Item, (∀ it, ∃ s, f it = withSub s it) ∧ itemOf (renum x 0 false v its).2 id = (itemOf its id).map f) ∧
    (∀ id, id ∉ v → itemOf (renum x 0 false v its).2 id = itemOf its id) ∧
    (∀ i id, (v.erase x)[i]? = some id → itemOf (renum x 0 false v its).2 id =
      if v[i]? = some x then itemOf its id else (itemOf its id).map (withSub i)) := by
  by_cases hx : x ∈ v
  · obtain ⟨l, t, rfl⟩ := List.append_of_mem hx
    have hxl : x ∉ l := by
      intro h
      exact (List.nodup_append.1 hn).2.2 x h x (by simp) rfl
    have hxt : x ∉ t := (List.nodup_cons.1 (List.nodup_append.1 hn).2.1).1
    have hnl : l.Nodup := (List.nodup_append.1 hn).1
    have hnt : t.Nodup := (List.nodup_cons.1 (List.nodup_append.1 hn).2.1).2
    have hlt : ∀ a ∈ l, ∀ b ∈ t, a ≠ b := fun a ha b hb => (List.nodup_append.1 hn).2.2 a ha b (by simp [hb])
    rw [renum_at hxl hxt]
    have he : (l ++ x :: t).erase x = l ++ t := by rw [List.erase_append_right _ hxl]; simp
    rw [he]
    refine ⟨rfl, fun id => ?_, fun id h => ?_, fun i id h => ?_⟩
    · obtain ⟨f, hf, h1⟩ := setAll_any t.tail (0 + l.length + 1) (setAll 0 l its) id
      obtain ⟨g, hg, h2⟩ := setAll_any l 0 its id
      refine ⟨f ∘ g, fun it => ?_, by rw [h1, h2, Option.map_map]⟩
      obtain ⟨s, hs⟩ := hg it
      obtain ⟨s', hs'⟩ := hf (g it)
      exact ⟨s', by rw [Function.comp, hs', hs]; rfl⟩
    · have h1 : id ∉ l := fun hm => h (by simp [hm])
      have h2 : id ∉ t.tail := fun hm => h (by simp [List.mem_of_mem_tail hm])
      rw [setAll_not h2, setAll_not h1]
    · by_cases hi : i < l.length
      · rw [List.getElem?_append_left hi] at h
        have hm := List.mem_of_getElem? h
        rw [setAll_not (fun hm' => hlt id hm id (List.mem_of_mem_tail hm') rfl), setAll_at hnl h, Nat.zero_add, if_neg]
        rw [List.getElem?_append_left hi]
        intro e
        exact hxl (List.mem_of_getElem? e)
      · rw [List.getElem?_append_right (by omega)] at h
        have hm := List.mem_of_getElem? h
        have hml : id ∉ l := fun hm' => hlt id hm' id hm rfl
        rw [List.getElem?_append_right (by omega)]
        cases hd : i - l.length with
        | zero =>
          rw [hd] at h
          rw [if_pos (by simp)]
          cases t with
          | nil => simp at h
          | cons b t =>
            simp at h
            subst h
            rw [setAll_not (by exact (List.nodup_cons.1 hnt).1), setAll_not hml]
        | succ d =>
          rw [hd] at h
          have h : t.tail[d]? = some id := by rw [List.getElem?_tail]; exact h
          have hne : ¬ (x :: t)[d + 1]? = some x := by
            rw [List.getElem?_cons_succ]
            intro e
            exact hxt (List.mem_of_getElem? e)
          rw [if_neg hne, setAll_at hnt.tail h, setAll_not hml]
          congr 2
          omega
  · rw [renum_not hx, List.erase_of_not_mem hx]
    refine ⟨rfl, setAll_any v 0 its, fun id h => setAll_not h, fun i id h => ?_⟩
    rw [if_neg (fun e => hx (List.mem_of_getElem? e)), setAll_at hn h, Nat.zero_add]

/-- Basic invariant: items are in the list of their kind, once, and names differ. -/
structure Base (m : M) : Prop where
  nodup : ∀ k, (m.vec k).Nodup
  kind : ∀ k id, id ∈ m.vec k → ∃ it, itemOf m.items id = some it ∧ it.kind = k
  names : ∀ k a b ita itb, a ∈ m.vec k → b ∈ m.vec k → itemOf m.items a = some ita → itemOf m.items b = some itb → ita.name = itb.name → ita.name ≠ [] → a = b

theorem Base.disj {m : M} (b : Base m) {k k' : Kind} {id : Nat} (h : id ∈ m.vec k) (h' : id ∈ m.vec k') : k = k' := by
  obtain ⟨it, h1, h2⟩ := b.kind k id h
  obtain ⟨it', h1', h2'⟩ := b.kind k' id h'
  rw [h1] at h1'
  cases h1'
  exact h2.symm.trans h2'

/-- The numbers of `fSubId` play no role. -/
theorem Base.of {m m' : M} (b : Base m) (h1 : ∀ k, (m'.vec k).Sublist (m.vec k))
    (h2 : ∀ k id, id ∈ m'.vec k → ∃ s, itemOf m'.items id = (itemOf m.items id).map (withSub s)) : Base m' := by
  refine ⟨fun k => (b.nodup k).sublist (h1 k), fun k id h => ?_, fun k x y ix iy hx hy h3 h4 h5 h6 => ?_⟩
  · obtain ⟨it, h3, h4⟩ := b.kind k id ((h1 k).mem h)
    obtain ⟨s, h5⟩ := h2 k id h
    exact ⟨withSub s it, by rw [h5, h3]; rfl, h4⟩
  · obtain ⟨s, e1⟩ := h2 k x hx
    obtain ⟨t, e2⟩ := h2 k y hy
    rw [e1, Option.map_eq_some_iff] at h3
    rw [e2, Option.map_eq_some_iff] at h4
    obtain ⟨jx, h3, rfl⟩ := h3
    obtain ⟨jy, h4, rfl⟩ := h4
    exact b.names k x y jx jy ((h1 k).mem hx) ((h1 k).mem hy) h3 h4 h5 h6

/-- `fSubId` of an item. -/
def subOf (m : M) (id : Nat) : Option Nat := (itemOf m.items id).map (·.sub)

theorem remKind_spec {x : Nat} {m : M} {k : Kind} (b : Base m) :
    Base (remKind x m k) ∧ (remKind x m k).sysIdx = m.sysIdx ∧ (remKind x m k).vec k = (m.vec k).erase x ∧ (∀ k', k' ≠ k → (remKind x m k).vec k' = m.vec k') ∧
    (∀ id, ∃ s, itemOf (remKind x m k).items id = (itemOf m.items id).map (withSub s)) ∧
    (∀ id, id ∉ m.vec k → itemOf (remKind x m k).items id = itemOf m.items id) ∧
    (∀ i id, ((m.vec k).erase x)[i]? = some id → subOf (remKind x m k) id = if (m.vec k)[i]? = some x then subOf m id else some i) := by
  obtain ⟨h1, h2, h3, h4⟩ := renum_spec (x := x) (its := m.items) (b.nodup k)
  have e1 : (remKind x m k).vec k = (m.vec k).erase x := by simp only [remKind, if_true]; exact h1
  have e2 : ∀ k', k' ≠ k → (remKind x m k).vec k' = m.vec k' := fun k' h => by simp only [remKind, if_neg h]
  have h2' : ∀ id, ∃ s, itemOf (remKind x m k).items id = (itemOf m.items id).map (withSub s) := by
    intro id
    obtain ⟨f, hf, e⟩ := h2 id
    cases ho : itemOf m.items id with
    | none => exact ⟨0, by rw [show itemOf (remKind x m k).items id = _ from e, ho]; rfl⟩
    | some it =>
      obtain ⟨s, hs⟩ := hf it
      exact ⟨s, by rw [show itemOf (remKind x m k).items id = _ from e, ho]; simp [hs]⟩
  refine ⟨b.of (fun k' => ?_) (fun k' id h => ?_), rfl, e1, e2, h2', h3, fun i id h => ?_⟩
  · by_cases h : k' = k
    · subst h; rw [e1]; exact List.erase_sublist
    · rw [e2 k' h]; exact List.Sublist.refl _
  · exact h2' id
  · have hm : id ∈ m.vec k := List.mem_of_mem_erase (List.mem_of_getElem? h)
    obtain ⟨it, hi, -⟩ := b.kind k id hm
    have := h4 i id h
    unfold subOf
    rw [show itemOf (remKind x m k).items id = _ from this, hi]
    split <;> rfl

theorem fold_spec {x : Nat} (ks : List Kind) : ∀ {m : M}, Base m → ks.Nodup →
    Base (ks.foldl (remKind x) m) ∧ (ks.foldl (remKind x) m).sysIdx = m.sysIdx ∧
    (∀ k, k ∈ ks → (ks.foldl (remKind x) m).vec k = (m.vec k).erase x) ∧ (∀ k, k ∉ ks → (ks.foldl (remKind x) m).vec k = m.vec k) ∧
    (∀ id, ∃ s, itemOf (ks.foldl (remKind x) m).items id = (itemOf m.items id).map (withSub s)) ∧
    (∀ id, (∀ k ∈ ks, id ∉ m.vec k) → itemOf (ks.foldl (remKind x) m).items id = itemOf m.items id) ∧
    (∀ k i id, k ∈ ks → ((m.vec k).erase x)[i]? = some id →
      subOf (ks.foldl (remKind x) m) id = if (m.vec k)[i]? = some x then subOf m id else some i) := by
  induction ks with
  | nil =>
    intro m b _
    refine ⟨b, rfl, fun k h => (by simp at h), fun k _ => rfl, fun id => ?_, fun id _ => rfl, fun k i id h => (by simp at h)⟩
    cases ho : itemOf m.items id with
    | none => exact ⟨0, by rw [List.foldl_nil, ho]; rfl⟩
    | some it => exact ⟨it.sub, by rw [List.foldl_nil, ho]; rfl⟩
  | cons k0 ks ih =>
    intro m b hn
    rw [List.nodup_cons] at hn
    obtain ⟨b1, y1, v1, w1, s1, u1, p1⟩ := remKind_spec (x := x) (k := k0) b
    obtain ⟨b2, y2, v2, w2, s2, u2, p2⟩ := ih b1 hn.2
    rw [List.foldl_cons]
    have hne : ∀ k ∈ ks, k ≠ k0 := by rintro k h rfl; exact hn.1 h
    refine ⟨b2, y2.trans y1, fun k h => ?_, fun k h => ?_, fun id => ?_, fun id h => ?_, fun k i id h he => ?_⟩
    · rcases List.mem_cons.1 h with rfl | h
      · rw [w2 _ hn.1, v1]
      · rw [v2 k h, w1 k (hne k h)]
    · rw [List.mem_cons, not_or] at h
      rw [w2 k h.2, w1 k h.1]
    · obtain ⟨s, e1⟩ := s1 id
      obtain ⟨t, e2⟩ := s2 id
      exact ⟨t, by rw [e2, e1, Option.map_map]; rfl⟩
    · rw [u2 id (fun k hk => by rw [w1 k (hne k hk)]; exact h k (by simp [hk])), u1 id (h k0 (by simp))]
    · have hm : id ∈ m.vec k := List.mem_of_mem_erase (List.mem_of_getElem? he)
      rcases List.mem_cons.1 h with rfl | h
      · have hnot : ∀ k' ∈ ks, id ∉ (remKind x m k).vec k' := by
          intro k' hk' hc
          rw [w1 k' (hne k' hk')] at hc
          exact hne k' hk' (b.disj hc hm)
        have : subOf (List.foldl (remKind x) (remKind x m k) ks) id = subOf (remKind x m k) id := by unfold subOf; rw [u2 id hnot]
        rw [this, p1 i id he]
      · have hk : k ≠ k0 := hne k h
        have he' := he
        rw [← w1 k hk] at he'
        rw [p2 k i id h he', w1 k hk]
        have : subOf (remKind x m k0) id = subOf m id := by
          unfold subOf
          rw [u1 id (fun hc => hk (b.disj hm hc))]
        rw [this]

theorem conn_not_all (k : Kind) (h : k ≠ .conn) : k ∈ [Kind.inp, .out, .pool, .timer, .user] := by cases k <;> simp at h ⊢

/-- What `RemoveModuleItem` does. -/
theorem remove_spec {x : Nat} {m : M} (b : Base m) (hc : m.vec .conn = []) :
    Base (remove m x) ∧ (remove m x).sysIdx = m.sysIdx ∧ (∀ k, (remove m x).vec k = (m.vec k).erase x) ∧
    itemOf (remove m x).items x = none ∧
    (∀ id, id ≠ x → ∃ s, itemOf (remove m x).items id = (itemOf m.items id).map (withSub s)) ∧
    (∀ k i id, ((m.vec k).erase x)[i]? = some id → subOf (remove m x) id = if (m.vec k)[i]? = some x then subOf m id else some i) := by
  obtain ⟨b1, y1, v1, w1, s1, u1, p1⟩ := fold_spec (x := x) [Kind.inp, .out, .pool, .timer, .user] b (by decide)
  have hv : ∀ k, (remove m x).vec k = (m.vec k).erase x := by
    intro k
    by_cases h : k = .conn
    · subst h; rw [hc]; exact (w1 .conn (by decide)).trans hc
    · exact v1 k (conn_not_all k h)
  have hi : ∀ id, id ≠ x → itemOf (remove m x).items id = itemOf ([Kind.inp, .out, .pool, .timer, .user].foldl (remKind x) m).items id := by
    intro id h
    unfold itemOf remove
    dsimp only
    rw [List.getElem?_set, if_neg (fun e => h e.symm)]
  have hxx : itemOf (remove m x).items x = none := by
    unfold itemOf remove
    dsimp only
    rw [List.getElem?_set, if_pos rfl]
    split <;> rfl
  have hmem : ∀ k id, id ∈ (remove m x).vec k → id ≠ x := by
    intro k id h
    rw [hv k, (b.nodup k).mem_erase_iff] at h
    exact h.1
  have hs : ∀ id, id ≠ x → ∃ s, itemOf (remove m x).items id = (itemOf m.items id).map (withSub s) := by
    intro id h
    obtain ⟨s, e⟩ := s1 id
    exact ⟨s, (hi id h).trans e⟩
  refine ⟨b.of (fun k => by rw [hv k]; exact List.erase_sublist) (fun k id h => hs id (hmem k id h)), y1, hv, hxx, hs, fun k i id h => ?_⟩
  have hk : k ≠ .conn := by
    rintro rfl
    rw [hc] at h
    simp at h
  have hne : id ≠ x := hmem k id (by rw [hv k]; exact List.mem_of_getElem? h)
  have := p1 k i id (conn_not_all k hk) h
  unfold subOf at *
  rw [hi id hne]
  exact this

theorem itemOf_lt {its : List (Option Item)} {id : Nat} {it : Item} (h : itemOf its id = some it) : id < its.length := by
  unfold itemOf at h
  by_cases hl : id < its.length
  · exact hl
  · rw [List.getElem?_eq_none (by omega)] at h; cases h

theorem itemOf_append {its : List (Option Item)} {it : Item} {id : Nat} :
    itemOf (its ++ [some it]) id = if id = its.length then some it else itemOf its id := by
  unfold itemOf
  by_cases h : id < its.length
  · rw [List.getElem?_append_left h, if_neg (by omega)]
  · rw [List.getElem?_append_right (by omega)]
    by_cases e : id = its.length
    · rw [if_pos e, e]; simp
    · rw [if_neg e, List.getElem?_eq_none (l := its) (by omega)]
      rw [List.getElem?_eq_none (by simp; omega)]

/-- Whether a new timer becomes the one of the module. -/
def isSys (m : M) (k : Kind) (name : List Char) : Bool :=
  decide (k = .timer) && !(match m.sysIdx with | some i => decide (i < (m.vec .timer).length) | none => false) && ['S', 'y', 's'].isPrefixOf name

theorem create_cases {m m' : M} {k : Kind} {name : List Char} {ok : Bool} {r : Option Nat} (h : create m k name ok = some (r, m')) :
    (∃ i, find m k name = some i ∧ r = some i ∧ m' = m) ∨ (find m k name = none ∧ ok = false ∧ r = none ∧ m' = m) ∨
      (find m k name = none ∧ ok = true ∧ r = some (m.vec k).length ∧ m.items.length ≤ 65534 ∧
        m' = ⟨m.items ++ [some ⟨k, name, (m.vec k).length, isSys m k name⟩], fun k' => if k' = k then m.vec k ++ [m.items.length] else m.vec k',
          if isSys m k name then some (m.vec k).length else m.sysIdx⟩) := by
  unfold create at h
  split at h
  next i hf => cases h; exact .inl ⟨i, hf, rfl, rfl⟩
  next hf =>
    split at h
    next ho =>
      dsimp only at h
      rw [Option.map_eq_some_iff] at h
      obtain ⟨⟨n, m1⟩, h1, h2⟩ := h
      unfold add at h1
      split at h1
      · cases h1
      next hl =>
        cases h1
        cases h2
        exact .inr (.inr ⟨hf, ho, rfl, by omega, rfl⟩)
    next ho =>
      cases h
      exact .inr (.inl ⟨hf, by simpa using ho, rfl, rfl⟩)

theorem find_some {m : M} {k : Kind} {name : List Char} {i : Nat} (h : find m k name = some i) : name ≠ [] ∧ ∃ id, At m k i id ∧ Named m id name := by
  unfold find at h
  split at h
  · cases h
  next hn =>
    rw [List.findIdx?_eq_some_iff_getElem] at h
    obtain ⟨hl, h1, -⟩ := h
    refine ⟨hn, (m.vec k)[i], List.getElem?_eq_getElem hl, ?_⟩
    split at h1
    next it e => exact ⟨it, e, of_decide_eq_true h1⟩
    · cases h1

theorem find_none {m : M} {k : Kind} {name : List Char} (h : find m k name = none) (hn : name ≠ []) : ∀ id ∈ m.vec k, ¬ Named m id name := by
  unfold find at h
  rw [if_neg hn, List.findIdx?_eq_none_iff] at h
  rintro id hid ⟨it, e1, e2⟩
  have := h id hid
  rw [e1] at this
  simp [e2] at this

/-- New item in a module. -/
theorem Base.create {m : M} {k : Kind} {name : List Char} {s : Bool} {y : Option Nat} (b : Base m) (hf : find m k name = none) :
    Base ⟨m.items ++ [some ⟨k, name, (m.vec k).length, s⟩], fun k' => if k' = k then m.vec k ++ [m.items.length] else m.vec k', y⟩ := by
  have hlt : ∀ k id, id ∈ m.vec k → id < m.items.length := by
    intro k id h
    obtain ⟨it, h1, -⟩ := b.kind k id h
    exact itemOf_lt h1
  have hold : ∀ k id, id ∈ m.vec k → itemOf (m.items ++ [some ⟨k, name, (m.vec k).length, s⟩]) id = itemOf m.items id := by
    intro k id h
    rw [itemOf_append, if_neg (Nat.ne_of_lt (hlt k id h))]
  have hold' : ∀ k0 k id, id ∈ m.vec k → itemOf (m.items ++ [some ⟨k0, name, (m.vec k0).length, s⟩]) id = itemOf m.items id := by
    intro k0 k id h
    rw [itemOf_append, if_neg (Nat.ne_of_lt (hlt k id h))]
  have hmem : ∀ k' id, id ∈ (if k' = k then m.vec k ++ [m.items.length] else m.vec k') → id ∈ m.vec k' ∨ k' = k ∧ id = m.items.length := by
    intro k' id h
    split at h
    next e =>
      subst e
      rw [List.mem_append, List.mem_singleton] at h
      exact h.imp_right (fun h => ⟨rfl, h⟩)
    · exact .inl h
  refine ⟨fun k' => ?_, fun k' id h => ?_, fun k' a c ia ic ha hc h1 h2 h3 h4 => ?_⟩
  · dsimp only
    split
    · rw [List.nodup_append]
      refine ⟨b.nodup k, by simp, fun a ha c hc => ?_⟩
      rw [List.mem_singleton] at hc
      have := hlt k a ha
      omega
    · exact b.nodup k'
  · rcases hmem k' id h with h | ⟨rfl, rfl⟩
    · obtain ⟨it, h1, h2⟩ := b.kind k' id h
      exact ⟨it, by rw [hold' k k' id h]; exact h1, h2⟩
    · exact ⟨_, by rw [itemOf_append, if_pos rfl], rfl⟩
  · dsimp only at h1 h2
    rcases hmem k' a ha with ha' | ⟨rfl, rfl⟩
    · rw [hold' k k' a ha'] at h1
      rcases hmem k' c hc with hc | ⟨rfl, rfl⟩
      · rw [hold' k k' c hc] at h2
        exact b.names k' a c ia ic ha' hc h1 h2 h3 h4
      · rw [itemOf_append, if_pos rfl] at h2
        cases h2
        have h3 : ia.name = name := h3
        exact absurd ⟨ia, h1, h3⟩ (find_none hf (by rw [← h3]; exact h4) a ha')
    · rw [itemOf_append, if_pos rfl] at h1
      cases h1
      have h4 : name ≠ [] := h4
      rcases hmem k' c hc with hc | ⟨-, rfl⟩
      · rw [hold' k' k' c hc] at h2
        exact absurd ⟨ic, h2, h3.symm⟩ (find_none hf h4 c hc)
      · rfl

/-- Basic invariant for all operations. -/
def Inv (m : M) : Prop := Base m ∧ m.vec .conn = []

theorem Inv.fresh : Inv fresh := ⟨⟨fun _ => by simp [ModuleItems.fresh], fun k id h => (by simp [ModuleItems.fresh] at h), fun k a b ia ib h => (by simp [ModuleItems.fresh] at h)⟩, rfl⟩

theorem add_conn {m m' : M} {name : List Char} (h : addConn m name = some m') :
    m.items.length ≤ 65534 ∧ m' = { m with items := m.items ++ [some ⟨.conn, name, 0, false⟩] } := by
  unfold addConn add at h
  split at h
  · cases h
  next hl => cases h; exact ⟨by omega, rfl⟩

theorem Inv.step {m m' : M} {op : Op} (i : Inv m) (h : step m op = some m') : Inv m' := by
  cases op with
  | create k name ok =>
    simp only [ModuleItems.step] at h
    split at h
    · cases h
    next hk =>
      rw [Option.map_eq_some_iff] at h
      obtain ⟨⟨r, m1⟩, h1, rfl⟩ := h
      rcases create_cases h1 with ⟨_, _, _, rfl⟩ | ⟨_, _, _, rfl⟩ | ⟨hf, -, -, -, rfl⟩
      · exact i
      · exact i
      · refine ⟨i.1.create hf, ?_⟩
        change (if Kind.conn = k then _ else m.vec .conn) = []
        rw [if_neg (fun e => hk e.symm)]
        exact i.2
  | addConn name =>
    obtain ⟨-, rfl⟩ := add_conn h
    refine ⟨i.1.of (fun k => List.Sublist.refl _) (fun k id h => ?_), i.2⟩
    obtain ⟨it, h1, -⟩ := i.1.kind k id h
    exact ⟨it.sub, by rw [itemOf_append, if_neg (Nat.ne_of_lt (itemOf_lt h1)), h1]; rfl⟩
  | remove x =>
    simp only [ModuleItems.step] at h
    split at h
    · cases h
      obtain ⟨b, -, v, -, -, -⟩ := remove_spec (x := x) i.1 i.2
      exact ⟨b, by rw [v, i.2]; rfl⟩
    · cases h

/-- Items whose index is right. -/
def Right (m : M) (k : Kind) (i : Nat) : Prop := ∀ id, At m k i id → subOf m id = some i

theorem Right.create {m m' : M} {k : Kind} {name : List Char} {ok : Bool} {r : Option Nat} (i : Inv m) (h : create m k name ok = some (r, m'))
    {k' : Kind} {p : Nat} (hr : p < (m.vec k').length → Right m k' p) : Right m' k' p := by
  rcases create_cases h with ⟨_, _, _, rfl⟩ | ⟨_, _, _, rfl⟩ | ⟨hf, -, -, -, rfl⟩
  · intro id ha; exact hr (List.getElem?_eq_some_iff.1 ha).1 id ha
  · intro id ha; exact hr (List.getElem?_eq_some_iff.1 ha).1 id ha
  · intro id ha
    have old : At m k' p id → subOf (⟨m.items ++ [some ⟨k, name, (m.vec k).length, isSys m k name⟩], fun k' => if k' = k then m.vec k ++ [m.items.length] else m.vec k',
          if isSys m k name then some (m.vec k).length else m.sysIdx⟩ : M) id = some p := by
      intro ha
      obtain ⟨it, h1, -⟩ := i.1.kind k' id (List.mem_of_getElem? ha)
      have := hr (List.getElem?_eq_some_iff.1 ha).1 id ha
      unfold subOf at *
      rw [itemOf_append, if_neg (Nat.ne_of_lt (itemOf_lt h1))]
      exact this
    by_cases e : k' = k
    · subst e
      have ha : (m.vec k' ++ [m.items.length])[p]? = some id := by
        have : (if k' = k' then m.vec k' ++ [m.items.length] else m.vec k')[p]? = some id := ha
        rwa [if_pos rfl] at this
      by_cases hp : p < (m.vec k').length
      · rw [List.getElem?_append_left hp] at ha
        exact old ha
      · rw [List.getElem?_append_right (by omega)] at ha
        have hp2 : p - (m.vec k').length = 0 := by
          cases hd : p - (m.vec k').length with
          | zero => rfl
          | succ d => rw [hd] at ha; simp at ha
        rw [hp2] at ha
        simp at ha
        subst ha
        unfold subOf
        rw [itemOf_append, if_pos rfl]
        have : p = (m.vec k').length := by omega
        rw [this]; rfl
    · refine old ?_
      have : (if k' = k then m.vec k ++ [m.items.length] else m.vec k')[p]? = some id := ha
      rwa [if_neg e] at this

theorem Right.addConn {m m' : M} {name : List Char} (i : Inv m) (h : addConn m name = some m') {k' : Kind} {p : Nat} (hr : Right m k' p) : Right m' k' p := by
  obtain ⟨-, rfl⟩ := add_conn h
  intro id ha
  obtain ⟨it, h1, -⟩ := i.1.kind k' id (List.mem_of_getElem? ha)
  have := hr id ha
  unfold subOf at *
  rw [itemOf_append, if_neg (Nat.ne_of_lt (itemOf_lt h1))]
  exact this

/-- After the removal of an item all indices are right, besides the one of the item which followed. -/
theorem Right.remove {m : M} {x : Nat} (i : Inv m) {k : Kind} {p : Nat} (hx : ¬ At m k p x) : Right (remove m x) k p := by
  intro id ha
  obtain ⟨-, -, v, -, -, s⟩ := remove_spec (x := x) i.1 i.2
  unfold At at ha
  rw [v k] at ha
  rw [s k p id ha, if_neg (show ¬ (m.vec k)[p]? = some x from hx)]

end Verif.ModuleItems
