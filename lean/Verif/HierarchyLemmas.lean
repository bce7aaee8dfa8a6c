import Verif.Spec.Hierarchy

/-! # Lemmas about marking and streaming of hierarchies -/

namespace Verif.Hierarchy
variable {D X : Type}

theorem Mask.any_false {m : Mask} (h : m.any = false) : m = {} := by
  cases m with
  | mk a b c => simp [Mask.any] at h; simp [h]

/-- The parent of a marked item, base/src/Hierarchy.cxx:771-781. -/
def parentMark (ver : Nat) (stamp : X → X) (d : Data D X) (m : Mask) : Data D X :=
  { name := d.name, dns := d.dns, val := stamp d.val, nodeVer := ver, namesVer := if d.namesCh || m.names || (d.fch && d.fnames) then ver else d.namesVer, childsVer := if d.childsCh || m.value || m.childs then ver else d.childsVer }

/-- All about the marking of one item. -/
theorem mark_pos {ver : Nat} {stamp : X → X} {d : Data D X} {m : Mask} (h : (d.nodeCh || d.fch || m.any) = true) :
    ∃ nm cm, (d.mark ver stamp m) = ({ name := d.name, dns := d.dns, val := stamp d.val, nodeVer := ver, namesVer := if nm then ver else d.namesVer, childsVer := if cm then ver else d.childsVer }, ⟨true, m.names || nm, m.childs || cm⟩) ∧
      nm = (d.namesCh || m.names || (d.fch && d.fnames)) ∧ cm = (d.childsCh || m.value || m.childs) := by
  refine ⟨d.namesCh || m.names || (d.fch && d.fnames), d.childsCh || m.value || m.childs, ?_, rfl, rfl⟩
  unfold Data.mark Data.childMask
  cases hf : d.fch with
  | true => simp
  | false =>
    have : (d.nodeCh || m.any) = true := by simpa [hf] using h
    simp [hf, this]

theorem mark_neg {ver : Nat} {stamp : X → X} {d : Data D X} {m : Mask} (h : (d.nodeCh || d.fch || m.any) = false) :
    d.mark ver stamp m = (d, {}) ∧ m = {} := by
  simp only [Bool.or_eq_false_iff] at h
  have hm := Mask.any_false h.2
  subst hm
  refine ⟨?_, rfl⟩
  unfold Data.mark Data.childMask
  cases d
  simp at h
  simp [h, Mask.any]

mutual
theorem markAll_mask (ver : Nat) (stamp : X → X) : ∀ h : H D X, (markAll ver stamp h).2.any = h.dirty
  | .node d ch => by
    have ih := markList_mask ver stamp ch
    simp only [markAll, H.dirty]
    by_cases hp : (d.nodeCh || d.fch || (markList ver stamp ch).2.any) = true
    · obtain ⟨nm, cm, he, _, _⟩ := mark_pos (ver := ver) (stamp := stamp) hp
      rw [he]
      rw [ih] at hp
      simp only [Mask.any, Bool.true_or]
      rw [← hp]
      cases d.nodeCh <;> cases d.fch <;> simp
    · have hp : (d.nodeCh || d.fch || (markList ver stamp ch).2.any) = false := by simpa using hp
      rw [(mark_neg hp).1]
      rw [ih] at hp
      simp only [Bool.or_eq_false_iff] at hp
      simp [Mask.any, hp]
theorem markList_mask (ver : Nat) (stamp : X → X) : ∀ l : List (H D X), (markList ver stamp l).2.any = dirtyL l
  | [] => rfl
  | x :: xs => by
    have h1 := markAll_mask ver stamp x
    have h2 := markList_mask ver stamp xs
    simp only [markList, dirtyL, ← h1, ← h2, Mask.or, Mask.any]
    cases (markAll ver stamp x).2.value <;> cases (markAll ver stamp x).2.names <;> cases (markAll ver stamp x).2.childs <;> simp
end

/-- An item whose subtree has no change is not touched. -/
theorem markAll_clean_node {ver : Nat} {stamp : X → X} {d : Data D X} {ch : List (H D X)} (h : (H.node d ch).dirty = false) :
    markAll ver stamp (.node d ch) = (.node d (markList ver stamp ch).1, {}) := by
  simp only [H.dirty, Bool.or_eq_false_iff] at h
  have : (d.nodeCh || d.fch || (markList ver stamp ch).2.any) = false := by rw [markList_mask]; simp [h]
  simp only [markAll]
  rw [(mark_neg this).1]

theorem markAll_dirty_node {ver : Nat} {stamp : X → X} {d : Data D X} {ch : List (H D X)} (h : (H.node d ch).dirty = true) :
    (markAll ver stamp (.node d ch)).1 = .node (parentMark ver stamp d (markList ver stamp ch).2) (markList ver stamp ch).1 ∧
    (markAll ver stamp (.node d ch)).2.value = true ∧
    (markAll ver stamp (.node d ch)).2.names = (d.namesCh || (markList ver stamp ch).2.names || (d.fch && d.fnames)) := by
  have : (d.nodeCh || d.fch || (markList ver stamp ch).2.any) = true := by
    rw [markList_mask]
    simp only [H.dirty] at h
    rw [← h]
    cases d.nodeCh <;> cases d.fch <;> simp
  obtain ⟨nm, cm, he, h1, h2⟩ := mark_pos (ver := ver) (stamp := stamp) this
  refine ⟨?_, ?_, ?_⟩
  · simp only [markAll, he]
    rw [h1, h2]
    rfl
  · simp only [markAll, he]
  · simp only [markAll, he]
    rw [h1]
    cases (markList ver stamp ch).2.names <;> simp

mutual
theorem markAll_dirty (ver : Nat) (stamp : X → X) : ∀ h : H D X, (markAll ver stamp h).1.dirty = false
  | .node d ch => by
    have ih := markList_dirty ver stamp ch
    by_cases hd : (H.node d ch).dirty = true
    · rw [(markAll_dirty_node (ver := ver) (stamp := stamp) hd).1]
      simp [H.dirty, ih, parentMark]
    · have hd : (H.node d ch).dirty = false := by simpa using hd
      rw [markAll_clean_node hd]
      simp only [H.dirty, Bool.or_eq_false_iff] at hd ⊢
      exact ⟨hd.1, ih⟩
theorem markList_dirty (ver : Nat) (stamp : X → X) : ∀ l : List (H D X), dirtyL (markList ver stamp l).1 = false
  | [] => rfl
  | x :: xs => by
    simp only [markList, dirtyL]
    rw [markAll_dirty ver stamp x, markList_dirty ver stamp xs]; rfl
end

theorem markList_eq (ver : Nat) (stamp : X → X) (l : List (H D X)) : (markList ver stamp l).1 = l.map fun x => (markAll ver stamp x).1 := by
  induction l with
  | nil => rfl
  | cons x xs ih => simp [markList, ih]

theorem markList_mem {ver : Nat} {stamp : X → X} {l : List (H D X)} {x : H D X} (h : x ∈ l) :
    ((markAll ver stamp x).2.value = true → (markList ver stamp l).2.value = true) ∧
    ((markAll ver stamp x).2.names = true → (markList ver stamp l).2.names = true) := by
  induction l with
  | nil => cases h
  | cons y ys ih =>
    rcases List.mem_cons.mp h with rfl | h
    · simp only [markList, Mask.or]; constructor <;> intro hh <;> simp [hh]
    · simp only [markList, Mask.or]
      constructor <;> intro hh
      · simp [(ih h).1 hh]
      · simp [(ih h).2 hh]

theorem dirtyL_iff {l : List (H D X)} : dirtyL l = false ↔ ∀ x ∈ l, x.dirty = false := by
  induction l with
  | nil => simp [dirtyL]
  | cons x xs ih => simp [dirtyL, ih]

mutual
/-- Nothing to mark: nothing changes. -/
theorem markAll_clean (ver : Nat) (stamp : X → X) : ∀ h : H D X, h.dirty = false → markAll ver stamp h = (h, {})
  | .node d ch, hd => by
    have ih := markList_clean ver stamp ch (by simp only [H.dirty, Bool.or_eq_false_iff] at hd; exact hd.2)
    rw [markAll_clean_node hd, ih]
theorem markList_clean (ver : Nat) (stamp : X → X) : ∀ l : List (H D X), dirtyL l = false → markList ver stamp l = (l, {})
  | [], _ => rfl
  | x :: xs, hd => by
    simp only [dirtyL, Bool.or_eq_false_iff] at hd
    simp only [markList, markAll_clean ver stamp x hd.1, markList_clean ver stamp xs hd.2, Mask.or]
    rfl
end

/-! ## Paths -/

theorem sub_markAll (ver : Nat) (stamp : X → X) : ∀ (q : List Nat) (h : H D X), sub q (markAll ver stamp h).1 = (sub q h).map fun y => (markAll ver stamp y).1
  | [], h => by simp [sub]
  | i :: q, .node d ch => by
    have e : (markAll ver stamp (.node d ch)).1 = .node (d.mark ver stamp (markList ver stamp ch).2).1 (markList ver stamp ch).1 := rfl
    rw [e]
    simp only [sub, markList_eq, List.getElem?_map]
    cases ch[i]? with
    | none => rfl
    | some x => exact sub_markAll ver stamp q x

theorem markAt_clean (ver : Nat) (stamp : X → X) : ∀ (p : List Nat) (s : H D X), (∀ x, sub p s = some x → x.dirty = false) →
    markAt ver stamp p s = (s, {})
  | [], s, h => by rw [markAt]; exact markAll_clean ver stamp s (h s rfl)
  | i :: p, .node d ch, h => by
    rw [markAt]
    cases hx : ch[i]? with
    | none => rfl
    | some x =>
      have := markAt_clean ver stamp p x (fun y hy => h y (by simp only [sub, hx]; exact hy))
      simp only [this]
      rw [if_neg (by simp [Mask.any])]
      congr 2
      obtain ⟨hl, rfl⟩ := List.getElem?_eq_some_iff.mp hx
      exact List.set_getElem_self hl

theorem markAt_any (ver : Nat) (stamp : X → X) : ∀ (p : List Nat) (s x : H D X), sub p s = some x → (markAt ver stamp p s).2.any = x.dirty
  | [], s, x, h => by
    simp only [sub, Option.some.injEq] at h; subst h
    rw [markAt]; exact markAll_mask ver stamp s
  | i :: p, .node d ch, x, h => by
    simp only [sub] at h
    rw [markAt]
    cases hy : ch[i]? with
    | none => rw [hy] at h; cases h
    | some y =>
      rw [hy] at h
      have := markAt_any ver stamp p y x h
      simp only
      split <;> exact this

theorem markAt_cons {ver : Nat} {stamp : X → X} {i : Nat} {p : List Nat} {d : Data D X} {ch : List (H D X)} {x : H D X} (hx : ch[i]? = some x)
    (ha : (markAt ver stamp p x).2.any = true) :
    markAt ver stamp (i :: p) (.node d ch) =
      (.node (parentMark ver stamp d (markAt ver stamp p x).2) (ch.set i (markAt ver stamp p x).1), (markAt ver stamp p x).2) := by
  rw [markAt, hx]
  simp only [ha, if_true]
  congr 2
  generalize hd : ({ d with nodeCh := true, namesCh := d.namesCh || (markAt ver stamp p x).2.names, childsCh := d.childsCh || (markAt ver stamp p x).2.value || (markAt ver stamp p x).2.childs } : Data D X) = d1
  obtain ⟨nm, cm, he, h1, h2⟩ := mark_pos (ver := ver) (stamp := stamp) (d := d1) (m := {}) (by rw [← hd]; simp)
  rw [he, h1, h2, ← hd]
  simp [parentMark]

end Verif.Hierarchy
