import Verif.HierarchyLemmas

/-! # Invariants of server and client -/

namespace Verif.Hierarchy
variable {D X : Type}

/-! ## Well-formed hierarchies -/

/-- Version of the item relevant for its parent, and mask bit. -/
def mver (k : Kind) (d : Data D X) : Nat := if k = .full then d.nodeVer else d.namesVer
def smask (k : Kind) (m : Mask) : Bool := if k = .full then m.value else m.names

structure DOK (d : Data D X) : Prop where
  names : d.namesCh = true → d.nodeCh = true
  childs : d.childsCh = true → d.nodeCh = true
  fnames : d.fnames = true → d.fch = true
  cv : d.childsVer ≤ d.nodeVer
  nv : d.namesVer ≤ d.nodeVer

mutual
def WF (k : Kind) : H D X → Prop
  | .node d ch => DOK d ∧ (ch.map H.name).Nodup ∧ (∀ x ∈ ch, mver k x.data ≤ cver k d ∧ x.data.nodeVer ≤ d.nodeVer) ∧ WFL k ch
def WFL (k : Kind) : List (H D X) → Prop
  | [] => True
  | x :: xs => WF k x ∧ WFL k xs
end

theorem WFL_iff {k : Kind} {l : List (H D X)} : WFL k l ↔ ∀ x ∈ l, WF k x := by
  induction l with
  | nil => simp [WFL]
  | cons x xs ih => simp [WFL, ih]

theorem cver_le {k : Kind} {d : Data D X} (h : DOK d) : cver k d ≤ d.nodeVer := by
  unfold cver; split
  · exact h.cv
  · exact h.nv

theorem fver_mver (k : Kind) (d : Data D X) : fver k d = mver k d := rfl

theorem cver_mver {k : Kind} {d : Data D X} (h : DOK d) : cver k d ≤ mver k d := by
  unfold cver mver; split
  · exact h.cv
  · exact Nat.le_refl _

theorem map_name_set {l : List (H D X)} {i : Nat} {x y : H D X} (hx : l[i]? = some x) (hn : y.name = x.name) :
    (l.set i y).map H.name = l.map H.name := by
  obtain ⟨hl, rfl⟩ := List.getElem?_eq_some_iff.mp hx
  rw [List.map_set, hn]
  have : (l[i]).name = (l.map H.name)[i]'(by simpa using hl) := by simp
  rw [this, List.set_getElem_self]

/-- Changing an item keeps the hierarchy well-formed. -/
theorem modAt_WF {k : Kind} {f : H D X → H D X} : ∀ (p : List Nat) (s : H D X), WF k s →
    (∀ x, sub p s = some x → WF k x → WF k (f x) ∧ (f x).name = x.name ∧ (f x).data.nodeVer = x.data.nodeVer ∧ mver k (f x).data = mver k x.data) →
    WF k (modAt f p s) ∧ (modAt f p s).name = s.name ∧ (modAt f p s).data.nodeVer = s.data.nodeVer ∧ mver k (modAt f p s).data = mver k s.data
  | [], s, hs, h => by
    rw [modAt]; exact h s rfl hs
  | i :: p, .node d ch, hs, h => by
    rw [modAt]
    cases hx : ch[i]? with
    | none => exact ⟨hs, rfl, rfl, rfl⟩
    | some x =>
      obtain ⟨h1, h2, h3, h4⟩ := hs
      have hxm := List.mem_of_getElem? hx
      obtain ⟨a, b, c, e⟩ := modAt_WF p x (WFL_iff.mp h4 x hxm) (fun y hy => h y (by simp only [sub, hx]; exact hy))
      refine ⟨⟨h1, ?_, ?_, ?_⟩, rfl, rfl, rfl⟩
      · rw [map_name_set hx b]; exact h2
      · intro y hy
        rcases List.mem_or_eq_of_mem_set hy with hy | rfl
        · exact h3 y hy
        · rw [e, c]; exact h3 x hxm
      · rw [WFL_iff]
        intro y hy
        rcases List.mem_or_eq_of_mem_set hy with hy | rfl
        · exact WFL_iff.mp h4 y hy
        · exact a

/-- Result of marking compared to the item before. -/
structure Marked (k : Kind) (ver : Nat) (a b : H D X) (m : Mask) : Prop where
  wf : WF k b
  name : b.name = a.name
  mv : mver k b.data = mver k a.data ∨ (mver k b.data = ver ∧ smask k m = true)
  nv : b.data.nodeVer = a.data.nodeVer ∨ (b.data.nodeVer = ver ∧ m.any = true)
  any : m.any = true → m.value = true

theorem parentMark_DOK {ver : Nat} {stamp : X → X} {d : Data D X} {m : Mask} (h : DOK d) (hv : d.nodeVer ≤ ver) : DOK (parentMark ver stamp d m) := by
  have := h.cv; have := h.nv
  constructor <;> simp only [parentMark] <;> try (intro h; cases h)
  · split <;> omega
  · split <;> omega

theorem parentMark_cver {k : Kind} {ver : Nat} {stamp : X → X} {d : Data D X} {m : Mask} (h : DOK d) (hv : d.nodeVer ≤ ver) :
    cver k d ≤ cver k (parentMark ver stamp d m) ∧ (smask k m = true → cver k (parentMark ver stamp d m) = ver) := by
  have := h.cv; have := h.nv
  constructor
  · unfold cver parentMark; split
    · dsimp only; split <;> omega
    · dsimp only; split <;> omega
  · intro hs
    unfold smask at hs
    unfold cver parentMark
    split
    · rename_i hk; rw [if_pos hk] at hs; simp [hs]
    · rename_i hk; rw [if_neg hk] at hs; simp [hs]

mutual
theorem markAll_marked {k : Kind} {ver : Nat} (stamp : X → X) : ∀ (h : H D X), WF k h → h.data.nodeVer ≤ ver →
    Marked k ver h (markAll ver stamp h).1 (markAll ver stamp h).2
  | .node d ch, ⟨h1, h2, h3, h4⟩, hv => by
    have hv : d.nodeVer ≤ ver := hv
    have ih := markList_marked (k := k) (ver := ver) stamp ch h4 (fun x hx => Nat.le_trans (h3 x hx).2 hv)
    by_cases hd : (H.node d ch).dirty = true
    · obtain ⟨e1, e2, e3⟩ := markAll_dirty_node (ver := ver) (stamp := stamp) hd
      rw [e1]
      obtain ⟨hc1, hc2⟩ := parentMark_cver (k := k) (ver := ver) (stamp := stamp) (m := (markList ver stamp ch).2) h1 hv
      refine ⟨⟨parentMark_DOK h1 hv, ?_, ?_, ?_⟩, rfl, ?_, Or.inr ⟨rfl, by simp [Mask.any, e2]⟩, fun _ => e2⟩
      · rw [markList_eq, List.map_map]
        have : ch.map (H.name ∘ fun x => (markAll ver stamp x).1) = ch.map H.name := by
          apply List.map_congr_left
          intro x hx
          exact (ih x hx).name
        rw [this]; exact h2
      · intro y hy
        rw [markList_eq] at hy
        obtain ⟨x, hx, rfl⟩ := List.mem_map.mp hy
        obtain ⟨_, _, hm, hn, _⟩ := ih x hx
        constructor
        · rcases hm with hm | ⟨hm, hs⟩
          · rw [hm]; exact Nat.le_trans (h3 x hx).1 hc1
          · rw [hm, hc2]
            · exact Nat.le_refl _
            · unfold smask at hs ⊢
              split
              · rename_i hk; rw [if_pos hk] at hs; exact (markList_mem hx).1 hs
              · rename_i hk; rw [if_neg hk] at hs; exact (markList_mem hx).2 hs
        · show _ ≤ ver
          rcases hn with hn | ⟨hn, _⟩
          · rw [hn]; exact Nat.le_trans (h3 x hx).2 hv
          · omega
      · rw [WFL_iff, markList_eq]
        intro y hy
        obtain ⟨x, hx, rfl⟩ := List.mem_map.mp hy
        exact (ih x hx).wf
      · unfold mver smask
        split
        · right; exact ⟨rfl, e2⟩
        · show (if _ then ver else d.namesVer) = _ ∨ ((if _ then ver else d.namesVer) = ver ∧ _)
          rw [e3]
          split
          · rename_i hh; right; exact ⟨rfl, hh⟩
          · left; rfl
    · rw [markAll_clean ver stamp _ (by simpa using hd)]
      exact ⟨⟨h1, h2, h3, h4⟩, rfl, Or.inl rfl, Or.inl rfl, fun h => by cases h⟩
theorem markList_marked {k : Kind} {ver : Nat} (stamp : X → X) : ∀ (l : List (H D X)), WFL k l → (∀ x ∈ l, x.data.nodeVer ≤ ver) →
    ∀ x ∈ l, Marked k ver x (markAll ver stamp x).1 (markAll ver stamp x).2
  | [], _, _ => fun x hx => by cases hx
  | y :: ys, ⟨h1, h2⟩, hv => fun x hx => by
    rcases List.mem_cons.mp hx with e | hx
    · rw [e]; exact markAll_marked stamp y h1 (hv y (by simp))
    · exact markList_marked stamp ys h2 (fun x hx => hv x (by simp [hx])) x hx
end

/-- Names above the path have no unmarked changes, or all versions are followed. -/
def PathOK (k : Kind) (p : List Nat) (s : H D X) : Prop :=
  k = .full ∨ ∀ q, q <+: p → q ≠ p → ∀ y, sub q s = some y → y.data.namesCh = false ∧ y.data.fnames = false

theorem PathOK.cons {k : Kind} {i : Nat} {p : List Nat} {d : Data D X} {ch : List (H D X)} {x : H D X} (h : PathOK k (i :: p) (.node d ch))
    (hx : ch[i]? = some x) : PathOK k p x ∧ (k = .full ∨ (d.namesCh = false ∧ d.fnames = false)) := by
  rcases h with h | h
  · exact ⟨Or.inl h, Or.inl h⟩
  · refine ⟨Or.inr ?_, Or.inr (h [] (List.nil_prefix) (by simp) _ rfl)⟩
    intro q hq hne y hy
    exact h (i :: q) (by simpa [List.cons_prefix_cons] using hq) (by simpa using hne) y (by simp only [sub, hx]; exact hy)

theorem markAt_marked {k : Kind} {ver : Nat} (stamp : X → X) : ∀ (p : List Nat) (s : H D X), WF k s → s.data.nodeVer ≤ ver → PathOK k p s →
    Marked k ver s (markAt ver stamp p s).1 (markAt ver stamp p s).2
  | [], s, hs, hv, _ => by rw [markAt]; exact markAll_marked stamp s hs hv
  | i :: p, .node d ch, hs, hv, hp => by
    cases hx : ch[i]? with
    | none =>
      rw [markAt, hx]
      exact ⟨hs, rfl, Or.inl rfl, Or.inl rfl, fun h => by cases h⟩
    | some x =>
      obtain ⟨h1, h2, h3, h4⟩ := hs
      have hv : d.nodeVer ≤ ver := hv
      have hxm := List.mem_of_getElem? hx
      obtain ⟨hp', hp0⟩ := hp.cons hx
      have ih := markAt_marked stamp p x (WFL_iff.mp h4 x hxm) (Nat.le_trans (h3 x hxm).2 hv) hp'
      by_cases ha : (markAt ver stamp p x).2.any = true
      · rw [markAt_cons hx ha]
        obtain ⟨hc1, hc2⟩ := parentMark_cver (k := k) (ver := ver) (stamp := stamp) (m := (markAt ver stamp p x).2) h1 hv
        refine ⟨⟨parentMark_DOK h1 hv, ?_, ?_, ?_⟩, rfl, ?_, Or.inr ⟨rfl, ha⟩, ih.any⟩
        · rw [map_name_set hx ih.name]; exact h2
        · intro y hy
          rcases List.mem_or_eq_of_mem_set hy with hy | rfl
          · exact ⟨Nat.le_trans (h3 y hy).1 hc1, Nat.le_trans (h3 y hy).2 hv⟩
          · constructor
            · rcases ih.mv with hm | ⟨hm, hs⟩
              · rw [hm]; exact Nat.le_trans (h3 x hxm).1 hc1
              · rw [hm, hc2 hs]; exact Nat.le_refl _
            · show _ ≤ ver
              rcases ih.nv with hn | ⟨hn, _⟩
              · rw [hn]; exact Nat.le_trans (h3 x hxm).2 hv
              · omega
        · rw [WFL_iff]
          intro y hy
          rcases List.mem_or_eq_of_mem_set hy with hy | rfl
          · exact WFL_iff.mp h4 y hy
          · exact ih.wf
        · unfold mver smask
          split
          · right; exact ⟨rfl, ih.any ha⟩
          · rename_i hk
            rcases hp0 with h | ⟨hn1, hn2⟩
            · exact absurd h hk
            · show (if _ then ver else d.namesVer) = _ ∨ ((if _ then ver else d.namesVer) = ver ∧ _)
              rw [hn1, hn2]
              simp only [Bool.false_or, Bool.and_false, Bool.or_false]
              split
              · rename_i hh; right; exact ⟨rfl, hh⟩
              · left; rfl
      · rw [markAt, hx]
        simp only
        rw [if_neg ha]
        have ha' : (markAt ver stamp p x).2.any = false := by simpa using ha
        have hnm := Mask.any_false ha'
        refine ⟨⟨h1, ?_, ?_, ?_⟩, rfl, Or.inl rfl, Or.inl rfl, ih.any⟩
        · rw [map_name_set hx ih.name]; exact h2
        · intro y hy
          rcases List.mem_or_eq_of_mem_set hy with hy | rfl
          · exact h3 y hy
          · constructor
            · rcases ih.mv with hm | ⟨hm, hs⟩
              · rw [hm]; exact (h3 x hxm).1
              · rw [hnm] at hs; unfold smask at hs; split at hs <;> cases hs
            · rcases ih.nv with hn | ⟨hn, ha2⟩
              · rw [hn]; exact (h3 x hxm).2
              · exact absurd ha2 ha
        · rw [WFL_iff]
          intro y hy
          rcases List.mem_or_eq_of_mem_set hy with hy | rfl
          · exact WFL_iff.mp h4 y hy
          · exact ih.wf

end Verif.Hierarchy
