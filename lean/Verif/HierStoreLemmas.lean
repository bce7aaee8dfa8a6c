import Verif.Spec.HierStore
import Verif.Props.Hierarchy

/-! # Lemmas about stored hierarchies -/

namespace Verif.HierStore
open Verif.Hierarchy
variable {D X : Type} [Inhabited D] [Inhabited X]

/-! ## A complete copy -/

mutual
theorem mir_empty (k : Kind) : ∀ (s : H D X) (n : String), Mir k 0 s (.empty n : T D X)
  | .node d ch, n => by
    rw [Mir_parts]
    refine ⟨⟨.inl (Nat.zero_le _), .inl (Nat.zero_le _)⟩, ?_⟩
    exact mirL_empty k ch
theorem mirL_empty (k : Kind) : ∀ (l : List (H D X)), MirL k 0 [] l ([] : List (T D X))
  | [] => by simp [MirL]
  | x :: xs => by
    unfold MirL
    exact ⟨by simp, mir_empty k x _, mirL_empty k xs⟩
end

mutual
theorem full_view (k : Kind) : ∀ (s : H D X), (apply (stream k 0 s) (.empty s.name)).view k = s.view k
  | .node d ch => by
    obtain ⟨e1, e2⟩ := apply_node k 0 d ch (.empty d.name : T D X)
    rw [if_pos (Nat.zero_le _)] at e1 e2
    rw [view_eq, H.view, apply_name]
    show V.node d.name _ _ = _
    rw [show (H.node d ch).name = d.name from rfl, e1, e2]
    show V.node d.name _ (tviewL k (applyList (streamList k 0 ch) [])) = _
    rw [full_viewL k ch]
theorem full_viewL (k : Kind) : ∀ (l : List (H D X)), tviewL k (applyList (streamList k 0 l) ([] : List (T D X))) = viewL k l
  | [] => by simp [streamList, applyList, tviewL, viewL]
  | x :: xs => by
    rw [streamList, applyList_cons]
    show tviewL k (apply (stream k 0 x) (.empty x.name) :: applyList (streamList k 0 xs) []) = _
    rw [tviewL, viewL, full_view k x, full_viewL k xs]
end

/-! ## Files -/

theorem replay_snoc (name : String) (recs : List (Option (Msg D X))) (m : Msg D X) :
    replay name (recs ++ [some m]) = apply m (replay name recs) := by
  unfold replay
  rw [List.foldl_append]
  rfl

omit [Inhabited D] [Inhabited X] in
theorem recsOf_addTo (n m : Nat) (rs : List (Option (Msg D X))) (disk : List (File D X)) (hn : ∃ f ∈ disk, f.name = n) :
    recsOf m (addTo n rs disk) = if m = n then recsOf n disk ++ rs else recsOf m disk := by
  unfold recsOf addTo
  rw [List.find?_map]
  have e : ((fun f : File D X => decide (f.name = m)) ∘ fun f : File D X => if f.name = n then { f with recs := f.recs ++ rs } else f) =
      fun f => decide (f.name = m) := by
    funext f
    simp only [Function.comp]
    split <;> rfl
  rw [e]
  by_cases h : m = n
  · subst h
    rw [if_pos rfl]
    cases hf : disk.find? fun f : File D X => decide (f.name = m) with
    | none =>
      obtain ⟨f, h1, h2⟩ := hn
      have := List.find?_eq_none.1 hf f h1
      simp [h2] at this
    | some f =>
      have := List.find?_some hf
      simp only [decide_eq_true_eq] at this
      simp [this]
  · rw [if_neg h]
    cases hf : disk.find? fun f : File D X => decide (f.name = m) with
    | none => rfl
    | some f =>
      have := List.find?_some hf
      simp only [decide_eq_true_eq] at this
      simp [this, h]

omit [Inhabited D] [Inhabited X] in
theorem recsOf_new (n m : Nat) (rs : List (Option (Msg D X))) (disk : List (File D X)) (hn : ∀ f ∈ disk, f.name ≠ n) :
    recsOf m (disk ++ [⟨n, rs⟩]) = if m = n then rs else recsOf m disk := by
  unfold recsOf
  rw [List.find?_append]
  by_cases h : m = n
  · subst h
    rw [if_pos rfl]
    have : disk.find? (fun f : File D X => decide (f.name = m)) = none := by
      rw [List.find?_eq_none]
      intro f hf
      simpa using hn f hf
    rw [this]
    simp
  · rw [if_neg h]
    cases hf : disk.find? fun f : File D X => decide (f.name = m) with
    | none =>
      have h' : ¬ n = m := fun e => h e.symm
      simp [h']
    | some f => simp

/-! ## Steps -/

theorem follower_h (s : St D X) : (follower s).s = s.h := by
  unfold follower
  split <;> rfl

/-- Storing the time and marking is legal for every client. -/
theorem stored_ok {setTm stamp : Nat → X → X} {h : H D X} {c : T D X} {v : Nat} (t : Nat) (hs : SysOK .full (⟨h, c, v⟩ : Sys D X)) :
    SysOK .full (⟨(markAt (nextVersion (setVal (setTm t h.data.val) h)) (stamp t) [] (setVal (setTm t h.data.val) h)).1, c, v⟩ : Sys D X) := by
  have h1 := hs.step (stamp := stamp t) (op := .setVal [] (setTm t h.data.val)) trivial
  have h2 := h1.step (stamp := stamp t) (op := .mark []) (.inl rfl)
  exact h2

theorem fetch_ok {h : H D X} {c : T D X} {v : Nat} (hs : SysOK .full (⟨h, c, v⟩ : Sys D X)) :
    SysOK .full (⟨h, apply (stream .full v h) c, h.data.nodeVer⟩ : Sys D X) :=
  hs.step (stamp := id) (op := .fetch) trivial

theorem fresh_ok {h : H D X} {c : T D X} {v : Nat} (hs : SysOK .full (⟨h, c, v⟩ : Sys D X)) :
    SysOK .full (⟨h, .empty h.name, 0⟩ : Sys D X) :=
  ⟨hs.wf, WFT_empty _, mir_empty .full h _, rfl, Nat.zero_le _⟩

end Verif.HierStore
