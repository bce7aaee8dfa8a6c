import Verif.FieldsMapLemmas

/-! # Properties C14, C50: diffs and change flags of fields maps -/

namespace Verif.Record
open Verif.Bytes Verif.Stream

/-! ## C14: the diff leads back to the previous fields -/

/-- Full statement: for all fields `prev` and `cur`, with `cur` made from `prev` by tracked changes, applying
`prev.MakeAsDiffTo(cur)` to fields with the values of `cur` gives the values of `prev`.  Missing: fields named
"dabc:del" (`C14_del_counterexample`), and fields created with an empty array of numbers. -/
theorem C14_diff_partial {prev : Fields} {cur : FMap} (hs : Sorted prev.map) (hc : Sorted cur)
    (hnul : ∀ e ∈ cur, 0 ∉ e.1) (hd1 : find prev.map delName = none) (hd2 : find cur delName = none)
    (hpl : ∀ e ∈ prev.map, Plain e.2.val)
    (hflag : ∀ n f g, find cur n = some f → f.modified = false → find prev.map n = some g → Same f.val g.val)
    (txt : Val → List Name) {r : Fields} (hr : Sorted r.map) (hrc : ∀ n, SameOpt (value r.map n) (value cur n)) (n : Name) :
    SameOpt (value (r.applyDiff txt (prev.makeAsDiffTo cur).map).map n) (value prev.map n) :=
  diff_ok hs hc hnul hd1 hd2 hpl hflag txt hr hrc n

/-- A changed, a removed and a new field meet the hypotheses. -/
example : ∃ (prev : Fields) (cur : FMap), Sorted prev.map ∧ Sorted cur ∧ (∀ e ∈ cur, 0 ∉ e.1) ∧ find prev.map delName = none ∧
    find cur delName = none ∧ (∀ e ∈ prev.map, Plain e.2.val) ∧
    (∀ n f g, find cur n = some f → f.modified = false → find prev.map n = some g → Same f.val g.val) ∧
    value prev.map [97] = some (.int 1) ∧ value cur [97] = some (.int 2) ∧
    value prev.map [98] = some (.str [120]) ∧ value cur [98] = none ∧ value prev.map [99] = none ∧ value cur [99] = some (.bool 1) := by
  refine ⟨{ map := [([97], { val := .int 1 }), ([98], { val := .str [120] })] },
    [([97], { val := .int 2, modified := true }), ([99], { val := .bool 1, modified := true })],
    by unfold Sorted; decide, by unfold Sorted; decide, by decide, by decide, by decide, by simp [Plain], ?_, by decide, by decide, by decide, by decide, by decide, by decide⟩
  intro n f g hf hm
  have : ∀ e ∈ ([([97], { val := .int 2, modified := true }), ([99], { val := .bool 1, modified := true })] : FMap), e.2.modified = true := by decide
  have h2 := this _ (find_mem hf)
  rw [hm] at h2
  cases h2

/-- A field "dabc:del" is lost: it was removed from the fields, and the diff does not bring it back. -/
theorem C14_del_counterexample : ∃ (prev : Fields) (v : Val), Plain v ∧ value prev.map delName = some v ∧ Sorted prev.map ∧
    ∀ txt, value (({} : Fields).applyDiff txt (prev.makeAsDiffTo []).map).map delName = none := by
  refine ⟨{ map := [(delName, { val := .int 5 })] }, .int 5, trivial, by decide, by unfold Sorted; decide, ?_⟩
  intro txt
  have h : ∀ l : List Name, l.foldl Fields.remove {} = {} := by
    intro l
    induction l with
    | nil => rfl
    | cons n l ih => exact ih
  have e : ({} : Fields).applyDiff txt ([(delName, { val := .int 5 })] : FMap) = (asStrVect txt (.int 5)).foldl Fields.remove {} := rfl
  show value (({} : Fields).applyDiff txt ([(delName, { val := .int 5 })] : FMap)).map delName = none
  rw [e, h]
  rfl

/-! ## C50: change flags -/

/-- A change of the fields. -/
inductive FOp where
  | set (n : Name) (v : Val)
  | remove (n : Name)
  | copyFrom (src : FMap) (overwrite : Bool)
  | moveFrom (src : FMap)
  | protect (n : Name) (on : Bool)

/-- Execution of a change. -/
def Fields.step (s : Fields) : FOp → Fields
  | .set n v => s.set n v
  | .remove n => s.remove n
  | .copyFrom src ov => s.copyFrom src ov
  | .moveFrom src => s.moveFrom src
  | .protect n on => s.protect n on

/-- A value is given to the field. -/
def Gives (v : Val) : Prop := Plain v ∧ v ≠ .none

/-- Only values are set, only existing fields are protected. -/
def FLegal (s : Fields) : FOp → Prop
  | .set _ v => Gives v
  | .remove _ => True
  | .copyFrom src _ => ∀ e ∈ src, Gives e.2.val
  | .moveFrom src => ∀ e ∈ src, Gives e.2.val
  | .protect n _ => find s.map n ≠ none

/-- Fields reachable by legal changes after the change flags were cleared. -/
inductive FReach (base : Fields) : Fields → Prop
  | init : FReach base base.clearFlags
  | step {s} (op : FOp) : FReach base s → FLegal s op → FReach base (s.step op)

/-- What the flags say. -/
def FInv (base : Fields) (s : Fields) : Prop :=
  Sorted s.map ∧ (∀ n f, find s.map n = some f → f.modified = false → value base.map n = some f.val) ∧
  (s.changed = false → ∀ n, find base.map n ≠ none → find s.map n ≠ none)

theorem FInv.set {base s : Fields} (h : FInv base s) {n : Name} {v : Val} (hv : Gives v) : FInv base (s.set n v) := by
  refine ⟨sorted_set h.1 _ _, ?_, ?_⟩
  · intro k f hf hm
    rw [find_set h.1] at hf
    split at hf
    · rename_i hk; subst hk
      simp only [Option.some.injEq] at hf
      cases hfn : find s.map n with
      | none =>
        rw [hfn] at hf
        rw [← hf] at hm
        simp only [Option.getD_none] at hm
        rw [setVal_fresh_modified hv.1 hv.2] at hm
        cases hm
      | some g =>
        rw [hfn] at hf
        simp only [Option.getD_some] at hf
        rcases setVal_cases g v with hg | ⟨w, hg⟩
        · rw [hg] at hf; subst hf
          exact h.2.1 n g hfn hm
        · rw [hg] at hf; rw [← hf] at hm; cases hm
    · exact h.2.1 k f hf hm
  · intro hc k hk
    rw [find_set h.1]
    split
    · simp
    · exact h.2.2 hc k hk

theorem FInv.remove {base s : Fields} (h : FInv base s) (n : Name) : FInv base (s.remove n) := by
  unfold Fields.remove
  split
  · refine ⟨sorted_erase h.1 _, ?_, fun hc => by cases hc⟩
    intro k f hf hm
    rw [find_erase h.1] at hf
    split at hf
    · cases hf
    · exact h.2.1 k f hf hm
  · exact h

theorem FInv.setAll {base : Fields} {m : FMap} (hm : ∀ e ∈ m, Gives e.2.val) : ∀ {s : Fields}, FInv base s → FInv base (setAll s m) := by
  induction m with
  | nil => intro s h; exact h
  | cons e m ih => intro s h; exact ih (fun e he => hm e (by simp [he])) (h.set (hm e (by simp)))

theorem FInv.removes {base : Fields} (l : List Name) : ∀ {s : Fields}, FInv base s → FInv base (l.foldl Fields.remove s) := by
  induction l with
  | nil => intro s h; exact h
  | cons n l ih => intro s h; exact ih (h.remove n)

theorem FInv.copyFrom {base : Fields} {ov : Bool} {m : FMap} (hm : ∀ e ∈ m, Gives e.2.val) :
    ∀ {s : Fields}, FInv base s → FInv base (s.copyFrom m ov) := by
  unfold Fields.copyFrom
  induction m with
  | nil => intro s h; exact h
  | cons e m ih =>
    intro s h
    rw [List.foldl_cons]
    apply ih (fun e he => hm e (by simp [he]))
    split
    · exact h.set (hm e (by simp))
    · exact h

theorem FInv.init {base : Fields} (hb : Sorted base.map) : FInv base base.clearFlags := by
  refine ⟨sorted_map hb _, ?_, ?_⟩
  · intro n f hf _
    unfold Fields.clearFlags at hf
    rw [find_map _ (fun e => { e.2 with modified := false })] at hf
    unfold value
    cases hfn : find base.map n with
    | none => rw [hfn] at hf; cases hf
    | some g => rw [hfn] at hf; simp only [Option.map_some, Option.some.injEq] at hf ⊢; rw [← hf]
  · intro _ n hn
    unfold Fields.clearFlags
    rw [find_map _ (fun e => { e.2 with modified := false })]
    cases hfn : find base.map n with
    | none => exact absurd hfn hn
    | some g => simp

theorem FReach.inv {base s : Fields} (hb : Sorted base.map) (h : FReach base s) : FInv base s := by
  induction h with
  | init => exact FInv.init hb
  | @step s op _ hl ih =>
    cases op with
    | set n v => exact ih.set hl
    | remove n => exact ih.remove n
    | copyFrom src ov => exact ih.copyFrom hl
    | moveFrom src =>
      have := FInv.setAll (m := src) hl (ih.removes ((s.map.filter fun e => !e.2.prot && !has src e.1).map Prod.fst))
      exact this
    | protect n on =>
      refine ⟨by rw [Fields.step, Fields.protect]; dsimp only; exact sorted_upsert ih.1 _ _, ?_, ?_⟩
      · intro k f hf0 hm
        have hf : find (upsert s.map n fun f => { f with prot := on }) k = some f := hf0
        clear hf0
        rw [find_upsert ih.1] at hf
        split at hf
        · rename_i hk; subst hk
          cases hfn : find s.map n with
          | none => exact absurd hfn hl
          | some g =>
            rw [hfn] at hf
            simp only [Option.getD_some, Option.some.injEq] at hf
            subst hf
            exact ih.2.1 n g hfn hm
        · exact ih.2.1 k f hf hm
      · intro hc k hk
        show find (upsert s.map n fun f => { f with prot := on }) k ≠ none
        rw [find_upsert ih.1]
        split
        · simp
        · exact ih.2.2 hc k hk

/-- Full statement: after any changes following `ClearChangeFlags`, a field without the modified flag has the value
it had then, and if `WasChanged()` is false no field was changed, added or removed.  Missing: fields created without
value (`C50_touch_counterexample`). -/
theorem C50_flags_partial {base s : Fields} (hb : Sorted base.map) (h : FReach base s) :
    (∀ n f, find s.map n = some f → f.modified = false → value base.map n = some f.val) ∧
    (s.wasChanged = false → ∀ n, value s.map n = value base.map n) := by
  obtain ⟨hs, h1, h2⟩ := h.inv hb
  refine ⟨h1, ?_⟩
  intro hw n
  unfold Fields.wasChanged at hw
  rw [Bool.or_eq_false_iff] at hw
  cases hf : find s.map n with
  | none =>
    rw [value_none hf]
    have : find base.map n = none := by
      cases hbn : find base.map n with
      | none => rfl
      | some g => exact absurd hf (h2 hw.1 n (by simp [hbn]))
    rw [value_none this]
  | some f =>
    rw [value_some hf]
    refine (h1 n f hf ?_).symm
    have := List.any_eq_false.mp hw.2 _ (find_mem hf)
    simpa using this

/-- A change of an existing field is reachable, and seen. -/
example : ∃ base s, Sorted base.map ∧ FReach base s ∧ value base.map [97] = some (.int 1) ∧ value s.map [97] = some (.int 2) ∧ s.wasChanged = true :=
  ⟨{ map := [([97], { val := .int 1 })] }, _, by unfold Sorted; decide, .step (.set [97] (.int 2)) .init ⟨trivial, by simp⟩, by decide, by decide, by decide⟩

/-- Access to a field which does not exist creates it, and no flag tells about it. -/
theorem C50_touch_counterexample : ∃ (s : Fields) (n : Name), s.clearFlags = s ∧ s.wasChanged = false ∧
    (s.touch n).wasChanged = false ∧ value s.map n = none ∧ value (s.touch n).map n = some .none :=
  ⟨{}, [97], rfl, rfl, rfl, rfl, rfl⟩

/-- Full statement: if `WasChangedWith(prefix)` is false, no field with a name starting with the prefix was changed, added
or removed.  Missing: removed fields (`C50_prefix_counterexample`). -/
theorem C50_prefix_partial {base s : Fields} (hb : Sorted base.map) (h : FReach base s) {pre : Name} (hw : s.wasChangedWith pre = false)
    {n : Name} (hp : pre <+: n) (hn : find s.map n ≠ none) : value s.map n = value base.map n := by
  obtain ⟨_, h1, _⟩ := h.inv hb
  cases hf : find s.map n with
  | none => exact absurd hf hn
  | some f =>
    rw [value_some hf]
    refine (h1 n f hf ?_).symm
    have := List.any_eq_false.mp hw _ (find_mem hf)
    simp only [Bool.and_eq_true, not_and, Bool.not_eq_true] at this
    cases hm : f.modified with
    | false => rfl
    | true => rw [List.isPrefixOf_iff_prefix.mpr hp] at this; exact absurd (this hm) (by simp)

example : ∃ (base s : Fields) (n : Name), Sorted base.map ∧ FReach base s ∧ s.wasChangedWith [95] = false ∧ s.wasChanged = true ∧ [95] <+: n ∧ find s.map n ≠ none :=
  ⟨{ map := [([95, 97], { val := .int 1 }), ([97], { val := .int 1 })] }, _, [95, 97], by unfold Sorted; decide, .step (.set [97] (.int 2)) .init ⟨trivial, by simp⟩,
    by decide, by decide, by decide, by decide⟩

/-- The removal of a field with the prefix is not seen. -/
theorem C50_prefix_counterexample : ∃ (base s : Fields), Sorted base.map ∧ FReach base s ∧ s.wasChangedWith [95] = false ∧
    value base.map [95, 97] = some (.int 1) ∧ value s.map [95, 97] = none :=
  ⟨{ map := [([95, 97], { val := .int 1 })] }, _, by unfold Sorted; decide, .step (.remove [95, 97]) .init trivial, by decide, by decide, by decide⟩

/-! ## C51: copying and moving -/

theorem find_copyFrom {src : FMap} (hm : Sorted src) (ov : Bool) : ∀ {s : Fields}, Sorted s.map → ∀ n,
    find (s.copyFrom src ov).map n = match find src n with
      | some f => if ov = true ∨ find s.map n = none then some (((find s.map n).getD { val := .none }).setVal f.val) else find s.map n
      | none => find s.map n := by
  unfold Fields.copyFrom
  induction src with
  | nil => intro s _ n; rfl
  | cons e m ih =>
    intro s hs n
    rw [List.foldl_cons, find_cons]
    have hs' : Sorted (if (ov || !has s.map e.1) = true then s.set e.1 e.2.val else s).map := by
      split
      · exact sorted_set hs _ _
      · exact hs
    rw [ih (sorted_tail hm) hs']
    have hhas : (ov || !has s.map e.1) = true ↔ (ov = true ∨ find s.map e.1 = none) := by
      unfold has
      cases ov <;> cases find s.map e.1 <;> simp
    by_cases hn : e.1 = n
    · rw [← hn, not_mem_tail hm]
      simp only [if_true]
      by_cases hc : (ov || !has s.map e.1) = true
      · rw [if_pos hc, if_pos (hhas.mp hc), find_set hs, if_pos rfl]
      · rw [if_neg hc, if_neg (fun h => hc (hhas.mpr h))]
    · rw [if_neg hn]
      have : find (if (ov || !has s.map e.1) = true then s.set e.1 e.2.val else s).map n = find s.map n := by
        split
        · rw [find_set hs, if_neg hn]
        · rfl
      rw [this]

/-- `CopyFrom`: fields of the source are taken over, existing ones only with `overwrite`; all others stay. -/
theorem C51_copy {s : Fields} {src : FMap} (hs : Sorted s.map) (hm : Sorted src) (hp : ∀ e ∈ src, Plain e.2.val) (ov : Bool) (n : Name) :
    SameOpt (value (s.copyFrom src ov).map n)
      (if (value src n).isSome = true ∧ (ov = true ∨ value s.map n = none) then value src n else value s.map n) := by
  unfold value
  rw [find_copyFrom hm ov hs]
  cases hf : find src n with
  | none => simp; exact SameOpt.refl _
  | some f =>
    simp only [Option.map_some, Option.isSome_some, true_and, Option.map_eq_none_iff]
    split
    · exact setVal_same _ (hp _ (find_mem hf))
    · exact SameOpt.refl _

/-- `MoveFrom`: afterwards the fields are those of the source and the protected ones. -/
theorem C51_move {s : Fields} {src : FMap} (hs : Sorted s.map) (hm : Sorted src) (hp : ∀ e ∈ src, Plain e.2.val) (n : Name) :
    SameOpt (value (s.moveFrom src).map n)
      (if (value src n).isSome = true then value src n else
        match find s.map n with | some f => if f.prot then some f.val else none | none => none) := by
  have hsr : Sorted ((((s.map.filter fun e => !e.2.prot && !has src e.1).map Prod.fst)).foldl Fields.remove s).map := sorted_removes hs
  have e : s.moveFrom src = setAll ((((s.map.filter fun e => !e.2.prot && !has src e.1).map Prod.fst)).foldl Fields.remove s) src := rfl
  rw [e]
  unfold value
  rw [find_setAll hm hsr]
  cases hf : find src n with
  | some f =>
    simp only [Option.map_some, Option.isSome_some, if_true]
    exact setVal_same _ (hp _ (find_mem hf))
  | none =>
    simp only [Option.map_none, Option.isSome_none]
    rw [find_removes hs]
    have hmem : n ∈ (s.map.filter fun e => !e.2.prot && !has src e.1).map Prod.fst ↔ ∃ f, find s.map n = some f ∧ f.prot = false := by
      constructor
      · intro h
        obtain ⟨x, hx, rfl⟩ := List.mem_map.mp h
        obtain ⟨h1, h2⟩ := List.mem_filter.mp hx
        simp only [Bool.and_eq_true, Bool.not_eq_true'] at h2
        exact ⟨x.2, find_of_mem hs h1, h2.1⟩
      · rintro ⟨f, h1, h2⟩
        refine List.mem_map.mpr ⟨(n, f), List.mem_filter.mpr ⟨find_mem h1, ?_⟩, rfl⟩
        simp [h2, has, hf]
    by_cases hd : n ∈ (s.map.filter fun e => !e.2.prot && !has src e.1).map Prod.fst
    · rw [if_pos hd]
      obtain ⟨f, h1, h2⟩ := hmem.mp hd
      rw [h1]
      simp [h2, SameOpt]
    · rw [if_neg hd]
      cases h1 : find s.map n with
      | none => simp [SameOpt]
      | some f =>
        have : f.prot = true := by
          cases hpr : f.prot with
          | true => rfl
          | false => exact absurd (hmem.mpr ⟨f, h1, hpr⟩) hd
        simp [this, SameOpt, Same]

/-- A protected field and a field of the source meet the hypotheses. -/
example : ∃ (s : Fields) (src : FMap), Sorted s.map ∧ Sorted src ∧ (∀ e ∈ src, Plain e.2.val) ∧
    value (s.moveFrom src).map [97] = some (.int 1) ∧ value (s.moveFrom src).map [98] = none ∧ value (s.moveFrom src).map [99] = some (.int 3) :=
  ⟨{ map := [([97], { val := .int 1, prot := true }), ([98], { val := .int 2 })] }, [([99], { val := .int 3 })],
    by unfold Sorted; decide, by unfold Sorted; decide, by simp [Plain], by decide, by decide, by decide⟩

end Verif.Record
