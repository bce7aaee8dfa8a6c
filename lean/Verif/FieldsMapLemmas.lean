import Verif.RecordMap
import Verif.Spec.FieldsMap

namespace Verif.Record
open Verif.Bytes Verif.Stream

theorem Same.rfl' (a : Val) : Same a a := Or.inl rfl

theorem Same.symm {a b : Val} (h : Same a b) : Same b a := by
  rcases h with h | ⟨u, w, h1, h2, h3, h4⟩
  · exact Or.inl h.symm
  · exact Or.inr ⟨w, u, h2, h1, h4, h3⟩

theorem Same.trans {a b c : Val} (h1 : Same a b) (h2 : Same b c) : Same a c := by
  rcases h1 with rfl | ⟨u, w, rfl, rfl, h3, h4⟩
  · exact h2
  · rcases h2 with rfl | ⟨u', w', e, rfl, h5, h6⟩
    · exact Or.inr ⟨_, _, rfl, rfl, h3, h4⟩
    · exact Or.inr ⟨_, _, rfl, rfl, h3, h6⟩

/-- A setter keeps the field or changes the value and sets the flag. -/
theorem setVal_cases (f : Field) (v : Val) : f.setVal v = f ∨ ∃ w, f.setVal v = { f with val := w, modified := true } := by
  unfold Field.setVal
  cases v <;> (try dsimp only) <;> repeat (first | exact Or.inl rfl | exact Or.inr ⟨_, rfl⟩ | split)

theorem setVal_same {v : Val} (f : Field) (hv : Plain v) : Same (f.setVal v).val v := by
  unfold Field.setVal
  cases v with
  | none => simp only; (split <;> first | exact Or.inl ‹_› | exact Or.inl rfl)
  | bool w =>
    simp only
    have e : (if w = 0 then (0 : Word) else 1) = w := by
      rcases hv with rfl | rfl <;> rfl
    rw [e]
    (split <;> first | exact Or.inl ‹_› | exact Or.inl rfl)
  | int w => simp only; (split <;> first | exact Or.inl ‹_› | exact Or.inl rfl)
  | datime w => simp only; (split <;> first | exact Or.inl ‹_› | exact Or.inl rfl)
  | uint w => simp only; (split <;> first | exact Or.inl ‹_› | exact Or.inl rfl)
  | str w => simp only; (split <;> first | exact Or.inl ‹_› | exact Or.inl rfl)
  | double w =>
    simp only
    split
    · rename_i u hu
      split
      · rename_i h
        unfold doubleEq at h
        simp only [Bool.or_eq_true, Bool.and_eq_true, Bool.not_eq_true', decide_eq_true_eq] at h
        rw [hu]
        rcases h with ⟨_, h⟩ | h
        · rw [h]; exact Or.inl rfl
        · exact Or.inr ⟨u, w, rfl, rfl, h.1, h.2⟩
      · exact Or.inl rfl
    · exact Or.inl rfl
  | arrint l => simp only; rw [if_neg hv]; (split <;> first | exact Or.inl ‹_› | exact Or.inl rfl)
  | arruint l => simp only; rw [if_neg hv]; (split <;> first | exact Or.inl ‹_› | exact Or.inl rfl)
  | arrdouble l => simp only; rw [if_neg hv]; (split <;> first | exact Or.inl ‹_› | exact Or.inl rfl)
  | arrstr l => exact Or.inl rfl
  | buffer b => exact Or.inl rfl
  | reference b => exact Or.inl rfl
  | other k => exact absurd hv (by simp [Plain])

theorem has_iff {m : FMap} {n : Name} : has m n = true ↔ ∃ f, find m n = some f := by
  unfold has; rw [Option.isSome_iff_exists]

theorem has_false {m : FMap} {n : Name} : has m n = false ↔ find m n = none := by
  unfold has
  cases find m n <;> simp

theorem sorted_remove {s : Fields} (h : Sorted s.map) (n : Name) : Sorted (s.remove n).map := by
  unfold Fields.remove
  split
  · exact sorted_erase h n
  · exact h

theorem find_remove {s : Fields} (h : Sorted s.map) (n k : Name) : find (s.remove n).map k = if n = k then none else find s.map k := by
  unfold Fields.remove
  split
  · exact find_erase h n k
  · rename_i hn
    by_cases e : n = k
    · rw [if_pos e, ← e]
      exact has_false.mp (by simpa using hn)
    · rw [if_neg e]

theorem sorted_removes {l : List Name} : ∀ {s : Fields}, Sorted s.map → Sorted (l.foldl Fields.remove s).map := by
  induction l with
  | nil => intro s h; exact h
  | cons n l ih => intro s h; exact ih (sorted_remove h n)

theorem find_removes {l : List Name} : ∀ {s : Fields}, Sorted s.map → ∀ k,
    find (l.foldl Fields.remove s).map k = if k ∈ l then none else find s.map k := by
  induction l with
  | nil => intro s _ k; simp
  | cons n l ih =>
    intro s h k
    rw [List.foldl_cons, ih (sorted_remove h n), find_remove h]
    by_cases e : n = k
    · subst e; simp
    · have : ¬ k = n := fun e' => e e'.symm
      simp [e, this]

theorem not_mem_tail {e : Name × Field} {m : FMap} (h : Sorted (e :: m)) : find m e.1 = none := by
  rw [find_eq_none]
  intro x hx he
  have := (List.pairwise_cons.mp h).1 x hx
  rw [he, nameLt_irrefl] at this
  exact absurd this (by simp)

theorem sorted_tail {e : Name × Field} {m : FMap} (h : Sorted (e :: m)) : Sorted m := (List.pairwise_cons.mp h).2

theorem diffLoop_spec {cur : FMap} : ∀ {s : Fields} {del : List Name}, Sorted cur → Sorted s.map →
    Sorted (diffLoop s del cur).1.map ∧
    (∀ n, find (diffLoop s del cur).1.map n = match find cur n with
      | some f => if f.modified then find s.map n else none
      | none => find s.map n) ∧
    (∀ n, n ∈ (diffLoop s del cur).2 ↔ n ∈ del ∨ (find cur n ≠ none ∧ find s.map n = none)) := by
  induction cur with
  | nil => intro s del _ hs; exact ⟨hs, fun n => rfl, fun n => by simp [diffLoop, find_nil]⟩
  | cons e cur ih =>
    intro s del hc hs
    have hnt := not_mem_tail hc
    unfold diffLoop
    by_cases hh : has s.map e.1 = true
    · rw [if_neg (by simp [hh])]
      obtain ⟨g, hg⟩ := has_iff.mp hh
      by_cases hm : e.2.modified = true
      · rw [if_neg (by simp [hm])]
        obtain ⟨h1, h2, h3⟩ := ih (del := del) (sorted_tail hc) hs
        refine ⟨h1, ?_, ?_⟩
        · intro n
          rw [h2, find_cons]
          by_cases en : e.1 = n
          · rw [if_pos en, ← en, hnt]; simp [hm]
          · rw [if_neg en]
        · intro n
          rw [h3, find_cons]
          by_cases en : e.1 = n
          · rw [if_pos en, ← en, hnt, hg]; simp
          · rw [if_neg en]
      · rw [if_pos (by simp [hm])]
        obtain ⟨h1, h2, h3⟩ := ih (del := del) (sorted_tail hc) (sorted_remove hs e.1)
        refine ⟨h1, ?_, ?_⟩
        · intro n
          rw [h2, find_cons, find_remove hs]
          by_cases en : e.1 = n
          · rw [if_pos en, if_pos en, ← en, hnt]; simp [hm]
          · rw [if_neg en, if_neg en]
        · intro n
          rw [h3, find_cons, find_remove hs]
          by_cases en : e.1 = n
          · rw [if_pos en, ← en, hnt, hg]; simp
          · rw [if_neg en, if_neg en]
    · rw [if_pos (by simp [hh])]
      have hn : find s.map e.1 = none := has_false.mp (by simpa using hh)
      obtain ⟨h1, h2, h3⟩ := ih (del := del ++ [e.1]) (sorted_tail hc) hs
      refine ⟨h1, ?_, ?_⟩
      · intro n
        rw [h2, find_cons]
        by_cases en : e.1 = n
        · rw [if_pos en, ← en, hnt, hn]; simp
        · rw [if_neg en]
      · intro n
        rw [h3, find_cons]
        by_cases en : e.1 = n
        · rw [if_pos en, ← en, hnt, hn]; simp
        · have : ¬ n = e.1 := fun e' => en e'.symm
          rw [if_neg en]; simp [this]

/-- One step of `ApplyDiff`. -/
def applyStep (txt : Val → List Name) (r : Fields) (e : Name × Field) : Fields :=
  if e.1 ≠ delName then { r with map := upsert r.map e.1 fun f => { f.setVal e.2.val with modified := true } }
  else (asStrVect txt e.2.val).foldl Fields.remove r

theorem applyDiff_eq (txt : Val → List Name) (s : Fields) (d : FMap) : s.applyDiff txt d = d.foldl (applyStep txt) s := rfl

theorem sorted_applyStep {txt : Val → List Name} {r : Fields} (h : Sorted r.map) (e : Name × Field) : Sorted (applyStep txt r e).map := by
  unfold applyStep
  split
  · dsimp only; exact sorted_upsert h e.1 _
  · exact sorted_removes h

theorem sorted_applyDiff {txt : Val → List Name} {d : FMap} : ∀ {r : Fields}, Sorted r.map → Sorted (r.applyDiff txt d).map := by
  induction d with
  | nil => intro r h; exact h
  | cons e d ih => intro r h; exact ih (sorted_applyStep h e)

/-- Names deleted by a diff. -/
def delNames (txt : Val → List Name) (d : FMap) : List Name := match find d delName with
  | some f => asStrVect txt f.val
  | none => []

theorem find_applyDiff {txt : Val → List Name} {d : FMap} : ∀ {r : Fields}, Sorted d → Sorted r.map → ∀ n,
    (n ≠ delName → find d n ≠ none → n ∉ delNames txt d) →
    find (r.applyDiff txt d).map n =
      if n ∈ delNames txt d then none
      else if n = delName then find r.map n
      else match find d n with
        | some g => some { ((find r.map n).getD { val := .none }).setVal g.val with modified := true }
        | none => find r.map n := by
  induction d with
  | nil => intro r _ hr n _; simp [applyDiff_eq, delNames, find_nil]
  | cons e d ih =>
    intro r hd hr n hn
    have hnt := not_mem_tail hd
    rw [applyDiff_eq, List.foldl_cons, ← applyDiff_eq]
    by_cases he : e.1 = delName
    · have hdel : delNames txt (e :: d) = asStrVect txt e.2.val := by
        unfold delNames; rw [find_cons, if_pos he]
      have hdel' : delNames txt d = [] := by
        unfold delNames; rw [← he, hnt]
      rw [ih (sorted_tail hd) (sorted_applyStep hr e) n (by rw [hdel']; simp), hdel, hdel']
      have hst : applyStep txt r e = (asStrVect txt e.2.val).foldl Fields.remove r := by
        unfold applyStep; rw [if_neg (by simp [he])]
      rw [hst, find_removes hr, find_cons]
      rw [hdel, find_cons] at hn
      by_cases hm : n ∈ asStrVect txt e.2.val
      · have hnone : n = delName ∨ find d n = none := by
          by_cases hnd : n = delName
          · exact Or.inl hnd
          · right
            rcases Decidable.em (find d n = none) with h | h
            · exact h
            · exact absurd hm (hn hnd (by rw [if_neg (fun e' => hnd (e'.symm.trans he))]; exact h))
        rcases hnone with h | h
        · simp [hm, h]
        · simp [hm, h]
      · by_cases hnd : n = delName
        · simp [hnd]
        · have : ¬ e.1 = n := fun e' => hnd (e'.symm.trans he)
          simp [hm, this]
    · have hdel : delNames txt (e :: d) = delNames txt d := by
        unfold delNames; rw [find_cons, if_neg he]
      rw [ih (sorted_tail hd) (sorted_applyStep hr e) n (by
        intro h1 h2; rw [← hdel]; exact hn h1 (by rw [find_cons]; split <;> simp [h2])), hdel]
      have hst : applyStep txt r e = { r with map := upsert r.map e.1 fun f => { f.setVal e.2.val with modified := true } } := by
        unfold applyStep; rw [if_pos he]
      rw [hst]
      simp only
      rw [find_upsert hr, find_cons]
      by_cases en : e.1 = n
      · have hnd : ¬ n = delName := fun h => he (en.trans h)
        rw [if_pos en, if_pos en, ← en, hnt]
        have hnm : n ∉ delNames txt d := by
          have := hn hnd (by rw [find_cons, if_pos en]; simp)
          rwa [hdel] at this
        rw [← en] at hnm hnd
        simp [hnd, hnm]
      · rw [if_neg en, if_neg en]

/-! ## Names in the deletion list -/

theorem cpad_eq {n : Name} (h : 0 ∉ n) : cpad n = n ++ [0] := by
  have : n.takeWhile (· ≠ 0) = n := by
    induction n with
    | nil => rfl
    | cons c n ih =>
      simp only [List.mem_cons, not_or] at h
      have hc : c ≠ 0 := fun e => h.1 e.symm
      rw [List.takeWhile_cons, ih h.2]
      rw [if_pos (by simpa using hc)]
  unfold cpad
  simp only [this]
  rw [show n.length + 1 - n.length = 1 by omega]
  rfl

theorem cut_cpad {l : List Name} (h : ∀ n ∈ l, 0 ∉ n) : cutStrs l.length (l.flatMap cpad) = some l := by
  have : l.flatMap cpad = strs l := by
    unfold strs
    induction l with
    | nil => rfl
    | cons n l ih => rw [List.flatMap_cons, List.flatMap_cons, cpad_eq (h n (by simp)), ih (fun m hm => h m (by simp [hm]))]
  have h2 := cutStrs_strs l h []
  rw [List.append_nil] at h2
  rw [this, h2]

theorem setStrVect_val {l : List Name} (h : ∀ n ∈ l, 0 ∉ n) (f : Field) : (f.setStrVect l).val = .arrstr l := by
  unfold Field.setStrVect
  split
  · assumption
  · simp [Field.put, cut_cpad h]

theorem sorted_makeAsDiffTo {s : Fields} {cur : FMap} (hs : Sorted s.map) (hc : Sorted cur) : Sorted (s.makeAsDiffTo cur).map := by
  unfold Fields.makeAsDiffTo
  simp only
  split
  · exact (diffLoop_spec hc hs).1
  · dsimp only; exact sorted_upsert (diffLoop_spec (del := []) hc hs).1 delName _

theorem makeAsDiffTo_spec {s : Fields} {cur : FMap} (hs : Sorted s.map) (hc : Sorted cur)
    (hnul : ∀ e ∈ cur, 0 ∉ e.1) (hd1 : find s.map delName = none) (hd2 : find cur delName = none) (txt : Val → List Name) :
    (∀ n, n ≠ delName → find (s.makeAsDiffTo cur).map n = match find cur n with
      | some f => if f.modified then find s.map n else none
      | none => find s.map n) ∧
    (∀ n, n ∈ delNames txt (s.makeAsDiffTo cur).map ↔ find cur n ≠ none ∧ find s.map n = none) := by
  obtain ⟨h1, h2, h3⟩ := diffLoop_spec (del := []) hc hs
  have hdl : find (diffLoop s [] cur).1.map delName = none := by rw [h2, hd2]; exact hd1
  have hnul' : ∀ n ∈ (diffLoop s [] cur).2, 0 ∉ n := by
    intro n hn
    rcases (h3 n).mp hn with h | ⟨h, _⟩
    · simp at h
    · cases hf : find cur n with
      | none => exact absurd hf h
      | some f => exact hnul _ (find_mem hf)
  unfold Fields.makeAsDiffTo
  simp only
  split
  · rename_i hemp
    refine ⟨fun n _ => h2 n, ?_⟩
    intro n
    have : delNames txt (diffLoop s [] cur).1.map = [] := by unfold delNames; rw [hdl]
    rw [this]
    have := h3 n
    rw [List.isEmpty_iff] at hemp
    rw [hemp] at this
    simpa using this
  · refine ⟨?_, ?_⟩
    · intro n hn
      simp only
      rw [find_upsert h1, if_neg (fun e => hn e.symm)]
      exact h2 n
    · intro n
      have : delNames txt (upsert (diffLoop s [] cur).1.map delName fun f => f.setStrVect (diffLoop s [] cur).2) = (diffLoop s [] cur).2 := by
        unfold delNames
        rw [find_upsert h1, if_pos rfl, hdl]
        simp only
        rw [setStrVect_val hnul']
        rfl
      simp only
      rw [this, h3]
      simp

/-! ## Diffs -/

theorem SameOpt.refl (a : Option Val) : SameOpt a a := by
  cases a <;> simp [SameOpt, Same]

theorem SameOpt.symm {a b : Option Val} (h : SameOpt a b) : SameOpt b a := by
  cases a <;> cases b <;> simp only [SameOpt] at *
  exact h.symm

theorem SameOpt.trans {a b c : Option Val} (h1 : SameOpt a b) (h2 : SameOpt b c) : SameOpt a c := by
  cases a <;> cases b <;> cases c <;> simp only [SameOpt] at *
  exact h1.trans h2

theorem value_none {m : FMap} {n : Name} (h : find m n = none) : value m n = none := by unfold value; rw [h]; rfl

theorem value_some {m : FMap} {n : Name} {f : Field} (h : find m n = some f) : value m n = some f.val := by unfold value; rw [h]; rfl

theorem value_eq_none {m : FMap} {n : Name} : value m n = none ↔ find m n = none := by
  unfold value; cases find m n <;> simp

/-- The diff leads back from the current to the previous fields. -/
theorem diff_ok {prev : Fields} {cur : FMap} (hs : Sorted prev.map) (hc : Sorted cur)
    (hnul : ∀ e ∈ cur, 0 ∉ e.1) (hd1 : find prev.map delName = none) (hd2 : find cur delName = none)
    (hpl : ∀ e ∈ prev.map, Plain e.2.val)
    (hflag : ∀ n f g, find cur n = some f → f.modified = false → find prev.map n = some g → Same f.val g.val)
    (txt : Val → List Name) {r : Fields} (hr : Sorted r.map) (hrc : ∀ n, SameOpt (value r.map n) (value cur n)) (n : Name) :
    SameOpt (value (r.applyDiff txt (prev.makeAsDiffTo cur).map).map n) (value prev.map n) := by
  obtain ⟨h1, h2⟩ := makeAsDiffTo_spec hs hc hnul hd1 hd2 txt
  have hnd : delName ∉ delNames txt (prev.makeAsDiffTo cur).map := by
    rw [h2]; rintro ⟨h, _⟩; exact h hd2
  have hlk := find_applyDiff (txt := txt) (sorted_makeAsDiffTo hs hc) hr n (by
    intro hn hf hm
    rw [h2] at hm
    rw [h1 n hn] at hf
    apply hf
    cases hcn : find cur n with
    | none => exact absurd hcn hm.1
    | some f => simp only [hm.2]; split <;> rfl)
  unfold value at *
  rw [hlk]
  by_cases hm : n ∈ delNames txt (prev.makeAsDiffTo cur).map
  · rw [if_pos hm, ((h2 n).mp hm).2]
    trivial
  · rw [if_neg hm]
    by_cases hn : n = delName
    · subst hn
      rw [if_pos rfl, hd1]
      have := hrc delName
      rwa [hd2] at this
    · rw [if_neg hn, h1 n hn]
      have hrn := hrc n
      cases hcn : find cur n with
      | none =>
        rw [hcn] at hrn
        simp only
        cases hpn : find prev.map n with
        | none => exact hrn
        | some g => simp only [Option.map_some, SameOpt]; exact setVal_same _ (hpl _ (find_mem hpn))
      | some f =>
        rw [hcn] at hrn
        simp only
        have hpn : find prev.map n ≠ none := fun h => hm ((h2 n).mpr ⟨by simp [hcn], h⟩)
        cases hpn' : find prev.map n with
        | none => exact absurd hpn' hpn
        | some g =>
          by_cases hmod : f.modified = true
          · simp only [hmod, if_true, Option.map_some, SameOpt]
            exact setVal_same _ (hpl _ (find_mem hpn'))
          · simp only [hmod]
            exact hrn.trans (hflag n f g hcn (by simpa using hmod) hpn')

/-! ## Cloning -/

theorem set_map (s : Fields) (n : Name) (v : Val) : (s.set n v).map = upsert s.map n fun f => f.setVal v := rfl

theorem sorted_set {s : Fields} (h : Sorted s.map) (n : Name) (v : Val) : Sorted (s.set n v).map := by
  rw [set_map]; exact sorted_upsert h _ _

theorem find_set {s : Fields} (h : Sorted s.map) (n : Name) (v : Val) (k : Name) :
    find (s.set n v).map k = if n = k then some (((find s.map n).getD { val := .none }).setVal v) else find s.map k := by
  rw [set_map]; exact find_upsert h n _ k

/-- Setting fields one after the other. -/
def setAll (s : Fields) (m : FMap) : Fields := m.foldl (fun r e => r.set e.1 e.2.val) s

theorem sorted_setAll {m : FMap} : ∀ {s : Fields}, Sorted s.map → Sorted (setAll s m).map := by
  induction m with
  | nil => intro s h; exact h
  | cons e m ih => intro s h; exact ih (sorted_set h _ _)

theorem find_setAll {m : FMap} (hm : Sorted m) : ∀ {s : Fields}, Sorted s.map → ∀ n,
    find (setAll s m).map n = match find m n with
      | some f => some (((find s.map n).getD { val := .none }).setVal f.val)
      | none => find s.map n := by
  induction m with
  | nil => intro s _ n; rfl
  | cons e m ih =>
    intro s hs n
    have := ih (sorted_tail hm) (sorted_set hs e.1 e.2.val) n
    unfold setAll at this ⊢
    rw [List.foldl_cons, this, find_cons, find_set hs]
    by_cases hn : e.1 = n
    · rw [← hn, not_mem_tail hm]; simp
    · rw [if_neg hn, if_neg hn]

theorem clone_eq (s : Fields) : s.clone = setAll {} s.map := rfl

theorem setVal_fresh {v : Val} (hv : Plain v) : (({ val := .none } : Field).setVal v).val = v := by
  cases v with
  | none => rfl
  | bool w =>
    rcases hv with rfl | rfl
    · simp [Field.setVal, Field.put]
    · simp [Field.setVal, Field.put]
  | int w => simp [Field.setVal, Field.put]
  | datime w => simp [Field.setVal, Field.put]
  | uint w => simp [Field.setVal, Field.put]
  | double w => simp [Field.setVal, Field.put]
  | str w => simp [Field.setVal, Field.put]
  | arrint l => simp [Field.setVal, Field.put, show l ≠ [] from hv]
  | arruint l => simp [Field.setVal, Field.put, show l ≠ [] from hv]
  | arrdouble l => simp [Field.setVal, Field.put, show l ≠ [] from hv]
  | arrstr l => rfl
  | buffer l => rfl
  | reference l => rfl
  | other k => exact absurd hv (by simp [Plain])

theorem setVal_fresh_modified {v : Val} (hv : Plain v) (hn : v ≠ .none) : (({ val := .none } : Field).setVal v).modified = true := by
  rcases setVal_cases { val := .none } v with h | ⟨w, h⟩
  · have := setVal_fresh hv
    rw [h] at this
    exact absurd this.symm hn
  · rw [h]

theorem value_clone {s : Fields} (hs : Sorted s.map) (hp : ∀ e ∈ s.map, Plain e.2.val) (n : Name) :
    value s.clone.map n = value s.map n := by
  unfold value
  rw [clone_eq, find_setAll hs (show Sorted ({} : Fields).map from List.Pairwise.nil)]
  cases h : find s.map n with
  | none => rfl
  | some f =>
    simp only [find_nil, Option.getD_none, Option.map_some]
    rw [setVal_fresh (hp _ (find_mem h))]

theorem mem_of_find_plain {m : FMap} (hs : Sorted m) {P : Name → Val → Prop} :
    (∀ e ∈ m, P e.1 e.2.val) ↔ ∀ n v, value m n = some v → P n v := by
  constructor
  · intro h n v hv
    unfold value at hv
    cases hf : find m n with
    | none => rw [hf] at hv; simp at hv
    | some f =>
      rw [hf] at hv
      simp only [Option.map_some, Option.some.injEq] at hv
      rw [← hv]
      exact h _ (find_mem hf)
  · intro h e he
    exact h e.1 e.2.val (by unfold value; rw [find_of_mem hs he]; rfl)

end Verif.Record
