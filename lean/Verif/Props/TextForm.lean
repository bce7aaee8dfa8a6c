import Verif.TextFormLemmas

/-!
# C53: values survive their text form
-/

namespace Verif.TextForm
open Verif.Bytes Verif.Json Verif.Record Verif.Text Spec

/-- C53: the parser of text arrays reads only the string it got. -/
theorem C53_inside (s : List Byte) : strToStrVect s ≠ .outside := by
  unfold strToStrVect
  split
  · simp
  · rename_i h
    simp only [not_or, Nat.not_lt, ne_eq, Decidable.not_not] at h
    obtain ⟨h1, h2, h3⟩ := h
    cases s with
    | nil => simp at h1
    | cons b t =>
      refine loop_safe _ _ _ (by simp) ?_
      rw [List.drop_succ_cons, List.drop_zero]
      cases t with
      | nil => exact Or.inl rfl
      | cons c t => right; simpa using h3

/-- C53: every text `[a, b, "c"]` with quoted elements and words, and with any spaces, is read as its elements. -/
theorem C53_parse (t : List Byte) (l : List (List Byte)) (h : Body t l) : strToStrVect (91 :: (t ++ [93])) = .yes l :=
  parse_body h

/-- C53: integer, unsigned and bool values are the same after they were stored as text. -/
theorem C53_scalars (F : Fmt) (d d' : Word) (dflt : List Byte) (b : Bool) (v : Word) :
    asInt d (.str (asStr F dflt (.int v))) = some v ∧ asUInt d (.str (asStr F dflt (.uint v))) = some v ∧
      asBool b (.str (asStr F dflt (.bool v))) = some (decide (v ≠ 0)) ∧ asInt d' (.str (asStr F dflt (.int v))) = asInt d (.int v) := by
  have hi : ∀ d, asInt d (.str (asStr F dflt (.int v))) = some v := by
    intro d
    show orElse d (strToInt 64 (decInt v.toInt)) = some v
    rw [strToInt_dec]
    show some (BitVec.ofInt 64 v.toInt) = _
    rw [BitVec.ofInt_toInt]
  refine ⟨hi d, ?_, ?_, (hi d').trans rfl⟩
  · show orElse d (strToUint 64 (decNat v.toNat)) = some v
    rw [strToUint_dec]
    show some (BitVec.ofInt 64 (v.toNat : Int)) = _
    rw [BitVec.ofInt_natCast, BitVec.ofNat_toNat, BitVec.setWidth_eq]
  · show some (if (if v ≠ 0 then lit "true" else lit "false") = lit "true" then true else _) = _
    by_cases hv : v = 0
    · subst hv
      have e : asStr F dflt (.bool 0) = lit "false" := rfl
      simp only [ne_eq, not_true_eq_false, if_false, decide_false]
      rw [e, if_neg (by decide), if_pos rfl]
    · simp only [ne_eq, hv, not_false_eq_true, if_true, decide_true]

theorem elems_str (F : Fmt) (dflt : List Byte) (v : Val) (he : elems F v ≠ []) (hp : ∀ s ∈ elems F v, Plain s) :
    strToStrVect (asStr F dflt v) = .yes (elems F v) := by
  have h : asStr F dflt v = bracket ((elems F v).map quoted) := by
    cases v <;> first | exact absurd rfl he | (unfold asStr; dsimp only; rw [if_neg he])
  rw [h, bracket_parse he hp]

/-- C53: arrays of numbers are the same after they were stored as text, also empty ones. -/
theorem C53_numbers (F : Fmt) (l : List Word) :
    asIntVect (.str (asStr F [] (.arrint l))) = some l ∧ asUIntVect (.str (asStr F [] (.arruint l))) = some l := by
  by_cases h : l = []
  · subst h
    exact ⟨rfl, rfl⟩
  · refine ⟨?_, ?_⟩
    · have := elems_str F [] (.arrint l) (by simpa [elems] using h) (by
        intro s hs
        obtain ⟨v, _, rfl⟩ := List.mem_map.1 hs
        exact decInt_plain _)
      unfold asIntVect asNumVect
      dsimp only
      rw [this]
      exact scanAll_map strToInt_dec (fun v => BitVec.ofInt_toInt) l
    · have := elems_str F [] (.arruint l) (by simpa [elems] using h) (by
        intro s hs
        obtain ⟨v, _, rfl⟩ := List.mem_map.1 hs
        exact decNat_plain _)
      unfold asUIntVect asNumVect
      dsimp only
      rw [this]
      exact scanAll_map (k := fun v => (v.toNat : Int)) strToUint_dec (fun v => by
        rw [BitVec.ofInt_natCast, BitVec.ofNat_toNat, BitVec.setWidth_eq]) l

/-- C53: arrays of strings are the same after they were stored as text, if all their characters are plain. -/
theorem C53_strings_partial (F : Fmt) (l : List (List Byte)) (h0 : l ≠ []) (h : ∀ s ∈ l, Plain s) (dflt : List Byte) :
    asStrVect F (.str (asStr F dflt (.arrstr l))) = some l := by
  have := elems_str F dflt (.arrstr l) h0 h
  unfold asStrVect
  dsimp only
  rw [this]
  rfl

/-! ## Violations -/

/-- A path: the slash is escaped in the text and the escape character stays. -/
theorem C53_slash_counterexample (F : Fmt) : ∃ l, asStrVect F (.str (asStr F [] (.arrstr l))) = some [lit "\\/tmp"] ∧
    l = [lit "/tmp"] := by
  refine ⟨_, ?_, rfl⟩
  show (match strToStrVect (bracket ([lit "/tmp"].map quoted)) with
    | .outside => none
    | .no => some [bracket ([lit "/tmp"].map quoted)]
    | .yes l => some l) = _
  decide +kernel

/-- A quote: the text is cut there and all following elements are lost. -/
theorem C53_quote_counterexample (F : Fmt) : ∃ l, l.length = 2 ∧ asStrVect F (.str (asStr F [] (.arrstr l))) = some [lit "a\\"] := by
  refine ⟨[lit "a\"b", lit "c"], rfl, ?_⟩
  show (match strToStrVect (bracket ([lit "a\"b", lit "c"].map quoted)) with
    | .outside => none
    | .no => some [bracket ([lit "a\"b", lit "c"].map quoted)]
    | .yes l => some l) = _
  decide +kernel

/-- An empty array becomes an array with one empty string; the text of an empty array is refused. -/
theorem C53_empty_counterexample (F : Fmt) : asStrVect F (.str (asStr F [] (.arrstr []))) = some [[]] ∧
    strToStrVect (lit "[]") = .no := by
  refine ⟨?_, by decide +kernel⟩
  show (match strToStrVect [] with
    | .outside => none
    | .no => some [[]]
    | .yes l => some l) = _
  decide +kernel

/-! ## Examples -/

example : ∃ t l, Body t l ∧ t = lit " 1 , 'x y'" ∧ l = [lit "1", lit "x y"] := by
  refine ⟨_, _, ?_, rfl, rfl⟩
  have h := Body.more [32] (lit "1") (lit "1") [32] ([32] ++ lit "'x y'" ++ []) [lit "x y"] (by unfold Spaces; decide) (by unfold Spaces; decide)
    (Elem.bare _ (by decide) (by decide) (by intro b hb; obtain rfl : (49 : Byte) = b := by simpa [lit] using hb
                                             decide) (by decide))
    (Body.one [32] _ _ [] (by unfold Spaces; decide) (by unfold Spaces; decide) (Elem.quoted 39 (lit "x y") (Or.inr rfl) (by decide)))
  exact h

example : ∀ s ∈ [lit "abc", lit "x y"], Plain s := by unfold Plain; decide +kernel

end Verif.TextForm
