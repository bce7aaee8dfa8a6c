import Verif.ResolveLemmas

/-!
# C69: variables in configuration values
-/

namespace Verif.Resolve

open Spec

/-- Every text with variables gets its meaning, if the definitions of the variables are not circular and the
text can be read in one way only. -/
theorem C69_resolve_partial (e : Env) (val : Text → Text) (rank : Text → Nat) (h : Values e val rank) (id : Int)
    (ps : List Piece) (r : Text) (hm : Means val id ps r) (hf : Free r) (hc : Clear val id [] ps) :
    (∃ n, ∀ m, n ≤ m → resolve e m id (text ps) = some r) ∧
      ∀ m r', resolve e m id (text ps) = some r' → r' = r := by
  obtain ⟨n, hn⟩ := loop_pieces e val id (text ps) ps r [] hm hf hc (fun p _ w _ => found_values e val rank h w)
  have hn : loop e n id (text ps) (text ps) = some r := hn
  refine ⟨⟨n, fun m hm => loop_mono e hm hn⟩, fun m r' hr => ?_⟩
  have h1 := loop_mono e (Nat.le_max_left n m) hn
  have h2 := loop_mono e (Nat.le_max_right n m) hr
  rw [h1] at h2
  exact (Option.some.inj h2).symm

/-- Sample: `A` of the command line hides `A` of the file, `B` uses `A`, `C` is a variable of the process. -/
def sample : Env :=
  { cmd := [("A".toList, "x,y".toList)], vars := [("A".toList, "no".toList), ("B".toList, "[${A}]".toList)],
    own := [("host".toList, "pc".toList)], sys := fun v => if v = "C".toList then "c".toList else [] }

def sampleVal (v : Text) : Text :=
  if v = "A".toList then "x,y".toList else if v = "B".toList then "[x,y]".toList
  else if v = "host".toList then "pc".toList else if v = "C".toList then "c".toList else []

def sampleRank (v : Text) : Nat := if v = "B".toList then 1 else 0

theorem sample_values : Values sample sampleVal sampleRank := by
  constructor
  · intro v t hd
    have hr := raw_defines.mpr hd
    have : (v = "A".toList ∧ t = "x,y".toList) ∨ (v = "B".toList ∧ t = "[${A}]".toList) := by
      by_cases h1 : "A".toList = v
      · subst h1
        rw [show raw sample "A".toList = some "x,y".toList by decide] at hr
        cases hr
        exact Or.inl ⟨rfl, rfl⟩
      · by_cases h2 : "B".toList = v
        · subst h2
          rw [show raw sample "B".toList = some "[${A}]".toList by decide] at hr
          cases hr
          exact Or.inr ⟨rfl, rfl⟩
        · unfold raw sample at hr
          simp only [findChild, if_neg h1, if_neg h2] at hr
          cases hr
    rcases this with ⟨rfl, rfl⟩ | ⟨rfl, rfl⟩
    · refine ⟨[.lit "x,y".toList], "x,y".toList, rfl, Means.lit "x,y".toList [] [] Means.nil, free_of_next _ (by decide), trivial,
        ?_, fun _ => rfl, fun h => absurd h (by decide)⟩
      intro p hp w hw
      simp at hp
      subst hp
      cases hw
    · refine ⟨[.lit ['['], .var ['A'], .lit [']']], "[x,y]".toList, rfl,
        Means.lit ['['] _ _ (Means.var ['A'] _ _ (Means.lit [']'] [] [] Means.nil)), free_of_next _ (by decide), ?_, ?_,
        fun _ => rfl, fun h => absurd h (by decide)⟩
      · exact ⟨by decide, by decide, by decide, fun h => absurd h (by decide), trivial⟩
      · intro p hp w hw
        simp at hp
        rcases hp with rfl | rfl | rfl
        · cases hw
        · cases hw
          decide
        · cases hw
  · intro v hv
    have ha : v ≠ "A".toList := by
      rintro rfl
      exact hv "x,y".toList (Or.inl ⟨[], [], rfl, by simp⟩)
    have hb : v ≠ "B".toList := by
      rintro rfl
      refine hv "[${A}]".toList (Or.inr ⟨?_, ⟨[("A".toList, "no".toList)], [], rfl, ?_⟩⟩)
      · intro p hp
        simp [sample] at hp
        subst hp
        decide
      · intro p hp
        simp at hp
        subst hp
        decide
    unfold sampleVal
    rw [if_neg ha, if_neg hb]
    by_cases hh : v = "host".toList
    · subst hh
      exact Or.inl ⟨⟨[], [], rfl, by simp⟩, by decide⟩
    · rw [if_neg hh]
      refine Or.inr ⟨Or.inl ?_, rfl⟩
      intro p hp
      simp [sample] at hp
      subst hp
      exact fun h => hh h.symm

example : Values sample sampleVal sampleRank ∧
    Means sampleVal 1 [.lit "/".toList, .elem "B".toList, .lit "/".toList, .count "B".toList, .var "C".toList] "/y/2c".toList ∧
    Clear sampleVal 1 [] [.lit "/".toList, .elem "B".toList, .lit "/".toList, .count "B".toList, .var "C".toList] ∧
    resolve sample 10 1 "/${B}#/#${B}${C}".toList = some "/y/2c".toList := by
  have hx : IsElem 1 (sampleVal "B".toList) ['y'] :=
    Or.inl ⟨[['x'], ['y']], by decide, by decide, by decide, by decide⟩
  have hn : IsCount (sampleVal "B".toList) ['2'] :=
    Or.inr (Or.inl ⟨[['x'], ['y']], by decide, by decide, by decide, by decide⟩)
  refine ⟨sample_values, ?_, ?_, by decide⟩
  · exact Means.lit ['/'] _ _ (Means.elem _ ['y'] _ _ hx (Means.lit ['/'] _ _
      (Means.count _ ['2'] _ _ hn (Means.var "C".toList [] [] Means.nil))))
  · refine ⟨by decide, by decide, by decide, by decide, by decide, ?_⟩
    intro x hx'
    rw [← elem_eq (by decide) hx']
    refine ⟨by decide, by decide, ?_⟩
    intro c hc
    rw [← count_eq hc]
    exact ⟨by decide, by decide, by decide, fun _ _ => by decide, trivial⟩

/-- A text without variables stays as it is. -/
theorem C69_plain (e : Env) (id : Int) (arg : Text) (h : Free arg) (n : Nat) : resolve e (n + 1) id arg = some arg := by
  unfold resolve
  rw [loop, next_free _ h]

example : Free "a$b".toList := free_of_next _ (by decide)

/-- Whatever the variables are: the result has no variables any more, or it is the text itself. -/
theorem C69_result (e : Env) (n : Nat) (id : Int) (arg r : Text) (h : resolve e n id arg = some r) :
    Free r ∨ r = arg := loop_result e n id arg arg r h

example : resolve sample 10 (-1) "${B}".toList = some "[x,y]".toList := by decide

/-- A brace which is not closed leaves the text as it is. -/
theorem C69_unclosed (e : Env) (n : Nat) (id : Int) (a b : Text) (ha : Free a) (hb : '}' ∉ b) :
    resolve e (n + 1) id (a ++ ['$', '{'] ++ b) = some (a ++ ['$', '{'] ++ b) := by
  unfold resolve
  rw [loop, (next_bad _).mpr ⟨a, b, rfl, ha, hb⟩]

example : resolve sample 10 0 "x${A".toList = some "x${A".toList := by decide

/-- The first variable with a name on the command line counts. -/
theorem C69_cmd_first (e : Env) (v t u : Text) (h : First e.cmd v t) : Defines (addCmd e v u) v t := by
  obtain ⟨a, b, h, ha⟩ := h
  exact Or.inl ⟨a, b ++ [(v, u)], by simp [addCmd, h], ha⟩

example : First sample.cmd "A".toList "x,y".toList := ⟨[], [], rfl, by simp⟩

/-- A variable which is not on the command line yet gets the value given there, whatever the file says. -/
theorem C69_cmd_new (e : Env) (v t : Text) (h : Absent e.cmd v) : Defines (addCmd e v t) v t :=
  Or.inl ⟨e.cmd, [], rfl, h⟩

example : Absent sample.cmd "B".toList := by intro p hp; simp [sample] at hp; subst hp; decide

/-- Number of entries of every value. -/
theorem C69_count (value : Text) : IsCount value (count value) := by
  by_cases hv : value = []
  · subst hv; exact Or.inl ⟨rfl, rfl⟩
  · by_cases ha : ∃ s, value = ['['] ++ s ++ [']']
    · obtain ⟨s, rfl⟩ := ha
      obtain ⟨xs, hx, hc, hs⟩ := entries s
      have : IsCount (['['] ++ s ++ [']']) (Nat.toDigits 10 xs.length) :=
        Or.inr (Or.inl ⟨xs, hx, hc, by rw [array, hs], rfl⟩)
      rw [count_eq this]
      exact this
    · have : IsCount value ['1'] := Or.inr (Or.inr ⟨hv, fun s hs => ha ⟨s, hs⟩, rfl⟩)
      rw [count_eq this]
      exact this

/-- Every entry of every value. -/
theorem C69_elem (id : Nat) (value : Text) (hv : value ≠ []) : IsElem id value (elem id value) := by
  by_cases ha : ∃ s, value = ['['] ++ s ++ [']']
  · obtain ⟨s, rfl⟩ := ha
    obtain ⟨xs, hx, hc, hs⟩ := entries s
    have : IsElem id (['['] ++ s ++ [']']) (xs.getD id []) := Or.inl ⟨xs, hx, hc, by rw [array, hs], rfl⟩
    rw [elem_eq hv this]
    exact this
  · have : IsElem id value (if id = 0 then value else []) := Or.inr ⟨fun s hs => ha ⟨s, hs⟩, rfl⟩
    rw [elem_eq hv this]
    exact this

example : elem 1 "[a,,c]".toList = [] ∧ elem 2 "[a,,c]".toList = ['c'] ∧ count "[a,,c]".toList = ['3'] := by decide

/-- An array without entries counts as one entry. -/
theorem C69_empty_counterexample : array [] = "[]".toList ∧ count (array []) = ['1'] := by decide

/-- Commas in quoted entries separate entries. -/
theorem C69_quotes_counterexample : count "[\"a,b\"]".toList = ['2'] ∧ elem 0 "[\"a,b\"]".toList = "\"a".toList := by decide

/-- A variable which is defined by itself: the call never returns. -/
theorem C69_self_counterexample (n : Nat) (id : Int) :
    resolve { cmd := [], vars := [("A".toList, "${A}".toList)], own := [], sys := fun _ => [] } n id "${A}".toList = none := by
  unfold resolve
  induction n generalizing id with
  | zero => rfl
  | succ n ih =>
    rw [loop, show next "${A}".toList = .var [] ['A'] [] by decide]
    dsimp only
    rw [if_neg (by decide),
      show raw { cmd := [], vars := [("A".toList, "${A}".toList)], own := [], sys := fun _ => [] } ['A'] = some "${A}".toList by decide]
    dsimp only
    rw [ih (-1)]

/-- The same with a variable of the process. -/
theorem C69_process_counterexample (n : Nat) (id : Int) (arg : Text) :
    loop { cmd := [], vars := [], own := [], sys := fun _ => "${A}".toList } n id arg "${A}".toList = none := by
  induction n with
  | zero => rfl
  | succ n ih =>
    rw [loop, show next "${A}".toList = .var [] ['A'] [] by decide]
    dsimp only
    rw [if_neg (by decide), show raw { cmd := [], vars := [], own := [], sys := fun _ => "${A}".toList } ['A'] = none by decide]
    dsimp only
    rw [show orElse { cmd := [], vars := [], own := [], sys := fun _ => "${A}".toList } ['A'] [] = "${A}".toList by decide,
      show put id [] "${A}".toList [] = "${A}".toList by simp [put]]
    exact ih

/-- A value which ends with `#` turns the next variable into its number of entries. -/
theorem C69_hash_counterexample :
    resolve { sample with vars := [("P".toList, "p#".toList)] } 10 (-1) "${P}${A}".toList = some "p1".toList ∧
      resolve { sample with vars := [("P".toList, "p+".toList)] } 10 (-1) "${P}${A}".toList = some "p+x,y".toList := by decide

/-- One open brace at the end undoes all variables before. -/
theorem C69_unclosed_counterexample : resolve sample 10 (-1) "${A}${".toList = some "${A}${".toList := by decide

/-- An empty value on the command line does not hide the variable of the process. -/
theorem C69_hide_counterexample :
    resolve { sample with cmd := [("C".toList, [])] } 10 (-1) "${C}".toList = some "c".toList := by decide

end Verif.Resolve
