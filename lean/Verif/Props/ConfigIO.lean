import Verif.ConfigIOLemmas

/-!
# C71: configuration values of objects
-/

namespace Verif.ConfigIO

open Spec

/-- Reading of a field ends, and gives the first value in the nodes of the object: first those of the selected
context, then those of all contexts. -/
theorem C71_field (c : Cfg) (fs : Nat → Finder) (maxlevel : Nat) (item : Text)
    (sel : Option (Node × List (Node × List Node))) (root : Node) :
    ∃ k, ∀ n, k ≤ n → readField c fs maxlevel item n sel root =
      some ((allPlaces c fs maxlevel (sel.map (·.1)) root).findSome? (fieldVal c item)) := by
  obtain ⟨k, hk⟩ := read_all c fs maxlevel (visitField c item) sel root ()
  refine ⟨k, fun n hn => ?_⟩
  unfold readField
  rw [hk n hn, visits_field]
  cases (allPlaces c fs maxlevel (sel.map (·.1)) root).findSome? (fieldVal c item) <;> rfl

/-- The value which a node gives. -/
theorem C71_value (c : Cfg) (names : List Text) (h : ∀ a ∈ names, a ≠ [] ∧ '/' ∉ a) (n : Node) (v : Val) :
    fieldVal c (pathText names) n = some v ↔ Gives c n names v := fieldVal_iff c names h n v

/-- The node at the end of a path. -/
theorem C71_path (names : List Text) (h : ∀ a ∈ names, a ≠ [] ∧ '/' ∉ a) (n i : Node) :
    subItem (some n) [] (pathText names) = some i ↔ Leads n names i := subItem_path names h n i

example : ∀ a ∈ ["a".toList, "b".toList], a ≠ [] ∧ '/' ∉ a := by decide

/-- A value in a node of the selected context is taken, whatever other contexts say. -/
theorem C71_selected (c : Cfg) (fs : Nat → Finder) (maxlevel : Nat) (item : Text) (s : Node) (up : List (Node × List Node))
    (root : Node) (a b : List Node) (x : Node) (v : Val) (hp : places c true fs (maxlevel + 1) s = a ++ x :: b)
    (ha : ∀ z ∈ a, fieldVal c item z = none) (hx : fieldVal c item x = some v) :
    ∃ k, ∀ n, k ≤ n → readField c fs (maxlevel + 1) item n (some (s, up)) root = some (some v) := by
  obtain ⟨k, hk⟩ := C71_field c fs (maxlevel + 1) item (some (s, up)) root
  refine ⟨k, fun n hn => ?_⟩
  rw [hk n hn]
  simp only [allPlaces, selPlaces, Option.map_some, if_neg (Nat.succ_ne_zero maxlevel), hp, List.append_assoc]
  rw [List.findSome?_append, List.findSome?_eq_none_iff.mpr ha]
  simp [hx]

/-- Reading of a record ends; a field which the record has stays, any other field gets the value of the first node
which gives one. -/
theorem C71_record (c : Cfg) (fs : Nat → Finder) (maxlevel : Nat) (item : Text)
    (sel : Option (Node × List (Node × List Node))) (root : Node) (m : List (Text × Text)) :
    ∃ k, ∀ n, k ≤ n → ∃ found m', readMap c fs maxlevel item n sel root m = some (found, m') ∧
      (found = true ↔ ∃ p ∈ allPlaces c fs maxlevel (sel.map (·.1)) root, (subItem (some p) [] item).isSome) ∧
      ∀ a, ((m'.find? (·.1 = a)).map (·.2)) = match (m.find? (·.1 = a)).map (·.2) with
        | some v => some v
        | none => (((((allPlaces c fs maxlevel (sel.map (·.1)) root).filterMap (fun p => subItem (some p) [] item)).flatMap
            fieldsOf).find? (·.1 = a)).map (·.2)).map (resolve c) := by
  obtain ⟨k, hk⟩ := read_all c fs maxlevel (visitMap c item) sel root (false, m)
  refine ⟨k, fun n hn => ⟨((allPlaces c fs maxlevel (sel.map (·.1)) root).filterMap (fun p => subItem (some p) [] item)).length != 0,
    (((allPlaces c fs maxlevel (sel.map (·.1)) root).filterMap (fun p => subItem (some p) [] item)).flatMap fieldsOf).foldl
      (addField c) m, ?_, ?_, ?_⟩⟩
  · unfold readMap
    rw [hk n hn, visits_map]
    simp
  · generalize allPlaces c fs maxlevel (sel.map (·.1)) root = l
    induction l with
    | nil => simp
    | cons p l ih =>
      rw [List.filterMap_cons]
      cases h : subItem (some p) [] item with
      | none =>
        dsimp only
        rw [ih]
        simp [h]
      | some i => simp [h]
  · intro a
    exact addField_mem c _ m a

/-- Manager, application and worker look for their nodes with their names. -/
theorem C71_manager (c : Cfg) (host name : Text) (n : Node) (hh : host ≠ []) (hn : name ≠ []) (hne : host ≠ name) :
    Belongs c true (ofManager host name) n ↔
      n.name = "Context".toList ∧ attr c n "host".toList = host ∧ attr c n "name".toList = name := by
  unfold Belongs ofManager
  rw [if_neg hh, if_neg hne]
  constructor
  · rintro ⟨nm, ch, h0, h1, h2⟩
    cases h0
    have a1 := h2 "host".toList host (by simp)
    have a2 := h2 "name".toList name (by simp)
    refine ⟨h1, ?_, ?_⟩
    · rcases a1 with h | h
      · exact h.2
      · exact absurd h.1 (by decide)
    · rcases a2 with h | h
      · exact h.2
      · exact absurd h.1 (by decide)
  · rintro ⟨h1, h2, h3⟩
    refine ⟨_, _, rfl, h1, ?_⟩
    intro a v hav
    simp only [List.cons_append, List.nil_append, List.mem_cons, List.not_mem_nil, or_false, Prod.mk.injEq] at hav
    rcases hav with ⟨rfl, rfl⟩ | ⟨rfl, rfl⟩
    · exact Or.inl ⟨by rw [h2]; exact hh, h2⟩
    · exact Or.inl ⟨by rw [h3]; exact hn, h3⟩

/-- A worker in the selected context. -/
theorem C71_worker (c : Cfg) (tag name : Text) (n : Node) (hn : name ≠ []) :
    Belongs c true (ofWorker true tag name) n ↔ n.name = tag ∧ attr c n "name".toList = name := by
  unfold Belongs ofWorker
  constructor
  · rintro ⟨nm, ch, h0, h1, h2⟩
    cases h0
    rcases h2 "name".toList name (by simp) with h | h
    · exact ⟨h1, h.2⟩
    · exact absurd h.1 (by decide)
  · rintro ⟨h1, h2⟩
    refine ⟨tag, [("name".toList, name)], rfl, h1, ?_⟩
    intro a v hav
    simp only [List.mem_cons, List.not_mem_nil, or_false, Prod.mk.injEq] at hav
    obtain ⟨rfl, rfl⟩ := hav
    exact Or.inl ⟨by rw [h2]; exact hn, h2⟩

/-- A worker in other contexts. -/
theorem C71_worker_mask (c : Cfg) (tag name : Text) (n : Node) :
    Belongs c false (ofWorker true tag name) n ↔ n.name = tag ∧
      (attr c n "name".toList = [] ∨ attr c n "name".toList = name ∨ c.fnm (attr c n "name".toList) name = true) := by
  unfold Belongs ofWorker
  constructor
  · rintro ⟨nm, ch, h0, h1, h2⟩
    cases h0
    rcases h2 "name".toList name (by simp) with h | ⟨_, h | h⟩
    · exact ⟨h1, Or.inr (Or.inl h.2)⟩
    · exact ⟨h1, Or.inl h⟩
    · exact ⟨h1, Or.inr (Or.inr h)⟩
  · rintro ⟨h1, h2⟩
    refine ⟨tag, [("name".toList, name)], rfl, h1, ?_⟩
    intro a v hav
    simp only [List.mem_cons, List.not_mem_nil, or_false, Prod.mk.injEq] at hav
    obtain ⟨rfl, rfl⟩ := hav
    by_cases h0 : attr c n "name".toList = []
    · exact Or.inr ⟨rfl, Or.inl h0⟩
    · rcases h2 with h | h | h
      · exact absurd h h0
      · exact Or.inl ⟨h0, h⟩
      · exact Or.inr ⟨rfl, Or.inr h⟩

/-- An application in the selected context; the class is compared only if it is not the default one. -/
theorem C71_application (c : Cfg) (cls : Text) (n : Node) (hn : cls ≠ []) :
    Belongs c true (ofApplication cls) n ↔
      n.name = "Application".toList ∧ (cls = "Application".toList ∨ attr c n "class".toList = cls) := by
  unfold Belongs ofApplication
  by_cases hc : cls = "Application".toList
  · rw [if_pos hc]
    constructor
    · rintro ⟨nm, ch, h0, h1, _⟩
      cases h0
      exact ⟨h1, Or.inl hc⟩
    · rintro ⟨h1, _⟩
      exact ⟨_, [], rfl, h1, fun a v h => absurd h (List.not_mem_nil)⟩
  · rw [if_neg hc]
    constructor
    · rintro ⟨nm, ch, h0, h1, h2⟩
      cases h0
      rcases h2 "class".toList cls (by simp) with h | h
      · exact ⟨h1, Or.inr h.2⟩
      · exact absurd h.1 (by decide)
    · rintro ⟨h1, h | h2⟩
      · exact absurd h hc
      · refine ⟨_, _, rfl, h1, ?_⟩
        intro a v hav
        simp only [List.mem_cons, List.not_mem_nil, or_false, Prod.mk.injEq] at hav
        obtain ⟨rfl, rfl⟩ := hav
        exact Or.inl ⟨by rw [h2]; exact hn, h2⟩

/-- A record reads its fields from attributes and from childs `dabc:field`. -/
theorem C71_fields (i : Node) (a v : Text) : ((fieldsOf i).find? (·.1 = a)).map (·.2) = some v ↔ FieldIn i a v :=
  fieldsOf_iff i a v

/-- A worker without parent reads nothing at all, although it is treated as child of the manager. -/
theorem C71_orphan_counterexample (c : Cfg) (fs : Nat → Finder) (maxlevel : Nat) (item tag name : Text)
    (sel : Option (Node × List (Node × List Node))) (root : Node) (h : fs 0 = ofWorker false tag name) :
    ∃ k, ∀ n, k ≤ n → readField c fs maxlevel item n sel root = some none := by
  have hb : ∀ strict n, ¬ Belongs c strict (fs 0) n := by
    rintro strict n ⟨nm, ch, h0, _⟩
    rw [h] at h0
    cases h0
  have hp : ∀ strict l n, places c strict fs (l + 1) n = [] := by
    intro strict l
    induction l with
    | zero =>
      intro n
      rw [places, List.flatMap_eq_nil_iff]
      intro k hk
      rw [List.mem_filter] at hk
      exact absurd (by simpa using hk.2) (hb strict k)
    | succ l ih =>
      intro n
      rw [places, List.flatMap_eq_nil_iff]
      intro k _
      exact ih k
  obtain ⟨k, hk⟩ := C71_field c fs maxlevel item sel root
  refine ⟨k, fun n hn => ?_⟩
  rw [hk n hn]
  have : allPlaces c fs maxlevel (sel.map (·.1)) root = [] := by
    unfold allPlaces selPlaces
    rw [hp]
    cases sel.map (·.1) with
    | none => rfl
    | some s =>
      cases maxlevel with
      | zero => rfl
      | succ l => simp [hp]
  rw [this]
  rfl

/-! ## Examples and counterexamples -/

/-- `*` fits everything. -/
def sampleCfg : Cfg := { res := id, fnm := fun p _ => p == ['*'] }

def node (name : String) (attrs : List (String × String)) (kids : List Node) : Node :=
  .mk name.toList (attrs.map fun a => (a.1.toList, a.2.toList)) kids

/-- A module `M` in the context of host `pc`. -/
def sampleFs : Nat → Finder
  | 0 => ofWorker true "Module".toList "M".toList
  | _ => ofManager "pc".toList "pc".toList

def sampleSel : Node := node "Context" [("host", "pc")] [node "Module" [("name", "X")] [node "size" [("value", "1")] []],
  node "Module" [("name", "M")] [node "size" [("value", "2")] []]]

def sampleMask : Node := node "Context" [("host", "*")] [node "Module" [("name", "*"), ("kind", "a")] [node "size" [("value", "3")] [],
  node "list" [] [node "item" [("value", "x")] [], node "item" [("value", "y")] []]]]

def sampleRoot : Node := node "dabc" [] [sampleMask, sampleSel]

example : readField sampleCfg sampleFs 1 "size".toList 50 (some (sampleSel, [])) sampleRoot = some (some (.str ['2'])) ∧
    readField sampleCfg sampleFs 1 "kind".toList 50 (some (sampleSel, [])) sampleRoot = some (some (.str ['a'])) ∧
    readField sampleCfg sampleFs 1 "list".toList 50 (some (sampleSel, [])) sampleRoot = some (some (.vect [['x'], ['y']])) ∧
    readField sampleCfg sampleFs 1 "none".toList 50 (some (sampleSel, [])) sampleRoot = some none ∧
    readMap sampleCfg sampleFs 1 "size".toList 50 (some (sampleSel, [])) sampleRoot [] = some (true, [("value".toList, ['2'])]) := by
  decide

example : ∃ a x b v, places sampleCfg true sampleFs 1 sampleSel = a ++ x :: b ∧ (∀ z ∈ a, fieldVal sampleCfg "size".toList z = none) ∧
    fieldVal sampleCfg "size".toList x = some v := by
  refine ⟨[], node "Module" [("name", "M")] [node "size" [("value", "2")] []], [], .str ['2'], ?_, by simp, by decide⟩
  rw [← below_places]
  rfl

example : ofManager "pc".toList "ctx".toList ≠ .never ∧ sampleFs 0 ≠ .never ∧ ofWorker false [] [] = .never := by decide

/-- Outside of the selected context the order of the file decides, not how well a node fits: here the values for
`*` stand before the values for `M`. -/
theorem C71_order_counterexample :
    readField sampleCfg sampleFs 1 "size".toList 50 none (node "dabc" [] [node "Context" [] [
      node "Module" [("name", "*")] [node "size" [("value", "1")] []], node "Module" [("name", "M")] [node "size" [("value", "2")] []]]]) =
      some (some (.str ['1'])) := by decide

/-- A comment whose text is the name of the field hides its value. -/
theorem C71_comment_counterexample :
    readField sampleCfg sampleFs 1 "size".toList 50 none (node "dabc" [] [node "Context" [] [
      node "Module" [("name", "M")] [node "size" [] [], node "size" [("value", "2")] []]]]) = some none := by decide

end Verif.ConfigIO
