import Verif.ConfigFindLemmas

/-!
# C70: search in the configuration file
-/

namespace Verif.ConfigFind

open Spec

/-- The first call gives the first node: of the context itself, otherwise of the first mask which has one. -/
theorem C70_first (fnm : Text → Text → Bool) (root node : Node) (subs : List Text) :
    findMatch fnm root none node subs = (all fnm root node subs).head? := find_first fnm root node subs

/-- Calls one after the other give every node of a context and its masks once, in their order, and then nothing;
the context needs an attribute and no wildcards. -/
theorem C70_calls_partial (fnm : Text → Text → Bool) (root node : Node) (subs : List Text) (hn : (ids root).Nodup)
    (hm : node ∈ root.kids) (hs : Named node) (n : Nat) :
    calls fnm root node subs n none = (all fnm root node subs).take n :=
  calls_all fnm root node subs (all_nodup fnm root node subs hn hm (named_not_mask fnm node hs)) n

/-- The same for the nodes which are to be created. -/
theorem C70_creation_partial (fnm : Text → Text → Bool) (root node : Node) (name : Text) (check : Bool) (hn : (ids root).Nodup)
    (hm : node ∈ root.kids) (hs : Named node) (pre post : List Node) (x : Node)
    (h : all fnm root node [name] = pre ++ x :: post) (n : Nat) (hl : post.length < n) :
    ∃ r, nextCreation fnm root node name check n (some x.id) = some r ∧
      ((r = none ∧ ∀ y ∈ post, ¬ Creates check y) ∨
        ∃ y a b, r = some y ∧ post = a ++ y :: b ∧ Creates check y ∧ ∀ z ∈ a, ¬ Creates check z) := by
  have hd := all_nodup fnm root node [name] hn hm (named_not_mask fnm node hs)
  refine ⟨_, creation_mono fnm root node name check (show post.length + 1 ≤ n from hl) _ _
    (creation_from fnm root node name check hd pre post x h), ?_⟩
  classical
  cases hf : post.find? (fun r => decide (Creates check r)) with
  | none =>
    refine Or.inl ⟨rfl, ?_⟩
    intro y hy
    have := List.find?_eq_none.mp hf y hy
    simpa using this
  | some y =>
    obtain ⟨h1, a, b, h2, h3⟩ := List.find?_eq_some_iff_append.mp hf
    refine Or.inr ⟨y, a, b, rfl, h2, by simpa using h1, ?_⟩
    intro z hz
    simpa using h3 z hz

/-- The first of them. -/
theorem C70_creation_first (fnm : Text → Text → Bool) (root node : Node) (name : Text) (check : Bool) (y : Node) (post : List Node)
    (h : all fnm root node [name] = y :: post) (hy : Creates check y) (n : Nat) :
    nextCreation fnm root node name check (n + 1) none = some (some y) := by
  rw [creation_step, find_first, h]
  dsimp only [List.head?_cons]
  rw [if_pos hy]

/-- All libraries are loaded, up to one without a name. -/
theorem C70_libs_partial (fnm : Text → Text → Bool) (root node : Node) (hn : (ids root).Nodup) (hm : node ∈ root.kids)
    (hs : Named node) (n : Nat) (hl : (all fnm root node ["Run".toList, "lib".toList]).length < n) :
    loadLibs fnm root node n none =
      (((all fnm root node ["Run".toList, "lib".toList]).map Node.value).takeWhile (· ≠ []), true) :=
  libs_all fnm root node (all_nodup fnm root node _ hn hm (named_not_mask fnm node hs)) n hl

/-- A value of the context itself is taken, whatever the masks say. -/
theorem C70_own (fnm : Text → Text → Bool) (root node : Node) (dflt : Text) (subs : List Text) (x : Node) (xs : List Node)
    (h : items subs node = x :: xs) (hv : x.value ≠ []) : find1 fnm root dflt subs node = x.value := by
  cases subs with
  | nil => cases h
  | cons s subs =>
    rw [find1, find_first, all, h]
    simp [hv]

/-- Otherwise the value of the first mask which has one is taken. -/
theorem C70_mask (fnm : Text → Text → Bool) (root node k : Node) (dflt : Text) (subs : List Text) (a b : List Node) (x : Node)
    (xs : List Node) (h : items subs node = []) (hk : root.kids = a ++ k :: b) (ha : ∀ z ∈ a, Mask fnm node z → items subs z = [])
    (hm : Mask fnm node k) (hx : items subs k = x :: xs) (hv : x.value ≠ []) : find1 fnm root dflt subs node = x.value := by
  classical
  cases subs with
  | nil => cases hx
  | cons s subs =>
    have hfa : (a.filter (fun k => @decide (Mask fnm node k) (Classical.propDecidable _))).flatMap (items (s :: subs)) = [] := by
      rw [List.flatMap_eq_nil_iff]
      intro z hz
      rw [List.mem_filter] at hz
      exact ha z hz.1 (by simpa using hz.2)
    have : all fnm root node (s :: subs) = x :: (xs ++ (b.filter (fun k => @decide (Mask fnm node k) (Classical.propDecidable _))).flatMap (items (s :: subs))) := by
      rw [all, h, hk, List.filter_append, List.flatMap_append, hfa, List.filter_cons_of_pos (by simp [hm]), List.flatMap_cons, hx]
      simp
    rw [find1, find_first, this]
    simp [hv]

/-- Without any such node the search goes on from the first child with the first name, which has masks of its
own. -/
theorem C70_deeper (fnm : Text → Text → Bool) (root node c : Node) (dflt s s' : Text) (subs : List Text) (a b : List Node)
    (h : all fnm root node (s :: s' :: subs) = []) (hk : node.kids = a ++ c :: b) (hc : c.name = s)
    (ha : ∀ z ∈ a, z.name ≠ s) : find1 fnm root dflt (s :: s' :: subs) node = find1 fnm root dflt (s' :: subs) c := by
  have hf : findChild node s = some c := by
    unfold findChild
    rw [List.find?_eq_some_iff_append]
    refine ⟨by simp [hc], a, b, hk, ?_⟩
    intro z hz
    simp [ha z hz]
  rw [find1, find_first, h]
  dsimp only [List.head?_nil]
  rw [if_neg (by simp), hf]

/-- Without any value the default is taken. -/
theorem C70_default (fnm : Text → Text → Bool) (root node : Node) (dflt s : Text) (subs : List Text)
    (h : all fnm root node (s :: subs) = []) (hk : subs = [] ∨ ∀ z ∈ node.kids, z.name ≠ s) :
    find1 fnm root dflt (s :: subs) node = dflt := by
  rw [find1, find_first, h]
  dsimp only [List.head?_nil]
  rcases hk with rfl | hk
  · rw [if_pos rfl]
  · split
    · rfl
    · have : findChild node s = none := by
        unfold findChild
        rw [List.find?_eq_none]
        intro z hz
        simp [hk z hz]
      rw [this]

/-- Contexts are numbered in the order of the file. -/
theorem C70_context (root : Node) (id : Nat) : findContext root id = (contexts root)[id]? := by
  unfold findContext
  rw [contextLoop_eq id 0 root.kids (Nat.zero_le _), contexts_eq]
  rfl

/-- `NumNodes` counts them. -/
theorem C70_numNodes (root : Node) : numNodes root = (contexts root).length := by
  rw [contexts_eq]
  rfl

/-! ## Examples and counterexamples -/

/-- Every pattern fits. -/
def anyFit (_ _ : Text) : Bool := true

def lib (i : Nat) (v : String) : Node := .mk i "lib".toList [] v.toList []

def sampleContext : Node :=
  .mk 1 "Context".toList [("host".toList, "pc".toList)] [] [.mk 2 "Run".toList [] [] [lib 3 "a", lib 4 "b"]]

def sampleMask : Node :=
  .mk 5 "Context".toList [("host".toList, "*".toList)] []
    [.mk 6 "Run".toList [] [] [lib 7 "c", .mk 8 "logfile".toList [] "log".toList []]]

def sampleRoot : Node := .mk 0 "dabc".toList [] [] [sampleContext, sampleMask]

example : (ids sampleRoot).Nodup ∧ sampleContext ∈ sampleRoot.kids ∧ Named sampleContext ∧ Context sampleContext ∧
    ¬ Context sampleMask ∧ Mask anyFit sampleContext sampleMask ∧
    (calls anyFit sampleRoot sampleContext ["Run".toList, "lib".toList] 10 none).map Node.id = [3, 4, 7] ∧
    loadLibs anyFit sampleRoot sampleContext 10 none = (["a".toList, "b".toList, "c".toList], true) ∧
    find1 anyFit sampleRoot [] ["Run".toList, "logfile".toList] sampleContext = "log".toList ∧
    find1 anyFit sampleRoot [] ["Run".toList, "lib".toList] sampleContext = "a".toList ∧
    find1 anyFit sampleRoot "d".toList ["Run".toList, "other".toList] sampleContext = "d".toList := by
  refine ⟨by decide, ?_, ⟨by decide, ?_⟩, (isContext_iff _).mp (by decide), fun h => absurd ((isContext_iff _).mpr h) (by decide),
    (maskMatch_iff _ _ _).mp (by decide), by decide, by decide, by decide, by decide, by decide⟩
  · simp [sampleRoot, Node.kids]
  · intro a v h
    simp [sampleContext, Node.attrs] at h
    rw [h.2]
    decide

/-- Modules of a context and of a mask, one of them with `auto="false"`. -/
def sampleModules : Node :=
  .mk 0 "dabc".toList [] [] [.mk 1 "Context".toList [("host".toList, "pc".toList)] []
    [.mk 2 "Module".toList [("auto".toList, "false".toList)] [] [], .mk 3 "Module".toList [("name".toList, "M*".toList)] [] [],
      .mk 4 "Module".toList [("name".toList, "M".toList)] [] []]]

example : (nextCreation anyFit sampleModules (sampleModules.kids.headD sampleModules) "Module".toList true 5 none).map (·.map Node.id) =
    some (some 4) ∧
    (nextCreation anyFit sampleModules (sampleModules.kids.headD sampleModules) "Module".toList true 5 (some 4)).map (·.map Node.id) =
    some none ∧
    (nextCreation anyFit sampleModules (sampleModules.kids.headD sampleModules) "Module".toList false 5 none).map (·.map Node.id) =
    some (some 3) := by decide

/-- A context without attributes is its own mask: calls one after the other never end, and `LoadLibs` does not
return. -/
theorem C70_calls_counterexample (n : Nat) :
    ∃ root node, (ids root).Nodup ∧ Context node ∧ root.kids = [node] ∧ node.attrs = [] ∧
      (calls anyFit root node ["Run".toList, "lib".toList] n none).length = n ∧
      (loadLibs anyFit root node n none).2 = false := by
  let node : Node := .mk 1 "Context".toList [] [] [.mk 2 "Run".toList [] [] [lib 3 "a"]]
  let root : Node := .mk 0 "dabc".toList [] [] [node]
  refine ⟨root, node, by decide, (isContext_iff _).mp (by decide), rfl, rfl, ?_, ?_⟩
  · have h : ∀ last, last = none ∨ last = some 3 →
        (calls anyFit root node ["Run".toList, "lib".toList] n last).length = n := by
      induction n with
      | zero => intro _ _; rfl
      | succ n ih =>
        intro last hl
        have : findMatch anyFit root last node ["Run".toList, "lib".toList] = some (lib 3 "a") := by
          rcases hl with rfl | rfl <;> rfl
        rw [calls, this]
        simp only [List.length_cons]
        rw [show (lib 3 "a").id = 3 from rfl, ih _ (Or.inr rfl)]
    exact h none (Or.inl rfl)
  · have h : ∀ last, last = none ∨ last = some 3 → (loadLibs anyFit root node n last).2 = false := by
      induction n with
      | zero => intro _ _; rfl
      | succ n ih =>
        intro last hl
        have : findMatch anyFit root last node ["Run".toList, "lib".toList] = some (lib 3 "a") := by
          rcases hl with rfl | rfl <;> rfl
        rw [loadLibs, this]
        dsimp only
        rw [if_neg (by decide)]
        exact ih _ (Or.inr rfl)
    exact h none (Or.inl rfl)

/-- A comment whose text is the name hides the value: here `<!--logfile-->` before `<logfile value="log"/>`. -/
theorem C70_comment_counterexample :
    find1 anyFit sampleRoot [] ["Run".toList, "logfile".toList]
      (.mk 1 "Context".toList [] [] [.mk 2 "Run".toList [] [] [.mk 3 "logfile".toList [] [] [], .mk 4 "logfile".toList [] "log".toList []]]) = [] := by
  decide

/-- An empty value hides the values of the masks. -/
theorem C70_empty_counterexample :
    find1 anyFit sampleRoot "dflt".toList ["Run".toList, "logfile".toList]
      (.mk 1 "Context".toList [("host".toList, "pc".toList)] [] [.mk 2 "Run".toList [] [] [.mk 3 "logfile".toList [] [] []]]) = "dflt".toList ∧
    find1 anyFit sampleRoot "dflt".toList ["Run".toList, "logfile".toList]
      (.mk 1 "Context".toList [("host".toList, "pc".toList)] [] [.mk 2 "Run".toList [] [] []]) = "log".toList := by
  decide

end Verif.ConfigFind
