import Verif.Spec.ConfigFind

/-!
# Lemmas about the search in the configuration file
-/

namespace Verif.ConfigFind

open Spec

/-! ## Scans -/

theorem scan_append (f : Option Nat → Node → Option Nat × Option Node) (last : Option Nat) (a b : List Node) :
    scan f last (a ++ b) = match scan f last a with
      | (l, some r) => (l, some r)
      | (l, none) => scan f l b := by
  induction a generalizing last with
  | nil => rfl
  | cons k a ih =>
    rw [List.cons_append, scan, scan]
    rcases f last k with ⟨l, _ | r⟩
    · exact ih l
    · rfl

theorem scan_flat (f : Option Nat → Node → Option Nat × Option Node) (g : Node → List Node)
    (h : ∀ last k, f last k = scan test last (g k)) (last : Option Nat) (ks : List Node) :
    scan f last ks = scan test last (ks.flatMap g) := by
  induction ks generalizing last with
  | nil => rfl
  | cons k ks ih =>
    rw [scan, List.flatMap_cons, scan_append, ← h]
    rcases f last k with ⟨l, _ | r⟩
    · exact ih l
    · rfl

theorem scan_filter (f : Option Nat → Node → Option Nat × Option Node) (p : Node → Bool) (last : Option Nat) (ks : List Node) :
    scan (fun last k => if p k = true then f last k else (last, none)) last ks = scan f last (ks.filter p) := by
  induction ks generalizing last with
  | nil => rfl
  | cons k ks ih =>
    rw [scan]
    cases hp : p k with
    | true =>
      rw [List.filter_cons_of_pos hp, scan]
      simp only [if_true]
      rcases f last k with ⟨l, _ | r⟩
      · exact ih l
      · rfl
    | false =>
      rw [List.filter_cons_of_neg (by simp [hp])]
      exact ih last

theorem scan_none (l : List Node) : scan test none l = (none, l.head?) := by
  cases l <;> simp [scan, test]

theorem scan_some (pre post : List Node) (x : Node) (h : x.id ∉ pre.map Node.id) :
    scan test (some x.id) (pre ++ x :: post) = (none, post.head?) := by
  induction pre with
  | nil => simp [scan, test, scan_none]
  | cons y pre ih =>
    rw [List.cons_append, scan]
    have : test (some x.id) y = (some x.id, none) := by
      unfold test
      dsimp only
      rw [if_neg (fun hc => h (by simp [hc]))]
    rw [this]
    exact ih (fun hm => h (by simp at hm ⊢; exact Or.inr hm))

theorem items_cons2 (s s' : Text) (subs : List Text) (node : Node) :
    items (s :: s' :: subs) node = (node.kids.filter (·.name = s)).flatMap (items (s' :: subs)) := rfl

theorem itemMatch_eq (subs : List Text) (last : Option Nat) (node : Node) :
    itemMatch subs last node = scan test last (items subs node) := by
  induction subs generalizing last node with
  | nil => rfl
  | cons s subs ih =>
    cases subs with
    | nil =>
      have := scan_filter test (fun k => decide (k.name = s)) last node.kids
      simp only [decide_eq_true_eq] at this
      rw [itemMatch, this]
      rfl
    | cons s' subs =>
      have := scan_filter (fun last k => itemMatch (s' :: subs) last k) (fun k => decide (k.name = s)) last node.kids
      simp only [decide_eq_true_eq] at this
      rw [itemMatch, this, items_cons2]
      exact scan_flat _ _ ih last _

theorem isWildcard_some (t : Text) : isWildcard (some t) = true ↔ '*' ∈ t ∨ '?' ∈ t := by
  simp [isWildcard]

theorem isWildcard_iff (n : Node) (a : Text) : isWildcard (getAttr n a) = true ↔ Wild n a := by
  unfold Wild
  cases h : getAttr n a with
  | none => simp [isWildcard]
  | some t => simp [isWildcard]

theorem maskMatch_iff (fnm : Text → Text → Bool) (node mask : Node) : maskMatch fnm node mask = true ↔ Mask fnm node mask := by
  unfold maskMatch Mask
  by_cases hn : node.name = mask.name
  · rw [if_neg (by simp [hn])]
    by_cases hd : node.attrs.any (fun a => differs fnm node mask a.1) = true
    · rw [if_pos hd]
      rw [List.any_eq_true] at hd
      obtain ⟨⟨a, v⟩, ha, hd⟩ := hd
      unfold differs at hd
      dsimp only at hd
      constructor
      · intro h; cases h
      · rintro ⟨_, h, _⟩
        cases h1 : getAttr node a with
        | none => rw [h1] at hd; cases hd
        | some v' =>
          cases h2 : getAttr mask a with
          | none => rw [h1, h2] at hd; cases hd
          | some m =>
            rw [h1, h2] at hd
            have hm : (a, v') ∈ node.attrs := by
              unfold getAttr at h1
              rw [Option.map_eq_some_iff] at h1
              obtain ⟨⟨a', v''⟩, h3, h4⟩ := h1
              have h5 := List.mem_of_find?_eq_some h3
              have h6 := List.find?_some h3
              simp at h6 h4
              subst h4 h6
              exact h5
            have := h a v' m hm h1 h2
            simp [this] at hd
    · rw [if_neg hd]
      have hall : ∀ a v m, (a, v) ∈ node.attrs → getAttr node a = some v → getAttr mask a = some m → fnm m v = true := by
        intro a v m ha h1 h2
        rw [List.any_eq_true] at hd
        cases hf : fnm m v with
        | true => rfl
        | false =>
          refine absurd ⟨(a, v), ha, ?_⟩ hd
          simp [differs, h1, h2, hf]
      have hwild : node.attrs.any (fun a => isWildcard (getAttr mask a.1)) = true ↔
          ∃ a v m, (a, v) ∈ node.attrs ∧ getAttr mask a = some m ∧ ('*' ∈ m ∨ '?' ∈ m) := by
        rw [List.any_eq_true]
        constructor
        · rintro ⟨⟨a, v⟩, ha, hw⟩
          obtain ⟨m, hm, hw⟩ := (isWildcard_iff mask a).mp hw
          exact ⟨a, v, m, ha, hm, hw⟩
        · rintro ⟨a, v, m, ha, hm, hw⟩
          exact ⟨(a, v), ha, (isWildcard_iff mask a).mpr ⟨m, hm, hw⟩⟩
      by_cases he : node.attrs = []
      · simp [he, hn]
      · have hi : node.attrs.isEmpty = false := by simp [he]
        rw [hi]
        cases hw : node.attrs.any (fun a => isWildcard (getAttr mask a.1)) with
        | true =>
          simp only [Bool.not_false, Bool.not_true, Bool.and_false, Bool.false_eq_true, if_false, true_iff]
          exact ⟨hn, hall, fun _ => hwild.mp hw⟩
        | false =>
          simp only [Bool.not_false, Bool.and_true, if_true, Bool.false_eq_true, false_iff]
          rintro ⟨_, _, h⟩
          rw [hwild.mpr (h he)] at hw
          cases hw
  · rw [if_pos (by simp [hn])]
    simp [hn]

theorem findMatch_eq (fnm : Text → Text → Bool) (root : Node) (last : Option Nat) (node : Node) (subs : List Text) :
    findMatch fnm root last node subs = (scan test last (all fnm root node subs)).2 := by
  have hm : (fun k => maskMatch fnm node k) = (fun k => @decide (Mask fnm node k) (Classical.propDecidable _)) := by
    funext k
    rw [Bool.eq_iff_iff, maskMatch_iff]
    simp
  unfold findMatch all
  rw [scan_append, itemMatch_eq]
  rcases scan test last (items subs node) with ⟨l, _ | r⟩
  · dsimp only
    rw [scan_filter (fun last k => itemMatch subs last k) (fun k => maskMatch fnm node k) l root.kids, hm,
      scan_flat _ _ (itemMatch_eq subs) l]
  · rfl

/-! ## Distinct addresses -/

theorem items_sub (subs : List Text) (node : Node) : ((items subs node).map Node.id).Sublist (idsList node.kids) := by
  have hflat : ∀ (g : Node → List Node) (ks : List Node), (∀ k, ((g k).map Node.id).Sublist (idsList k.kids)) →
      ∀ p : Node → Bool, (((ks.filter p).flatMap g).map Node.id).Sublist (idsList ks) := by
    intro g ks hg p
    induction ks with
    | nil => simp
    | cons k ks ih =>
      have hk : ((g k).map Node.id).Sublist (ids k) := by
        refine (hg k).trans ?_
        cases k
        exact List.Sublist.cons _ (List.Sublist.refl _)
      cases hp : p k with
      | true =>
        rw [List.filter_cons_of_pos hp, List.flatMap_cons, List.map_append, idsList]
        exact hk.append ih
      | false =>
        rw [List.filter_cons_of_neg (by simp [hp]), idsList]
        exact ih.trans (List.sublist_append_right _ _)
  induction subs generalizing node with
  | nil => simp [items]
  | cons s subs ih =>
    cases subs with
    | nil =>
      rw [items]
      generalize node.kids = ks
      induction ks with
      | nil => simp
      | cons k ks ih' =>
        have h1 : [k.id].Sublist (ids k) := by
          cases k
          simp [ids, Node.id]
        rw [idsList]
        by_cases hp : k.name = s
        · rw [List.filter_cons_of_pos (by simp [hp]), List.map_cons]
          exact h1.append ih'
        · rw [List.filter_cons_of_neg (by simp [hp])]
          exact ih'.trans (List.sublist_append_right _ _)
    | cons s' subs =>
      rw [items_cons2]
      exact hflat _ _ ih _

theorem flat_sub (subs : List Text) (ks : List Node) : ((ks.flatMap (items subs)).map Node.id).Sublist (idsList ks) := by
  induction ks with
  | nil => simp [idsList]
  | cons k ks ih =>
    rw [List.flatMap_cons, List.map_append, idsList]
    refine List.Sublist.append ((items_sub subs k).trans ?_) ih
    cases k
    exact List.Sublist.cons _ (List.Sublist.refl _)

theorem idsList_append (a b : List Node) : idsList (a ++ b) = idsList a ++ idsList b := by
  induction a with
  | nil => rfl
  | cons k a ih => rw [List.cons_append, idsList, idsList, ih, List.append_assoc]

theorem idsList_filter (p : Node → Bool) (ks : List Node) : (idsList (ks.filter p)).Sublist (idsList ks) := by
  induction ks with
  | nil => exact List.Sublist.refl _
  | cons k ks ih =>
    cases hp : p k with
    | true =>
      rw [List.filter_cons_of_pos hp, idsList, idsList]
      exact List.Sublist.append (List.Sublist.refl _) ih
    | false =>
      rw [List.filter_cons_of_neg (by simp [hp]), idsList]
      exact ih.trans (List.sublist_append_right _ _)

theorem all_nodup (fnm : Text → Text → Bool) (root node : Node) (subs : List Text) (hn : (ids root).Nodup)
    (hm : node ∈ root.kids) (hs : ¬ Mask fnm node node) : ((all fnm root node subs).map Node.id).Nodup := by
  have hk : (idsList root.kids).Nodup := by
    cases root
    rw [ids] at hn
    exact (List.nodup_cons.mp hn).2
  obtain ⟨a, b, hab⟩ := List.append_of_mem hm
  unfold all
  rw [hab] at hk ⊢
  generalize hp : (fun k => @decide (Mask fnm node k) (Classical.propDecidable _)) = p
  have hpn : p node = false := by rw [← hp]; simp [hs]
  rw [List.filter_append, List.filter_cons_of_neg (by simp [hpn]), List.flatMap_append]
  have h1 : ((a.filter p ++ node :: b.filter p).flatMap (items subs)).map Node.id |>.Nodup := by
    refine (flat_sub subs _).nodup ?_
    refine List.Sublist.nodup ?_ hk
    rw [idsList_append, idsList_append, idsList, idsList]
    exact (idsList_filter p a).append ((List.Sublist.refl _).append (idsList_filter p b))
  refine List.Perm.nodup ?_ h1
  refine List.Perm.map _ ?_
  rw [List.flatMap_append, List.flatMap_cons, ← List.append_assoc, ← List.append_assoc]
  exact List.Perm.append_right _ List.perm_append_comm

theorem named_not_mask (fnm : Text → Text → Bool) (node : Node) (h : Named node) : ¬ Mask fnm node node := by
  rintro ⟨_, _, hw⟩
  obtain ⟨a, v, m, ha, hm, hc⟩ := hw h.1
  unfold getAttr at hm
  rw [Option.map_eq_some_iff] at hm
  obtain ⟨⟨a', v'⟩, h3, h4⟩ := hm
  have h5 := List.mem_of_find?_eq_some h3
  simp at h4
  subst h4
  have := h.2 a' v' h5
  rcases hc with hc | hc
  · exact this.1 hc
  · exact this.2 hc

/-! ## Calls one after the other -/

theorem find_first (fnm : Text → Text → Bool) (root node : Node) (subs : List Text) :
    findMatch fnm root none node subs = (all fnm root node subs).head? := by
  rw [findMatch_eq, scan_none]

theorem find_next (fnm : Text → Text → Bool) (root node : Node) (subs : List Text) (pre post : List Node) (x : Node)
    (h : all fnm root node subs = pre ++ x :: post) (hx : x.id ∉ pre.map Node.id) :
    findMatch fnm root (some x.id) node subs = post.head? := by
  rw [findMatch_eq, h, scan_some _ _ _ hx]

theorem not_before {l : List Node} (hn : (l.map Node.id).Nodup) {pre post : List Node} {x : Node} (h : l = pre ++ x :: post) :
    x.id ∉ pre.map Node.id := by
  rw [h, List.map_append, List.map_cons, List.nodup_append] at hn
  intro hm
  exact hn.2.2 _ hm _ (by simp) rfl

theorem calls_from (fnm : Text → Text → Bool) (root node : Node) (subs : List Text)
    (hn : ((all fnm root node subs).map Node.id).Nodup) (n : Nat) (pre post : List Node) (x : Node)
    (h : all fnm root node subs = pre ++ x :: post) : calls fnm root node subs n (some x.id) = post.take n := by
  induction n generalizing pre post x with
  | zero => simp [calls]
  | succ n ih =>
    rw [calls, find_next fnm root node subs pre post x h (not_before hn h)]
    cases post with
    | nil => rfl
    | cons y post =>
      simp only [List.head?_cons, List.take_succ_cons]
      rw [ih (pre ++ [x]) post y (by simp [h])]

theorem calls_all (fnm : Text → Text → Bool) (root node : Node) (subs : List Text)
    (hn : ((all fnm root node subs).map Node.id).Nodup) (n : Nat) :
    calls fnm root node subs n none = (all fnm root node subs).take n := by
  cases n with
  | zero => rfl
  | succ n =>
    rw [calls, find_first]
    cases h : all fnm root node subs with
    | nil => rfl
    | cons y post =>
      simp only [List.head?_cons, List.take_succ_cons]
      rw [calls_from fnm root node subs hn n [] post y h]

theorem isContext_iff (n : Node) : isContext n = true ↔ Context n := by
  unfold isContext Context
  have h1 := isWildcard_iff n "host".toList
  have h2 := isWildcard_iff n "name".toList
  rw [← h1, ← h2]
  simp [and_assoc]

theorem contexts_eq (root : Node) : contexts root = root.kids.filter isContext := by
  unfold contexts
  congr 1
  funext k
  rw [Bool.eq_iff_iff, isContext_iff]
  simp

theorem contextLoop_eq (id cnt : Nat) (ks : List Node) (h : cnt ≤ id) :
    contextLoop id cnt ks = (ks.filter isContext)[id - cnt]? := by
  induction ks generalizing cnt with
  | nil => simp [contextLoop]
  | cons k ks ih =>
    rw [contextLoop]
    by_cases hk : isContext k = true
    · rw [if_pos hk, List.filter_cons_of_pos hk]
      by_cases hc : cnt = id
      · rw [if_pos hc, hc]
        simp
      · rw [if_neg hc, ih (cnt + 1) (by omega)]
        rw [show id - cnt = (id - (cnt + 1)) + 1 by omega, List.getElem?_cons_succ]
    · rw [if_neg hk, List.filter_cons_of_neg hk]
      exact ih cnt h

open Classical in
theorem creation_step (fnm : Text → Text → Bool) (root node : Node) (name : Text) (check : Bool) (n : Nat) (prev : Option Nat) :
    nextCreation fnm root node name check (n + 1) prev = match findMatch fnm root prev node [name] with
      | none => some none
      | some r => if Creates check r then some (some r) else nextCreation fnm root node name check n (some r.id) := by
  rw [nextCreation]
  cases findMatch fnm root prev node [name] with
  | none => rfl
  | some r =>
    dsimp only
    unfold Creates
    rw [← isWildcard_iff]
    by_cases h1 : getAttr r "auto".toList = some "false".toList
    · rw [if_pos h1, if_neg (by rintro ⟨h, _⟩; exact h h1)]
    · rw [if_neg h1]
      cases check with
      | false => rw [if_pos (show (!false) = true from rfl), if_pos ⟨h1, fun h => absurd h Bool.false_ne_true⟩]
      | true =>
        rw [if_neg (show ¬ (!true) = true by decide)]
        by_cases h2 : isWildcard (getAttr r "name".toList) = true
        · rw [if_pos h2, if_neg (by rintro ⟨_, h⟩; exact h rfl h2)]
        · rw [if_neg h2, if_pos ⟨h1, fun _ => h2⟩]

open Classical in
theorem creation_from (fnm : Text → Text → Bool) (root node : Node) (name : Text) (check : Bool)
    (hn : ((all fnm root node [name]).map Node.id).Nodup) (pre post : List Node) (x : Node)
    (h : all fnm root node [name] = pre ++ x :: post) :
    nextCreation fnm root node name check (post.length + 1) (some x.id) = some (post.find? (fun r => decide (Creates check r))) := by
  induction post generalizing pre x with
  | nil =>
    rw [creation_step, find_next fnm root node [name] pre [] x h (not_before hn h)]
    rfl
  | cons y post ih =>
    rw [creation_step, find_next fnm root node [name] pre (y :: post) x h (not_before hn h), List.find?_cons]
    dsimp only [List.head?_cons]
    by_cases hy : Creates check y
    · simp [hy]
    · rw [if_neg hy]
      simp only [hy, decide_false]
      exact ih (pre ++ [x]) y (by simp [h])

theorem creation_mono (fnm : Text → Text → Bool) (root node : Node) (name : Text) (check : Bool) {n m : Nat} (hm : n ≤ m)
    (prev : Option Nat) (r : Option Node) (h : nextCreation fnm root node name check n prev = some r) :
    nextCreation fnm root node name check m prev = some r := by
  induction n generalizing m prev with
  | zero => cases h
  | succ n ih =>
    obtain ⟨m, rfl⟩ : ∃ k, m = k + 1 := ⟨m - 1, by omega⟩
    rw [creation_step] at h ⊢
    cases hf : findMatch fnm root prev node [name] with
    | none => rw [hf] at h; exact h
    | some y =>
      rw [hf] at h
      dsimp only at h ⊢
      split
      · rename_i hy
        rw [if_pos hy] at h
        exact h
      · rename_i hy
        rw [if_neg hy] at h
        exact ih (by omega) _ h

theorem libs_from (fnm : Text → Text → Bool) (root node : Node)
    (hn : ((all fnm root node ["Run".toList, "lib".toList]).map Node.id).Nodup) (n : Nat) (pre post : List Node) (x : Node)
    (h : all fnm root node ["Run".toList, "lib".toList] = pre ++ x :: post) (hl : post.length < n) :
    loadLibs fnm root node n (some x.id) = ((post.map Node.value).takeWhile (· ≠ []), true) := by
  induction n generalizing pre post x with
  | zero => omega
  | succ n ih =>
    rw [loadLibs, find_next fnm root node _ pre post x h (not_before hn h)]
    cases post with
    | nil => rfl
    | cons y post =>
      simp only [List.head?_cons, List.map_cons, List.length_cons] at hl ⊢
      by_cases hv : y.value = []
      · simp [hv]
      · rw [if_neg hv, ih (pre ++ [x]) post y (by rw [h]; simp) (by omega), List.takeWhile_cons]
        simp [hv]

theorem libs_all (fnm : Text → Text → Bool) (root node : Node)
    (hn : ((all fnm root node ["Run".toList, "lib".toList]).map Node.id).Nodup) (n : Nat)
    (hl : (all fnm root node ["Run".toList, "lib".toList]).length < n) :
    loadLibs fnm root node n none =
      (((all fnm root node ["Run".toList, "lib".toList]).map Node.value).takeWhile (· ≠ []), true) := by
  obtain ⟨n, rfl⟩ : ∃ k, n = k + 1 := ⟨n - 1, by omega⟩
  rw [loadLibs, find_first]
  cases h : all fnm root node ["Run".toList, "lib".toList] with
  | nil => rfl
  | cons y post =>
    rw [h] at hl
    simp only [List.head?_cons, List.map_cons, List.length_cons] at hl ⊢
    by_cases hv : y.value = []
    · simp [hv]
    · rw [if_neg hv, libs_from fnm root node hn n [] post y h (by omega), List.takeWhile_cons]
      simp [hv]

end Verif.ConfigFind
