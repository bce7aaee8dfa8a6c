import Verif.Spec.ConfigIO

/-!
# Lemmas about reading configuration values
-/

namespace Verif.ConfigIO

open Spec

/-! ## `Find` -/

/-- Decision version of `Belongs`. -/
def fits (c : Cfg) (strict : Bool) (f : Finder) (n : Node) : Bool :=
  match f with
  | .never => false
  | .tag name checks => decide (n.name = name) && checks.all (attrFits c strict n)

theorem attrFits_iff (c : Cfg) (strict : Bool) (n : Node) (a v : Text) : attrFits c strict n (a, v) = true ↔
    (attr c n a ≠ [] ∧ attr c n a = v) ∨ (strict = false ∧ (attr c n a = [] ∨ c.fnm (attr c n a) v = true)) := by
  have h : attrText c n a = attr c n a := by
    unfold attr attrText
    cases getAttr n a <;> rfl
  unfold attrFits
  dsimp only
  rw [h]
  generalize attr c n a = x
  cases strict with
  | true =>
    by_cases hx : x = []
    · simp [hx]
    · simp [hx]
  | false =>
    by_cases hx : x = []
    · simp [hx]
    · simp [hx]

theorem fits_iff (c : Cfg) (strict : Bool) (f : Finder) (n : Node) : fits c strict f n = true ↔ Belongs c strict f n := by
  unfold fits Belongs
  cases f with
  | never => simp
  | tag name checks =>
    simp only [Bool.and_eq_true, decide_eq_true_eq, List.all_eq_true]
    constructor
    · rintro ⟨h1, h2⟩
      exact ⟨name, checks, rfl, h1, fun a v hav => (attrFits_iff c strict n a v).mp (h2 (a, v) hav)⟩
    · rintro ⟨name', checks', h0, h1, h2⟩
      cases h0
      exact ⟨h1, fun x hx => (attrFits_iff c strict n x.1 x.2).mpr (h2 x.1 x.2 hx)⟩

/-- First node in a list which fits, with the nodes behind. -/
def firstFit (p : Node → Bool) : List Node → Option (Node × List Node)
  | [] => none
  | k :: ks => if p k then some (k, ks) else firstFit p ks

theorem checkAttrs_eq (c : Cfg) (strict : Bool) (checks : List (Text × Text)) (k p : Node) (r : List Node) (up : List (Node × List Node)) :
    checkAttrs c strict checks { item := k, up := (p, r) :: up, chld := none } =
      if checks.all (attrFits c strict k) = true then (true, { item := k, up := (p, r) :: up, chld := none })
      else (false, { item := p, up := up, chld := some r }) := by
  induction checks with
  | nil => rfl
  | cons a as ih =>
    rw [checkAttrs]
    unfold checkAttr
    dsimp only
    rw [if_neg (by simp)]
    cases h : attrFits c strict k a with
    | true =>
      simp only [if_true, List.all_cons, h, Bool.true_and]
      exact ih
    | false =>
      simp [pop, h]

theorem find_loop (c : Cfg) (strict : Bool) (name : Text) (checks : List (Text × Text)) (n : Nat) (s : St)
    (hn : (cand s).length < n) :
    findLoop c strict name checks n s = match firstFit (fits c strict (.tag name checks)) (cand s) with
      | some (k, r) => (true, { item := k, up := (s.item, r) :: s.up, chld := none })
      | none => (false, { s with chld := none }) := by
  induction n generalizing s with
  | zero => omega
  | succ n ih =>
    rw [findLoop]
    unfold findItem
    have key : ∀ l : List Node, (search name l = none ∧ firstFit (fits c strict (.tag name checks)) l = none) ∨
        ∃ k r, search name l = some (k, r) ∧ r.length < l.length ∧
          firstFit (fits c strict (.tag name checks)) l =
            if checks.all (attrFits c strict k) = true then some (k, r) else firstFit (fits c strict (.tag name checks)) r := by
      intro l
      induction l with
      | nil => exact Or.inl ⟨rfl, rfl⟩
      | cons k ks ihl =>
        by_cases hk : k.name = name
        · refine Or.inr ⟨k, ks, by simp [search, hk], by simp, ?_⟩
          have hf : fits c strict (.tag name checks) k = checks.all (attrFits c strict k) := by
            unfold fits
            dsimp only
            rw [decide_eq_true hk, Bool.true_and]
          rw [firstFit, hf]
        · have h1 : search name (k :: ks) = search name ks := by simp [search, hk]
          have h2 : firstFit (fits c strict (.tag name checks)) (k :: ks) = firstFit (fits c strict (.tag name checks)) ks := by
            simp [firstFit, fits, hk]
          rw [h1, h2]
          rcases ihl with h | ⟨k', r, h3, h4, h5⟩
          · exact Or.inl h
          · exact Or.inr ⟨k', r, h3, by simp; omega, h5⟩
    rcases key (cand s) with ⟨h1, h2⟩ | ⟨k, r, h1, h2, h3⟩
    · rw [h1, h2]
    · rw [h1, h3]
      dsimp only
      rw [checkAttrs_eq]
      by_cases hc : checks.all (attrFits c strict k) = true
      · rw [if_pos hc, if_pos hc]
      · rw [if_neg hc, if_neg hc]
        dsimp only
        rw [ih _ (by simp [cand]; omega)]
        simp [cand]

theorem find_eq (c : Cfg) (strict : Bool) (f : Finder) (s : St) :
    (∃ k r, firstFit (fits c strict f) (cand s) = some (k, r) ∧
      find c strict f s = (true, { item := k, up := (s.item, r) :: s.up, chld := none })) ∨
    (firstFit (fits c strict f) (cand s) = none ∧
      find c strict f s = (false, if f = .never then s else { s with chld := none })) := by
  unfold find
  cases f with
  | never =>
    refine Or.inr ⟨?_, rfl⟩
    induction cand s with
    | nil => rfl
    | cons k ks ih => exact ih
  | tag name checks =>
    dsimp only
    rw [find_loop _ _ _ _ _ _ (Nat.lt_succ_self _)]
    cases h : firstFit (fits c strict (.tag name checks)) (cand s) with
    | none => exact Or.inr ⟨rfl, rfl⟩
    | some p => exact Or.inl ⟨p.1, p.2, rfl, rfl⟩

/-! ## The walk -/

/-- `places` with the decision version. -/
def below (c : Cfg) (strict : Bool) (fs : Nat → Finder) : Nat → Node → List Node
  | 0, n => [n]
  | l + 1, n => (n.kids.filter (fits c strict (fs l))).flatMap (below c strict fs l)

theorem below_places (c : Cfg) (strict : Bool) (fs : Nat → Finder) (l : Nat) : below c strict fs l = places c strict fs l := by
  induction l with
  | zero => funext n; rfl
  | succ l ih =>
    funext n
    rw [below, places, ih]
    congr 2
    funext k
    rw [Bool.eq_iff_iff, fits_iff]
    simp

/-- The nodes are visited one after the other until one ends the search. -/
def visits {σ ρ : Type} (visit : σ → Node → σ ⊕ ρ) : σ → List Node → σ ⊕ ρ
  | acc, [] => .inl acc
  | acc, n :: ns =>
    match visit acc n with
    | .inr r => .inr r
    | .inl acc => visits visit acc ns

theorem visits_append {σ ρ : Type} (visit : σ → Node → σ ⊕ ρ) (acc : σ) (a b : List Node) :
    visits visit acc (a ++ b) = match visits visit acc a with
      | .inr r => .inr r
      | .inl acc => visits visit acc b := by
  induction a generalizing acc with
  | nil => rfl
  | cons n a ih =>
    rw [List.cons_append, visits, visits]
    cases visit acc n with
    | inr r => rfl
    | inl acc => exact ih acc

/-- What happens behind a `Find` which finds nothing. -/
def failed {σ ρ : Type} (c : Cfg) (strict : Bool) (fs : Nat → Finder) (d : Nat) (visit : σ → Node → σ ⊕ ρ) (n level : Nat)
    (s : St) (acc : σ) : Option (σ ⊕ ρ) :=
  if d < level + 1 then some (.inl acc)
  else match pop s with
    | none => some (.inl acc)
    | some s'' => walk c strict fs d visit n (level + 1) s'' acc

theorem firstFit_some {p : Node → Bool} {l r : List Node} {k : Node} (h : firstFit p l = some (k, r)) :
    l.filter p = k :: r.filter p ∧ r.length < l.length ∧ p k = true := by
  induction l with
  | nil => cases h
  | cons x l ih =>
    unfold firstFit at h
    cases hx : p x with
    | true =>
      rw [hx] at h
      cases h
      exact ⟨List.filter_cons_of_pos hx, by simp, hx⟩
    | false =>
      rw [hx] at h
      obtain ⟨h1, h2, h3⟩ := ih h
      exact ⟨by rw [List.filter_cons_of_neg (by simp [hx]), h1], by simp; omega, h3⟩

theorem firstFit_none {p : Node → Bool} {l : List Node} (h : firstFit p l = none) : l.filter p = [] := by
  induction l with
  | nil => rfl
  | cons x l ih =>
    unfold firstFit at h
    cases hx : p x with
    | true => rw [hx] at h; cases h
    | false =>
      rw [hx] at h
      rw [List.filter_cons_of_neg (by simp [hx]), ih h]

/-- All nodes below are visited, then the walk goes on as if nothing was found.  At a level with an object without
parent the walk starts at the first child. -/
theorem walk_level {σ ρ : Type} (c : Cfg) (strict : Bool) (fs : Nat → Finder) (d : Nat) (visit : σ → Node → σ ⊕ ρ)
    (level : Nat) (hd : level ≤ d) : ∀ (len : Nat) (s : St) (acc : σ), (cand s).length ≤ len → (fs level = .never → s.chld = none) →
    ∃ k, ∀ n, walk c strict fs d visit (n + k) level s acc =
      match visits visit acc (((cand s).filter (fits c strict (fs level))).flatMap (below c strict fs level)) with
      | .inr r => some (.inr r)
      | .inl acc => failed c strict fs d visit n level { s with chld := none } acc := by
  induction level with
  | zero =>
    intro len
    induction len with
    | zero =>
      intro s acc hl hs
      refine ⟨1, fun n => ?_⟩
      have hc : cand s = [] := List.length_eq_zero_iff.mp (Nat.le_zero.mp hl)
      rcases find_eq c strict (fs 0) s with ⟨k, r, h1, _⟩ | ⟨_, h2⟩
      · rw [hc] at h1; cases h1
      · rw [walk, h2, hc]
        have : (if fs 0 = .never then s else { s with chld := none }) = { s with chld := none } := by
          split
          · rename_i hf
            obtain ⟨i, u, ch⟩ := s
            have := hs hf
            dsimp only at this
            rw [this]
          · rfl
        rw [this]
        rfl
    | succ len ih =>
      intro s acc hl hs
      rcases find_eq c strict (fs 0) s with ⟨k, r, h1, h2⟩ | ⟨h1, h2⟩
      · obtain ⟨h3, h4, h5⟩ := firstFit_some h1
        have hne : fs 0 ≠ .never := by
          intro hf
          rw [hf] at h5
          cases h5
        cases hv : visit acc k with
        | inr x =>
          refine ⟨1, fun n => ?_⟩
          rw [walk, h2, h3]
          dsimp only
          rw [hv, List.flatMap_cons, below, List.singleton_append, visits, hv]
        | inl acc' =>
          obtain ⟨m, hm⟩ := ih { item := s.item, up := s.up, chld := some r } acc' (by simp [cand]; omega)
            (fun hf => absurd hf hne)
          refine ⟨m + 1, fun n => ?_⟩
          rw [← Nat.add_assoc, walk, h2, h3]
          dsimp only [pop]
          rw [hv, List.flatMap_cons, below, List.singleton_append, visits, hv]
          dsimp only
          rw [hm n]
          rfl
      · refine ⟨1, fun n => ?_⟩
        rw [walk, h2, firstFit_none h1]
        have : (if fs 0 = .never then s else { s with chld := none }) = { s with chld := none } := by
          split
          · rename_i hf
            obtain ⟨i, u, ch⟩ := s
            have := hs hf
            dsimp only at this
            rw [this]
          · rfl
        rw [this]
        rfl
  | succ level ihl =>
    intro len
    induction len with
    | zero =>
      intro s acc hl hs
      refine ⟨1, fun n => ?_⟩
      have hc : cand s = [] := List.length_eq_zero_iff.mp (Nat.le_zero.mp hl)
      rcases find_eq c strict (fs (level + 1)) s with ⟨k, r, h1, _⟩ | ⟨_, h2⟩
      · rw [hc] at h1; cases h1
      · rw [walk, h2, hc]
        have : (if fs (level + 1) = .never then s else { s with chld := none }) = { s with chld := none } := by
          split
          · rename_i hf
            obtain ⟨i, u, ch⟩ := s
            have := hs hf
            dsimp only at this
            rw [this]
          · rfl
        rw [this]
        rfl
    | succ len ih =>
      intro s acc hl hs
      rcases find_eq c strict (fs (level + 1)) s with ⟨k, r, h1, h2⟩ | ⟨h1, h2⟩
      · obtain ⟨h3, h4, h5⟩ := firstFit_some h1
        have hne : fs (level + 1) ≠ .never := by
          intro hf
          rw [hf] at h5
          cases h5
        obtain ⟨m1, hm1⟩ := ihl (by omega) _ { item := k, up := (s.item, r) :: s.up, chld := none } acc
          (Nat.le_refl _) (fun _ => rfl)
        have hcand : cand { item := k, up := (s.item, r) :: s.up, chld := none } = k.kids := rfl
        rw [hcand] at hm1
        cases hv : visits visit acc (below c strict fs (level + 1) k) with
        | inr x =>
          refine ⟨m1 + 1, fun n => ?_⟩
          rw [← Nat.add_assoc, walk, h2, h3]
          dsimp only
          rw [hm1 n, List.flatMap_cons, visits_append, hv]
          rw [below] at hv
          rw [hv]
        | inl acc' =>
          obtain ⟨m2, hm2⟩ := ih { item := s.item, up := s.up, chld := some r } acc' (by simp [cand]; omega)
            (fun hf => absurd hf hne)
          refine ⟨m2 + m1 + 1, fun n => ?_⟩
          rw [← Nat.add_assoc, ← Nat.add_assoc, walk, h2, h3]
          dsimp only
          rw [hm1 (n + m2), List.flatMap_cons, visits_append, hv]
          rw [below] at hv
          rw [hv]
          dsimp only
          unfold failed
          rw [if_neg (by omega)]
          dsimp only [pop]
          rw [hm2 n]
          rfl
      · refine ⟨1, fun n => ?_⟩
        rw [walk, h2, firstFit_none h1]
        have : (if fs (level + 1) = .never then s else { s with chld := none }) = { s with chld := none } := by
          split
          · rename_i hf
            obtain ⟨i, u, ch⟩ := s
            have := hs hf
            dsimp only at this
            rw [this]
          · rfl
        rw [this]
        rfl

theorem walk_all {σ ρ : Type} (c : Cfg) (strict : Bool) (fs : Nat → Finder) (d : Nat) (visit : σ → Node → σ ⊕ ρ)
    (n : Node) (up : List (Node × List Node)) (acc : σ) :
    ∃ k, ∀ m, k ≤ m → walk c strict fs d visit m d (start n up) acc = some (visits visit acc (places c strict fs (d + 1) n)) := by
  obtain ⟨k, hk⟩ := walk_level c strict fs d visit d (Nat.le_refl d) _ (start n up) acc (Nat.le_refl _) (fun _ => rfl)
  refine ⟨k, fun m hm => ?_⟩
  have := hk (m - k)
  rw [Nat.sub_add_cancel hm] at this
  rw [this, ← below_places, below]
  have hc : cand (start n up) = n.kids := rfl
  rw [hc]
  cases visits visit acc ((n.kids.filter (fits c strict (fs d))).flatMap (below c strict fs d)) with
  | inr r => rfl
  | inl acc =>
    dsimp only
    unfold failed
    rw [if_pos (by omega)]

theorem read_all {σ ρ : Type} (c : Cfg) (fs : Nat → Finder) (maxlevel : Nat) (visit : σ → Node → σ ⊕ ρ)
    (sel : Option (Node × List (Node × List Node))) (root : Node) (acc : σ) :
    ∃ k, ∀ m, k ≤ m → readRecord c fs maxlevel visit m sel root acc =
      some (visits visit acc (allPlaces c fs maxlevel (sel.map (·.1)) root)) := by
  have hfirst : ∃ k, ∀ m, k ≤ m → firstMode c fs maxlevel visit m sel acc = some (visits visit acc (selPlaces c fs maxlevel (sel.map (·.1)))) := by
    cases sel with
    | none => exact ⟨0, fun m _ => rfl⟩
    | some p =>
      obtain ⟨s, up⟩ := p
      cases maxlevel with
      | zero => exact ⟨0, fun m _ => rfl⟩
      | succ l =>
        obtain ⟨k, hk⟩ := walk_all c true fs l visit s up acc
        refine ⟨k, fun m hm => ?_⟩
        dsimp only [Option.map_some, firstMode, selPlaces]
        rw [hk m hm, if_neg (by omega)]
  obtain ⟨k1, h1⟩ := hfirst
  unfold allPlaces
  generalize selPlaces c fs maxlevel (sel.map (·.1)) = l at h1 ⊢
  cases hv : visits visit acc l with
  | inr r =>
    refine ⟨k1, fun m hm => ?_⟩
    unfold readRecord
    rw [h1 m hm, hv, visits_append, hv]
  | inl acc' =>
    obtain ⟨k2, h2⟩ := walk_all c false fs maxlevel visit root [] acc'
    refine ⟨max k1 k2, fun m hm => ?_⟩
    unfold readRecord
    rw [h1 m (by omega), hv, visits_append, hv]
    dsimp only
    rw [h2 m (by omega)]

theorem visits_field (c : Cfg) (item : Text) (l : List Node) :
    visits (visitField c item) () l = match l.findSome? (fieldVal c item) with
      | some v => .inr v
      | none => .inl () := by
  induction l with
  | nil => rfl
  | cons n l ih =>
    rw [visits, List.findSome?_cons]
    unfold visitField
    cases fieldVal c item n with
    | some v => rfl
    | none => exact ih

theorem visits_map (c : Cfg) (item : Text) (l : List Node) (b : Bool) (m : List (Text × Text)) :
    visits (visitMap c item) (b, m) l =
      .inl (b || (l.filterMap (fun n => subItem (some n) [] item)).length != 0,
        ((l.filterMap (fun n => subItem (some n) [] item)).flatMap fieldsOf).foldl (addField c) m) := by
  induction l generalizing b m with
  | nil => simp [visits]
  | cons n l ih =>
    rw [visits]
    cases h : subItem (some n) [] item with
    | none =>
      have hv : visitMap c item (b, m) n = .inl (b, m) := by simp only [visitMap, h]
      rw [hv]
      dsimp only
      rw [ih, List.filterMap_cons, h]
    | some i =>
      have hv : visitMap c item (b, m) n = .inl (true, (fieldsOf i).foldl (addField c) m) := by simp only [visitMap, h]
      rw [hv]
      dsimp only
      rw [ih, List.filterMap_cons, h]
      simp [List.foldl_append]

theorem addField_mem (c : Cfg) (l m : List (Text × Text)) (a : Text) :
    ((l.foldl (addField c) m).find? (·.1 = a)).map (·.2) =
      match (m.find? (·.1 = a)).map (·.2) with
      | some v => some v
      | none => ((l.find? (·.1 = a)).map (·.2)).map (resolve c) := by
  induction l generalizing m with
  | nil =>
    rw [List.foldl_nil]
    cases (m.find? (·.1 = a)).map (·.2) <;> rfl
  | cons p l ih =>
    rw [List.foldl_cons, ih]
    obtain ⟨b, v⟩ := p
    unfold addField
    by_cases hm : m.any (·.1 = b) = true
    · rw [if_pos hm]
      by_cases hb : b = a
      · subst hb
        cases hf : m.find? (·.1 = b) with
        | some q => rfl
        | none =>
          rw [List.find?_eq_none] at hf
          rw [List.any_eq_true] at hm
          obtain ⟨q, hq, h⟩ := hm
          exact absurd h (hf q hq)
      · rw [List.find?_cons_of_neg (by simp [hb])]
    · rw [if_neg hm, List.find?_append]
      cases hf : m.find? (·.1 = a) with
      | some q => rfl
      | none =>
        by_cases hb : b = a
        · subst hb
          simp
        · simp [hb]

theorem fieldNode_iff (k : Node) (a v : Text) :
    (k.name = "dabc:field".toList ∧ fieldPair k = some (a, v)) ↔ IsField k a v := by
  unfold IsField fieldPair
  cases getAttr k "name".toList <;> cases getAttr k "value".toList <;> simp

theorem fieldsOf_iff (i : Node) (a v : Text) : ((fieldsOf i).find? (·.1 = a)).map (·.2) = some v ↔ FieldIn i a v := by
  unfold fieldsOf FieldIn
  rw [List.find?_append]
  have hga : getAttr i a = (i.attrs.find? (·.1 = a)).map (·.2) := rfl
  rw [hga]
  cases hf : i.attrs.find? (·.1 = a) with
  | some x =>
    rw [Option.some_or, Option.map_some]
    constructor
    · intro h; exact Or.inl h
    · rintro (h | ⟨h, _⟩)
      · exact h
      · cases h
  | none =>
    rw [Option.none_or, Option.map_none]
    rw [show ∀ P : Prop, ((none : Option Text) = some v ∨ (none : Option Text) = none ∧ P) ↔ P from
      fun P => ⟨fun h => h.elim (fun h => by cases h) (fun h => h.2), fun h => Or.inr ⟨rfl, h⟩⟩]
    generalize i.kids = ks
    induction ks with
    | nil => simp
    | cons k ks ih =>
      have hstep : ∀ (w : Text), ¬ (∃ w', IsField k a w') →
          ((∃ p k' q, k :: ks = p ++ k' :: q ∧ IsField k' a w ∧ ∀ z ∈ p, ∀ w, ¬ IsField z a w) ↔
            ∃ p k' q, ks = p ++ k' :: q ∧ IsField k' a w ∧ ∀ z ∈ p, ∀ w, ¬ IsField z a w) := by
        intro w hk
        constructor
        · rintro ⟨p, k', q, h1, h2, h3⟩
          cases p with
          | nil =>
            cases h1
            exact absurd ⟨w, h2⟩ hk
          | cons x p =>
            cases h1
            exact ⟨p, k', q, rfl, h2, fun z hz => h3 z (List.mem_cons_of_mem _ hz)⟩
        · rintro ⟨p, k', q, h1, h2, h3⟩
          refine ⟨k :: p, k', q, by rw [h1]; rfl, h2, ?_⟩
          intro z hz w' hw
          rw [List.mem_cons] at hz
          rcases hz with rfl | hz
          · exact hk ⟨w', hw⟩
          · exact h3 z hz w' hw
      by_cases hk : k.name = "dabc:field".toList
      · rw [List.filter_cons, if_pos (decide_eq_true hk), List.filterMap_cons]
        cases hv : fieldPair k with
        | none =>
          refine ih.trans ((hstep v ?_).symm)
          rintro ⟨w, hw⟩
          have := ((fieldNode_iff k a w).mpr hw).2
          rw [hv] at this
          cases this
        | some x =>
          obtain ⟨b, w⟩ := x
          dsimp only
          have hw := (fieldNode_iff k b w).mp ⟨hk, hv⟩
          by_cases hb : b = a
          · subst hb
            rw [List.find?_cons_of_pos (by simp)]
            simp only [Option.map_some, Option.some.injEq]
            constructor
            · rintro rfl
              exact ⟨[], k, ks, rfl, hw, by simp⟩
            · rintro ⟨p, k', q, h1, h2, h3⟩
              cases p with
              | nil =>
                cases h1
                have := hw.2.2
                rw [h2.2.2] at this
                exact (Option.some.inj this).symm
              | cons x p =>
                cases h1
                exact absurd hw (h3 k (by simp) w)
          · rw [List.find?_cons_of_neg (by simpa using hb)]
            refine ih.trans ((hstep v ?_).symm)
            rintro ⟨w', hw'⟩
            have := hw.2.1
            rw [hw'.2.1] at this
            exact hb (Option.some.inj this).symm
      · rw [List.filter_cons, if_neg (fun h => hk (of_decide_eq_true h))]
        refine ih.trans ((hstep v ?_).symm)
        rintro ⟨w, hw⟩
        exact hk hw.1

/-! ## Values in a node -/

theorem findChild_iff (n m : Node) (a : Text) : findChild n a = some m ↔ First n.kids a m := by
  unfold findChild First
  rw [List.find?_eq_some_iff_append]
  constructor
  · rintro ⟨h1, p, q, h2, h3⟩
    exact ⟨p, q, h2, by simpa using h1, fun z hz => by simpa using h3 z hz⟩
  · rintro ⟨p, q, h2, h1, h3⟩
    exact ⟨by simpa using h1, p, q, h2, fun z hz => by simpa using h3 z hz⟩

theorem subItem_none (acc r : Text) : subItem none acc r = none := by
  induction r generalizing acc with
  | nil => simp [subItem]
  | cons c r ih =>
    rw [subItem]
    split
    · exact ih _
    · exact ih _

theorem subItem_name (n : Option Node) (acc a r : Text) (ha : '/' ∉ a) : subItem n acc (a ++ r) = subItem n (acc ++ a) r := by
  induction a generalizing acc with
  | nil => simp
  | cons c a ih =>
    rw [List.cons_append, subItem, if_neg (by intro h; exact ha (by simp [h])),
      ih _ (fun hm => ha (List.mem_cons_of_mem _ hm))]
    simp

theorem subItem_path (names : List Text) (h : ∀ a ∈ names, a ≠ [] ∧ '/' ∉ a) (n i : Node) :
    subItem (some n) [] (pathText names) = some i ↔ Leads n names i := by
  induction names generalizing n with
  | nil =>
    simp only [pathText, List.intersperse_nil, List.flatten_nil, subItem, if_true]
    constructor
    · intro h; cases h; exact .nil _
    · intro h; cases h; rfl
  | cons a names ih =>
    have ha := h a (by simp)
    have ih := ih (fun b hb => h b (List.mem_cons_of_mem _ hb))
    have key : subItem (some n) [] (pathText (a :: names)) = (findChild n a).bind (fun m => subItem (some m) [] (pathText names)) := by
      cases names with
      | nil =>
        have := subItem_name (some n) [] a [] ha.2
        simp only [List.append_nil, List.nil_append] at this
        simp only [pathText, List.intersperse_singleton, List.flatten_cons, List.flatten_nil, List.append_nil]
        rw [this, subItem, if_neg ha.1]
        simp only [Option.bind_some]
        cases findChild n a <;> rfl
      | cons b names =>
        rw [pathText, List.intersperse_cons_cons, List.flatten_cons, List.flatten_cons]
        rw [subItem_name _ _ _ _ ha.2, List.nil_append, List.cons_append, List.nil_append, subItem, if_pos rfl]
        simp only [Option.bind_some]
        cases findChild n a with
        | none => exact subItem_none _ _
        | some m => rfl
    rw [key]
    constructor
    · intro hs
      cases hf : findChild n a with
      | none => rw [hf] at hs; cases hs
      | some m =>
        rw [hf] at hs
        exact .cons n m a names i ((findChild_iff n m a).mp hf) ((ih m).mp hs)
    · intro hl
      cases hl with
      | cons _ m _ _ _ hf hl =>
        rw [(findChild_iff n m a).mpr hf]
        exact (ih m).mpr hl

theorem items_iff (c : Cfg) (ks : List Node) (ts : List Text) :
    (ks.filter (·.name = "item".toList)).filterMap (fun k => (getAttr k "value".toList).map (resolve c)) = ts ↔ Items c ks ts := by
  constructor
  · rintro rfl
    induction ks with
    | nil => exact .nil
    | cons k ks ih =>
      by_cases hk : k.name = "item".toList
      · rw [List.filter_cons_of_pos (by simpa using hk), List.filterMap_cons]
        cases hv : getAttr k "value".toList with
        | none => exact .leave k ks _ (Or.inr hv) ih
        | some x => exact .take k ks _ _ hk ⟨x, hv, rfl⟩ ih
      · rw [List.filter_cons_of_neg (by simpa using hk)]
        exact .leave k ks _ (Or.inl hk) ih
  · intro h
    induction h with
    | nil => rfl
    | take k ks t ts hk hv _ ih =>
      obtain ⟨x, hx, rfl⟩ := hv
      rw [List.filter_cons_of_pos (by simpa using hk), List.filterMap_cons, hx, ih]
      rfl
    | leave k ks ts hk _ ih =>
      by_cases hn : k.name = "item".toList
      · rcases hk with hk | hk
        · exact absurd hn hk
        · rw [List.filter_cons_of_pos (by simpa using hn), List.filterMap_cons, hk, ih]
          rfl
      · rw [List.filter_cons_of_neg (by simpa using hn), ih]

theorem fieldVal_iff (c : Cfg) (names : List Text) (h : ∀ a ∈ names, a ≠ [] ∧ '/' ∉ a) (n : Node) (v : Val) :
    fieldVal c (pathText names) n = some v ↔ Gives c n names v := by
  have hl := subItem_path names h n
  unfold fieldVal Gives
  dsimp only
  cases hs : subItem (some n) [] (pathText names) with
  | none =>
    have hno : ∀ i, ¬ Leads n names i := by
      intro i hi
      rw [(hl i).mpr hi] at hs
      cases hs
    simp only [Option.bind_none]
    cases hg : getAttr n (pathText names) with
    | none =>
      simp only [List.filter_nil, List.filterMap_nil, if_true]
      constructor
      · intro h; cases h
      · rintro (⟨i, t, hi, _⟩ | ⟨_, t, ⟨x, hx, _⟩, _⟩ | ⟨_, _, i, ts, hi, _⟩)
        · exact absurd hi (hno i)
        · rw [hg] at hx; cases hx
        · exact absurd hi (hno i)
    | some x =>
      constructor
      · intro h
        cases h
        exact Or.inr (Or.inl ⟨fun i hi => absurd hi (hno i), _, ⟨x, hg, rfl⟩, rfl⟩)
      · rintro (⟨i, t, hi, _⟩ | ⟨_, t, ⟨x', hx, rfl⟩, rfl⟩ | ⟨_, hx, _⟩)
        · exact absurd hi (hno i)
        · rw [hg] at hx
          cases hx
          rfl
        · cases hx
  | some i =>
    have hi := (hl i).mp hs
    have huniq : ∀ j, Leads n names j → j = i := by
      intro j hj
      rw [(hl j).mpr hj] at hs
      exact Option.some.inj hs
    simp only [Option.bind_some]
    cases hv : getAttr i "value".toList with
    | some x =>
      constructor
      · intro h
        cases h
        exact Or.inl ⟨i, _, hi, ⟨x, hv, rfl⟩, rfl⟩
      · rintro (⟨j, t, hj, ⟨x', hx, rfl⟩, rfl⟩ | ⟨hn, _⟩ | ⟨hn, _⟩)
        · rw [huniq j hj, hv] at hx
          cases hx
          rfl
        · have := hn i hi
          rw [hv] at this
          cases this
        · have := hn i hi
          rw [hv] at this
          cases this
    | none =>
      have hnone : ∀ j, Leads n names j → getAttr j "value".toList = none := fun j hj => by rw [huniq j hj, hv]
      cases hg : getAttr n (pathText names) with
      | some x =>
        constructor
        · intro h
          cases h
          exact Or.inr (Or.inl ⟨hnone, _, ⟨x, hg, rfl⟩, rfl⟩)
        · rintro (⟨j, t, hj, ⟨x', hx, rfl⟩, rfl⟩ | ⟨_, t, ⟨x', hx, rfl⟩, rfl⟩ | ⟨_, hx, _⟩)
          · rw [huniq j hj, hv] at hx; cases hx
          · rw [hg] at hx
            cases hx
            rfl
          · cases hx
      | none =>
        dsimp only
        generalize harr : (i.kids.filter (·.name = "item".toList)).filterMap (fun k => (getAttr k "value".toList).map (resolve c)) = arr
        have hit := (items_iff c i.kids arr).mp harr
        constructor
        · intro h
          split at h
          · cases h
          · rename_i hne
            cases h
            exact Or.inr (Or.inr ⟨hnone, rfl, i, arr, hi, hit, hne, rfl⟩)
        · rintro (⟨j, t, hj, ⟨x', hx, rfl⟩, rfl⟩ | ⟨_, t, ⟨x', hx, rfl⟩, rfl⟩ | ⟨_, _, j, ts, hj, hts, hne, rfl⟩)
          · rw [huniq j hj, hv] at hx; cases hx
          · rw [hg] at hx; cases hx
          · rw [huniq j hj] at hts
            have := (items_iff c i.kids ts).mpr hts
            rw [harr] at this
            subst this
            rw [if_neg hne]

end Verif.ConfigIO
