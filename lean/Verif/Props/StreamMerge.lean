import Verif.Spec.StreamMerge
/-!
# C113: histograms of the parallel analysis are summed up
-/

namespace Verif.StreamMerge

variable {α : Type}

theorem addFrom_length [Add α] (n : Nat) (a b : List α) : (addFrom n a b).length = a.length := by
  induction a generalizing n b with
  | nil => cases n <;> rfl
  | cons x xs ih => cases b <;> cases n <;> simp [addFrom, ih]

theorem addFrom_get [Add α] (n : Nat) (a b : List α) (h : a.length = b.length) (k : Nat) :
    (addFrom n a b)[k]? = if k < n then a[k]? else plus a[k]? b[k]? := by
  induction a generalizing n b k with
  | nil =>
    have : addFrom n [] b = [] := by cases n <;> rfl
    rw [this]
    split <;> simp [plus]
  | cons x xs ih =>
    cases b with
    | nil => simp at h
    | cons y ys =>
      have h' : xs.length = ys.length := by simpa using h
      cases n with
      | zero =>
        cases k with
        | zero => simp [addFrom, plus]
        | succ k => simp [addFrom, ih 0 ys h' k]
      | succ n =>
        cases k with
        | zero => simp [addFrom]
        | succ k => simp [addFrom, ih n ys h' k]

theorem mergeItem_alike [Add α] (x y z : Item α) (h : x.alike z) : (mergeItem x y).alike z := by
  unfold mergeItem
  split
  · rename_i a b _ ha hb
    split
    · obtain ⟨h1, h2, h3, h4⟩ := h
      refine ⟨h1, h2, h3, ?_⟩
      rw [ha] at h4
      simpa [addFrom_length] using h4
    · exact h
  · exact h

theorem mergeItem_same [Add α] (x y : Item α) : (mergeItem x y).name = x.name ∧ (mergeItem x y).hist = x.hist ∧
    (mergeItem x y).kind = x.kind := by
  unfold mergeItem
  split
  · split <;> exact ⟨rfl, rfl, rfl⟩
  · exact ⟨rfl, rfl, rfl⟩

theorem mergeTwo_names [Add α] (a b : List (Item α)) :
    (mergeTwo a b).1.map (·.name) = a.map (·.name) ∧ ((mergeTwo a b).2 = false ↔ a.map (·.name) <+: b.map (·.name)) := by
  induction a generalizing b with
  | nil => simp [mergeTwo]
  | cons x xs ih =>
    cases b with
    | nil => simp [mergeTwo]
    | cons y ys =>
      unfold mergeTwo
      split
      · rename_i hn
        refine ⟨rfl, ?_⟩
        simp only [Bool.true_eq_false, List.map_cons, false_iff]
        intro h
        exact hn (List.cons_prefix_cons.1 h).1
      · rename_i hn
        have hn : x.name = y.name := by simpa using hn
        obtain ⟨h1, h2⟩ := ih ys
        refine ⟨by simp only [List.map_cons, h1, (mergeItem_same x y).1], ?_⟩
        simp only [List.map_cons, h2, List.cons_prefix_cons, hn, true_and]

theorem mergeRest_names [Add α] (hs : List (List (Item α))) : ∀ h : List (Item α),
    (mergeRest h hs).2 = true ↔ ∀ g ∈ hs, h.map (·.name) <+: g.map (·.name) := by
  induction hs with
  | nil => intro h; simp [mergeRest]
  | cons g gs ih =>
    intro h
    unfold mergeRest
    dsimp only
    obtain ⟨h1, h2⟩ := mergeTwo_names h g
    split
    · rename_i hm
      simp only [Bool.false_eq_true, List.mem_cons, forall_eq_or_imp, false_iff]
      intro hc
      have := h2.2 hc.1
      rw [hm] at this
      exact absurd this (by simp)
    · rename_i hm
      rw [ih, h1]
      have := h2.1 (by simpa using hm)
      simp only [List.mem_cons, forall_eq_or_imp, this, true_and]

/-- A file is written exactly when the items of the first module are found, with the same names and in the same order, at the beginning of
every other one. -/
theorem C113_saved_iff [Add α] (h : List (Item α)) (hs : List (List (Item α))) :
    (produce (h :: hs)).isSome = true ↔ ∀ g ∈ hs, h.map (·.name) <+: g.map (·.name) := by
  rw [← mergeRest_names]
  unfold produce
  dsimp only
  split
  · rename_i e; simp [e]
  · rename_i e; simp [e]

theorem layout_names {a b : List (Item α)} (h : SameLayout a b) : a.map (·.name) = b.map (·.name) := by
  apply List.ext_getElem?
  intro i
  simp only [List.getElem?_map]
  cases ha : a[i]? with
  | none =>
    have := List.getElem?_eq_none_iff.1 ha
    rw [List.getElem?_eq_none (by rw [← h.1]; exact this)]
  | some x =>
    have hlt := (List.getElem?_eq_some_iff.1 ha).1
    have hlt' : i < b.length := by rw [← h.1]; exact hlt
    rw [List.getElem?_eq_getElem hlt']
    have := (h.2 i x _ ha (List.getElem?_eq_getElem hlt')).1
    simp [this]

theorem alike_symm {x y : Item α} (h : x.alike y) : y.alike x := ⟨h.1.symm, h.2.1.symm, h.2.2.1.symm, h.2.2.2.symm⟩

theorem mergeTwo_get [Add α] (a b : List (Item α)) (hl : SameLayout a b) (i : Nat) (x y : Item α) (hx : a[i]? = some x)
    (hy : b[i]? = some y) : (mergeTwo a b).1[i]? = some (mergeItem x y) := by
  induction a generalizing b i with
  | nil => simp at hx
  | cons u us ih =>
    cases b with
    | nil => simp at hy
    | cons v vs =>
      unfold mergeTwo
      have hn := (hl.2 0 u v rfl rfl).1
      rw [if_neg (by simp [hn])]
      cases i with
      | zero =>
        simp only [List.getElem?_cons_zero, Option.some.injEq] at hx hy ⊢
        rw [hx, hy]
      | succ i =>
        simp only [List.getElem?_cons_succ] at hx hy ⊢
        refine ih vs ⟨by simpa using hl.1, ?_⟩ i hx hy
        intro j p q hp hq
        exact hl.2 (j + 1) p q (by simpa using hp) (by simpa using hq)

theorem mergeTwo_length [Add α] (a b : List (Item α)) : (mergeTwo a b).1.length = a.length := by
  have := congrArg List.length (mergeTwo_names a b).1
  simpa using this

theorem mergeTwo_layout [Add α] (a b c : List (Item α)) (hl : SameLayout a b) (hc : SameLayout a c) : SameLayout (mergeTwo a b).1 c := by
  refine ⟨by rw [mergeTwo_length]; exact hc.1, ?_⟩
  intro i x z hx hz
  have hlt : i < a.length := by rw [hc.1]; exact (List.getElem?_eq_some_iff.1 hz).1
  have h1 : a[i]? = some a[i] := List.getElem?_eq_getElem hlt
  have h2 : b[i]? = some (b[i]'(by rw [← hl.1]; exact hlt)) := List.getElem?_eq_getElem _
  rw [mergeTwo_get a b hl i _ _ h1 h2] at hx
  obtain rfl := Option.some.inj hx
  exact mergeItem_alike _ _ _ (hc.2 i _ z h1 hz)

theorem mergeTwo_value [Add α] (a b : List (Item α)) (hl : SameLayout a b) (i k : Nat) :
    value (mergeTwo a b).1 i k = if isHist a i = true ∧ axes a i ≤ k then plus (value a i k) (value b i k) else value a i k := by
  cases ha : a[i]? with
  | none =>
    have h0 := List.getElem?_eq_none_iff.1 ha
    have h1 : (mergeTwo a b).1[i]? = none := List.getElem?_eq_none (by rw [mergeTwo_length]; exact h0)
    simp only [value, isHist, ha, h1]
    simp
  | some x =>
    have hlt := (List.getElem?_eq_some_iff.1 ha).1
    have hb : b[i]? = some (b[i]'(by rw [← hl.1]; exact hlt)) := List.getElem?_eq_getElem _
    generalize hy : b[i]'(by rw [← hl.1]; exact hlt) = y at hb
    have hal := hl.2 i x y ha hb
    have hm := mergeTwo_get a b hl i x y ha hb
    simp only [value, isHist, axes, ha, hb, hm]
    unfold mergeItem
    obtain ⟨_, e2, _, e4⟩ := hal
    cases hh : x.hist with
    | false => simp [← e2, hh]
    | true =>
      rw [← e2, hh]
      cases hxb : x.bins with
      | none =>
        rw [hxb] at e4
        simp only [Option.map_none] at e4
        have : y.bins = none := by
          cases hyb : y.bins with
          | none => rfl
          | some _ => rw [hyb] at e4; simp at e4
        simp [this, plus, hxb]
      | some p =>
        rw [hxb] at e4
        cases hyb : y.bins with
        | none => rw [hyb] at e4; simp at e4
        | some q =>
          rw [hyb] at e4
          have hlen : p.length = q.length := by simpa using e4
          simp only [Bool.and_self, hlen, if_true, true_and]
          rw [addFrom_get _ _ _ hlen]
          unfold Item.first
          split <;> split <;> rename_i h1 h2 <;> first | (rw [if_neg (by omega)]) | (rw [if_pos (by omega)])

/-- When the modules booked the same histograms, a file is written; in it every value of a histogram is the sum of the values in all modules
(in the order of the modules), the descriptions of axes and all other items are those of the first module. -/
theorem C113_sum [Add α] (h : List (Item α)) (hs : List (List (Item α))) (hl : ∀ g ∈ hs, SameLayout h g) :
    ∃ r, produce (h :: hs) = some r ∧ SameLayout r h ∧ ∀ i k,
      value r i k = if isHist h i = true ∧ axes h i ≤ k then total h hs i k else value h i k := by
  have hsave : (mergeRest h hs).2 = true :=
    (mergeRest_names hs h).2 (fun g hg => by rw [layout_names (hl g hg)]; exact List.prefix_refl _)
  refine ⟨(mergeRest h hs).1, by simp only [produce, hsave, if_true], ?_⟩
  have self : ∀ a : List (Item α), SameLayout a a := fun a => ⟨rfl, fun i x y hx hy => by
    rw [hx] at hy; obtain rfl := Option.some.inj hy; exact ⟨rfl, rfl, rfl, rfl⟩⟩
  clear hsave
  induction hs generalizing h with
  | nil =>
    refine ⟨self h, ?_⟩
    intro i k
    simp [mergeRest, total]
  | cons g gs ih =>
    have hg := hl g (by simp)
    have hmiss : (mergeTwo h g).2 = false := (mergeTwo_names h g).2.2 (by rw [layout_names hg]; exact List.prefix_refl _)
    have hrest : mergeRest h (g :: gs) = mergeRest (mergeTwo h g).1 gs := by
      simp only [mergeRest, hmiss]; simp
    rw [hrest]
    have hself := mergeTwo_layout h g h hg (self h)
    obtain ⟨i1, i2⟩ := ih (mergeTwo h g).1 (fun g' hg' => mergeTwo_layout h g g' hg (hl g' (by simp [hg'])))
    constructor
    · refine ⟨i1.1.trans hself.1, ?_⟩
      intro i x z hx hz
      have hlt : i < (mergeTwo h g).1.length := by rw [hself.1]; exact (List.getElem?_eq_some_iff.1 hz).1
      have hm := List.getElem?_eq_getElem hlt
      have a1 := i1.2 i x _ hx hm
      have a2 := hself.2 i _ z hm hz
      exact ⟨a1.1.trans a2.1, a1.2.1.trans a2.2.1, a1.2.2.1.trans a2.2.2.1, a1.2.2.2.trans a2.2.2.2⟩
    · intro i k
      have hax : axes (mergeTwo h g).1 i = axes h i ∧ isHist (mergeTwo h g).1 i = isHist h i := by
        cases hi : h[i]? with
        | none =>
          have h0 := List.getElem?_eq_none_iff.1 hi
          have h1 : (mergeTwo h g).1[i]? = none := List.getElem?_eq_none (by rw [mergeTwo_length]; exact h0)
          simp only [axes, isHist, hi, h1]
          exact ⟨trivial, trivial⟩
        | some x =>
          have hlt : i < (mergeTwo h g).1.length := by rw [hself.1]; exact (List.getElem?_eq_some_iff.1 hi).1
          have hm := List.getElem?_eq_getElem hlt
          have a2 := hself.2 i _ x hm hi
          simp only [axes, isHist, hi, hm, a2.2.1, a2.2.2.1]
          exact ⟨trivial, trivial⟩
      rw [i2 i k, hax.1, hax.2]
      simp only [total, List.foldl_cons, mergeTwo_value h g hg i k]
      split <;> rfl

/-- Two modules with two histograms and a folder. -/
def ex1 : List (Item Int) := [⟨"top", false, "", false, none⟩, makeH1 "a" 2 2 0 10, makeH2 "b" 1 1 1 0 1 1 0 1]

example : ∀ g ∈ [ex1], SameLayout ex1 g := by
  intro g hg
  simp only [List.mem_singleton] at hg
  subst hg
  exact ⟨rfl, fun i x y hx hy => by rw [hx] at hy; obtain rfl := Option.some.inj hy; exact ⟨rfl, rfl, rfl, rfl⟩⟩

/-- Histograms as they are booked: the axes, then zeros for all bins with the ones below and above the range. -/
theorem C113_booked [Zero α] (name : String) (nbins n1 n2 : Nat) (n left right a1 l1 r1 a2 l2 r2 : α) :
    (∃ b, (makeH1 name nbins n left right).bins = some b ∧ b.length = 3 + (nbins + 2) ∧ b.take 3 = [n, left, right] ∧
      ∀ k, k < nbins + 2 → b[3 + k]? = some 0) ∧
    (∃ b, (makeH2 name n1 n2 a1 l1 r1 a2 l2 r2).bins = some b ∧ b.length = 6 + (n1 + 2) * (n2 + 2) ∧
      b.take 6 = [a1, l1, r1, a2, l2, r2] ∧ ∀ k, k < (n1 + 2) * (n2 + 2) → b[6 + k]? = some 0) := by
  constructor
  · refine ⟨_, rfl, by simp; omega, by simp, ?_⟩
    intro k hk
    rw [List.getElem?_append_right (by simp)]
    simp [hk]
  · refine ⟨_, rfl, by simp; omega, by simp, ?_⟩
    intro k hk
    rw [List.getElem?_append_right (by simp)]
    simp [hk]

theorem zeroFrom_get [Zero α] (n : Nat) (b : List α) (k : Nat) :
    (zeroFrom n b)[k]? = if k < n then b[k]? else b[k]?.map (fun _ => 0) := by
  induction b generalizing n k with
  | nil =>
    have : zeroFrom n ([] : List α) = [] := by cases n <;> rfl
    rw [this]; simp
  | cons x xs ih =>
    cases n with
    | zero => cases k <;> simp [zeroFrom, ih]
    | succ n => cases k <;> simp [zeroFrom, ih]

/-- Clearing sets all values of histograms to zero; axes, protected histograms and other items are left as they are. -/
theorem C113_clear [Zero α] (h : List (Item α)) (i k : Nat) (x : Item α) (hx : h[i]? = some x) :
    (clearAll h).1.length = h.length ∧
    value (clearAll h).1 i k =
      if x.hist = true ∧ x.noReset = false ∧ axes h i ≤ k then (value h i k).map (fun _ => 0) else value h i k := by
  refine ⟨by simp [clearAll], ?_⟩
  simp only [value, clearAll, List.getElem?_map, hx, Option.map_some, axes]
  unfold clear
  cases hh : x.hist with
  | false => simp
  | true =>
    cases hb : x.bins with
    | none => simp [hb]
    | some b =>
      cases hn : x.noReset with
      | true => simp [hb]
      | false =>
        simp only [Bool.false_eq_true, if_false, true_and]
        rw [zeroFrom_get]
        unfold Item.first
        split <;> split <;> rename_i h1 h2 <;> first | (rw [if_neg (by omega)]) | (rw [if_pos (by omega)])

example : ex1[1]? = some (makeH1 "a" 2 2 0 10) := rfl

/-! ### Entries -/

theorem entries_eq (n : Nat) (b : List Int) : ∀ m s, (List.range' m n).foldl (fun s n => s + b.getD (n + 4) 0) s =
    s + (List.range' m n).foldl (fun s n => s + b.getD (n + 4) 0) 0 := by
  induction n with
  | zero => intro m s; simp
  | succ n ih =>
    intro m s
    simp only [List.range'_succ, List.foldl_cons]
    rw [ih, ih (m + 1) (0 + _)]
    omega

theorem entries_add (n : Nat) (a b c : List Int) (h : ∀ k, 3 ≤ k → c.getD k 0 = a.getD k 0 + b.getD k 0) :
    entries n c = entries n a + entries n b := by
  unfold entries
  rw [List.range_eq_range']
  have : ∀ m, (List.range' m n).foldl (fun s n => s + c.getD (n + 4) 0) 0 = (List.range' m n).foldl (fun s n => s + a.getD (n + 4) 0) 0 +
      (List.range' m n).foldl (fun s n => s + b.getD (n + 4) 0) 0 := by
    induction n with
    | zero => intro m; simp
    | succ n ih =>
      intro m
      simp only [List.range'_succ, List.foldl_cons]
      rw [entries_eq n a, entries_eq n b, entries_eq n c, ih, h (m + 4) (by omega)]
      omega
  exact this 0

/-- The number of entries after adding one module is the sum of the numbers of entries. -/
theorem C113_entries (nbins : Nat) (x y : Item Int) (a b : List Int) (hx : x.bins = some a) (hy : y.bins = some b) (hh : x.hist = true)
    (hk : x.kind = "ROOT.TH1D") (hl : x.alike y) :
    ∃ c, (mergeItem x y).bins = some c ∧ entries nbins c = entries nbins a + entries nbins b := by
  obtain ⟨_, e2, _, e4⟩ := hl
  rw [hx, hy] at e4
  have hlen : a.length = b.length := by simpa using e4
  refine ⟨addFrom 3 a b, ?_, ?_⟩
  · unfold mergeItem
    rw [← e2, hh, hx, hy]
    simp only [Bool.and_self, hlen, if_true, Item.first, hk]
  · apply entries_add
    intro k hk3
    simp only [List.getD_eq_getElem?_getD]
    rw [addFrom_get _ _ _ hlen, if_neg (by omega)]
    by_cases hlt : k < a.length
    · rw [List.getElem?_eq_getElem hlt, List.getElem?_eq_getElem (show k < b.length by omega)]
      rfl
    · rw [List.getElem?_eq_none (by omega), List.getElem?_eq_none (show b.length ≤ k by omega)]
      rfl

example : ∃ a b, (makeH1 "a" 2 (2 : Int) 0 10).bins = some a ∧ (⟨"a", true, "ROOT.TH1D", false, some [2, 0, 10, 1, 5, 6, 7]⟩ : Item Int).bins =
    some b ∧ (makeH1 "a" 2 (2 : Int) 0 10).alike ⟨"a", true, "ROOT.TH1D", false, some [2, 0, 10, 1, 5, 6, 7]⟩ := by
  refine ⟨_, _, rfl, rfl, rfl, rfl, rfl, rfl⟩

/-! ### What goes wrong -/

/-- A histogram of another size in the second module is left out without a message: the file is written as if the module had seen nothing. -/
theorem C113_size_counterexample : ∃ h g : List (Item Int), h.map (·.name) = g.map (·.name) ∧ produce [h, g] = some h ∧
    value g 0 3 = some 7 ∧ value h 0 3 = some 0 := by
  refine ⟨[makeH1 "a" 1 1 0 10], [⟨"a", true, "ROOT.TH1D", false, some [2, 0, 10, 7, 7, 7, 7]⟩], rfl, ?_, rfl, rfl⟩
  decide

/-- A histogram which only the second module has booked, after all the others, is lost without a message; when the first module has it, no
file is written at all. -/
theorem C113_extra_counterexample : ∃ h g : List (Item Int), produce [h, g] = some h ∧ h.length < g.length ∧ produce [g, h] = none := by
  refine ⟨[makeH1 "a" 1 1 0 10], [makeH1 "a" 1 1 0 10, makeH1 "b" 1 1 0 10], ?_, by decide, ?_⟩ <;> decide

/-- Axes with other ranges are not noticed: counts of different ranges are added. -/
theorem C113_range_counterexample : ∃ h g : List (Item Int), SameLayout h g ∧ value h 0 2 ≠ value g 0 2 ∧
    (produce [h, g]).isSome = true := by
  refine ⟨[makeH1 "a" 1 1 0 10], [makeH1 "a" 1 1 0 20], ⟨rfl, ?_⟩, by decide, by decide⟩
  intro i x y hx hy
  cases i with
  | zero =>
    simp only [List.getElem?_cons_zero, Option.some.injEq] at hx hy
    subst hx hy
    exact ⟨rfl, rfl, rfl, rfl⟩
  | succ i => simp at hx

end Verif.StreamMerge
