import Verif.MbsCombBuild

/-! # Complete events of the MBS event builder -/

namespace Verif.MbsComb

open Verif.Bytes Verif.MbsIter

/-! ## Expected events -/

/-- At most one event with this number is taken away from the front. -/
def Took (c : Cfg) (m : Word) (l l' : List Ev) : Prop := (∀ e ∈ l', key c e ≠ m) ∧ (l = l' ∨ ∃ u, key c u = m ∧ l = u :: l')

theorem Took.find {c : Cfg} {m k : Word} {l l' : List Ev} (h : Took c m l l') (hk : k ≠ m) :
    l.find? (fun e => decide (key c e = k)) = l'.find? fun e => decide (key c e = k) := by
  rcases h.2 with rfl | ⟨u, hu, rfl⟩
  · rfl
  · rw [List.find?_cons_of_neg]
    rw [decide_eq_true_eq, hu]
    exact fun h => hk h.symm

theorem withNumber_took {c : Cfg} {m k : Word} {ls ls' : List (List Ev)} (h : List.Forall₂ (Took c m) ls ls') (hk : k ≠ m) : withNumber c k ls = withNumber c k ls' := by
  induction h with
  | nil => rfl
  | cons h _ ih =>
    unfold withNumber
    rw [h.find hk, ih]

theorem withNumber_missing {c : Cfg} {m : Word} {ls : List (List Ev)} (h : ∃ l ∈ ls, ∀ e ∈ l, key c e ≠ m) : withNumber c m ls = none := by
  induction ls with
  | nil => obtain ⟨l, hl, _⟩ := h; cases hl
  | cons l ls ih =>
    unfold withNumber
    obtain ⟨l', hl, he⟩ := h
    cases hf : l.find? fun e => decide (key c e = m) with
    | none => rfl
    | some e =>
      rcases List.mem_cons.1 hl with rfl | hl
      · have := List.find?_some hf
        rw [decide_eq_true_eq] at this
        exact absurd this (he e (List.mem_of_find?_eq_some hf))
      · dsimp only
        rw [ih ⟨l', hl, he⟩]
        rfl

theorem expected_skip {c : Cfg} {ks : List ICfg} {m : Word} {ls ls' : List (List Ev)} (h : List.Forall₂ (Took c m) ls ls') (hm : ∃ l ∈ ls, ∀ e ∈ l, key c e ≠ m) :
    expected c ks ls = expected c ks ls' := by
  have hw := @withNumber_took c m
  have hn := withNumber_missing hm
  cases h with
  | nil => rfl
  | @cons l l' ls ls' h1 h2 =>
    have hall : ∀ k, k ≠ m → withNumber c k (l :: ls) = withNumber c k (l' :: ls') := fun k hk => hw (.cons h1 h2) hk
    have htail : (l'.filterMap fun e => (withNumber c (key c e) (l :: ls)).bind (merge ks)) = l'.filterMap fun e => (withNumber c (key c e) (l' :: ls')).bind (merge ks) := by
      apply List.filterMap_congr
      intro e he
      rw [hall _ (h1.1 e he)]
    unfold expected
    dsimp only
    rw [← htail]
    rcases h1.2 with rfl | ⟨u, hu, rfl⟩
    · rfl
    · rw [List.filterMap_cons_none]
      rw [hu, hn]
      rfl

theorem withNumber_heads {c : Cfg} {m : Word} : ∀ {us : List Ev} {ls : List (List Ev)}, us.length = ls.length → (∀ u ∈ us, key c u = m) →
    withNumber c m (List.zipWith (fun u l => u :: l) us ls) = some us
  | [], [], _, _ => rfl
  | u :: us, l :: ls, hl, hu => by
    rw [List.zipWith_cons_cons]
    unfold withNumber
    rw [List.find?_cons_of_pos (by rw [decide_eq_true_eq]; exact hu u (List.mem_cons_self ..))]
    dsimp only
    rw [withNumber_heads (by simpa using hl) fun v hv => hu v (List.mem_cons_of_mem _ hv)]
    rfl

theorem took_heads {c : Cfg} {m : Word} : ∀ {us : List Ev} {ls : List (List Ev)}, us.length = ls.length → (∀ u ∈ us, key c u = m) → (∀ l ∈ ls, ∀ e ∈ l, key c e ≠ m) →
    List.Forall₂ (Took c m) (List.zipWith (fun u l => u :: l) us ls) ls
  | [], [], _, _, _ => .nil
  | u :: us, l :: ls, hl, hu, he => by
    refine .cons ⟨he l (List.mem_cons_self ..), Or.inr ⟨u, hu u (List.mem_cons_self ..), rfl⟩⟩ ?_
    exact took_heads (by simpa using hl) (fun v hv => hu v (List.mem_cons_of_mem _ hv)) fun k hk => he k (List.mem_cons_of_mem _ hk)

theorem expected_take {c : Cfg} {ks : List ICfg} {m : Word} {us : List Ev} {ls : List (List Ev)} (hl : us.length = ls.length) (hu : ∀ u ∈ us, key c u = m)
    (he : ∀ l ∈ ls, ∀ e ∈ l, key c e ≠ m) :
    expected c ks (List.zipWith (fun u l => u :: l) us ls) = (merge ks us).toList ++ expected c ks ls := by
  have hw := withNumber_heads hl hu
  have ht := took_heads hl hu he
  cases us with
  | nil =>
    cases ls with
    | nil => cases ks <;> rfl
    | cons l ls => cases hl
  | cons u us =>
    cases ls with
    | nil => cases hl
    | cons l ls =>
      rw [List.zipWith_cons_cons] at hw ht ⊢
      unfold expected
      dsimp only
      have htail : (l.filterMap fun e => (withNumber c (key c e) ((u :: l) :: List.zipWith (fun u l => u :: l) us ls)).bind (merge ks)) =
          l.filterMap fun e => (withNumber c (key c e) (l :: ls)).bind (merge ks) := by
        apply List.filterMap_congr
        intro e h
        rw [withNumber_took ht (he l (List.mem_cons_self ..) e h)]
      rw [List.filterMap_cons, hu u (List.mem_cons_self ..), hw, htail]
      dsimp only [Option.bind_some]
      cases merge ks (u :: us) <;> rfl

theorem expected_nil {c : Cfg} {ks : List ICfg} {ls : List (List Ev)} (h : [] ∈ ls) : expected c ks ls = [] := by
  unfold expected
  cases ls with
  | nil => rfl
  | cons l ls =>
    dsimp only
    rw [List.filterMap_eq_nil_iff]
    intro e _
    rw [withNumber_missing ⟨[], h, fun e he => (by cases he)⟩]
    rfl

/-! ## Inputs -/

/-- What is pending and what is still to come. -/
def total (F : Nat → List Ev) : Nat → List Inp → List (List Ev)
  | _, [] => []
  | n, i :: is => (pending i ++ F n) :: total F (n + 1) is

/-- An input with numbers in the headers and usual events. -/
structure PlainInp (c : Cfg) (i : Inp) : Prop where
  realNum : i.cfg.realNum = true
  noNum : i.cfg.noNum = false
  optional : i.cfg.optional = false
  cur : ∀ u, i.cur = some u → u.nr = key c u.ev ∧ u.special = false
  usual : ∀ e ∈ pending i, trigger e < c.limit

theorem accept_plain {c : Cfg} {k : ICfg} {e : Ev} (hk : k.realNum = true) (he : trigger e < c.limit) : accept c k e = some (some ⟨e, key c e, false⟩) := by
  unfold accept
  rw [if_neg, if_pos hk]
  · rfl
  · rw [Bool.and_eq_true, decide_eq_true_eq]
    omega

theorem find_plain {c : Cfg} {k : ICfg} (hk : k.realNum = true) : ∀ (q : List (List Ev)) (l : List Ev), (∀ e ∈ l ++ q.flatten, trigger e < c.limit) →
    ∃ u r q', find c k l q = some (u, r, q') ∧ (∀ v, u = some v → v.nr = key c v.ev ∧ v.special = false) ∧ u.toList.map Cur.ev ++ r ++ q'.flatten = l ++ q.flatten ∧
      (u = none → l ++ q.flatten = [])
  | [], [], _ => ⟨none, [], [], rfl, fun v hv => (by cases hv), rfl, fun _ => rfl⟩
  | b :: q, [], h => by
    rw [List.nil_append, List.flatten_cons] at h ⊢
    exact find_plain hk q b h
  | q, e :: l, h => by
    have hs : scan c k (e :: l) = some (some (⟨e, key c e, false⟩, l)) := by
      unfold scan
      rw [accept_plain hk (h e (List.mem_cons_self ..))]
    have hf : find c k (e :: l) q = some (some ⟨e, key c e, false⟩, l, q) := by
      cases q <;> (unfold find; rw [hs])
    refine ⟨some ⟨e, key c e, false⟩, l, q, hf, fun v hv => ?_, rfl, fun hn => by cases hn⟩
    injection hv with hv
    subst hv
    exact ⟨rfl, rfl⟩

theorem shift_plain {c : Cfg} {i : Inp} (h : PlainInp c i) :
    ∃ i', shift c i = some i' ∧ i'.cfg = i.cfg ∧ PlainInp c i' ∧ pending i' = i.rest ++ i.queue.flatten ∧ (i'.cur = none → pending i' = []) := by
  have hu : ∀ e ∈ i.rest ++ i.queue.flatten, trigger e < c.limit := by
    intro e he
    apply h.usual
    unfold pending
    rw [List.append_assoc]
    exact List.mem_append_right _ he
  obtain ⟨u, r, q', h1, h2, h3, h4⟩ := find_plain h.realNum i.queue i.rest hu
  unfold shift
  rw [h1]
  refine ⟨_, rfl, rfl, ⟨h.realNum, h.noNum, h.optional, h2, fun e he => ?_⟩, h3, fun hc => ?_⟩
  · apply hu
    rw [← h3]
    exact he
  · exact h3.trans (h4 hc)

/-- The inputs have not lost anything. -/
def Same (c : Cfg) (is is' : List Inp) : Prop := List.Forall₂ (fun i i' => i'.cfg = i.cfg ∧ PlainInp c i' ∧ pending i' = pending i) is is'

theorem Same.total {c : Cfg} {F : Nat → List Ev} : ∀ {is is' : List Inp} (n : Nat), Same c is is' → MbsComb.total F n is' = MbsComb.total F n is
  | _, _, _, .nil => rfl
  | _, _, n, .cons h1 h2 => by
    unfold MbsComb.total
    rw [h1.2.2, Same.total (n + 1) h2]

theorem Same.refl {c : Cfg} {is : List Inp} (h : ∀ i ∈ is, PlainInp c i) : Same c is is := by
  induction is with
  | nil => exact .nil
  | cons i is ih => exact .cons ⟨rfl, h i (List.mem_cons_self ..), rfl⟩ (ih fun j hj => h j (List.mem_cons_of_mem _ hj))

theorem Same.plain {c : Cfg} : ∀ {is is' : List Inp}, Same c is is' → ∀ i ∈ is', PlainInp c i
  | _, _, .nil, i, hi => by cases hi
  | _, _, .cons h1 h2, i, hi => by
    rcases List.mem_cons.1 hi with rfl | hi
    · exact h1.2.1
    · exact Same.plain h2 i hi

theorem Same.cfgs {c : Cfg} : ∀ {is is' : List Inp}, Same c is is' → is'.map Inp.cfg = is.map Inp.cfg
  | _, _, .nil => rfl
  | _, _, .cons h1 h2 => by
    rw [List.map_cons, List.map_cons, h1.1, Same.cfgs h2]

theorem collect_plain {c : Cfg} (env : Env) (mostly : Bool) (hc : c.complete = true) : ∀ (n : Nat) (is : List Inp), (∀ i ∈ is, PlainInp c i) →
    ∃ b is', collect c env mostly n is = some (b, is') ∧ Same c is is' ∧ (b = true → ∀ i ∈ is', i.cur.isSome = true) ∧ (b = false → ∃ i ∈ is, pending i = [])
  | _, [], _ => ⟨true, [], rfl, .nil, fun _ i hi => (by cases hi), fun hb => (by cases hb)⟩
  | n, i :: is, h => by
    have hi := h i (List.mem_cons_self ..)
    have hrest := fun j hj => h j (List.mem_cons_of_mem i hj)
    have hhead : ∃ i', (if i.cur.isSome then some i else shift c i) = some i' ∧ i'.cfg = i.cfg ∧ PlainInp c i' ∧ pending i' = pending i ∧ (i'.cur = none → pending i = []) := by
      cases hcur : i.cur with
      | some u => exact ⟨i, rfl, rfl, hi, rfl, fun hn => by rw [hcur] at hn; cases hn⟩
      | none =>
        obtain ⟨i', h1, h2, h3, h4, h5⟩ := shift_plain hi
        have : pending i = i.rest ++ i.queue.flatten := by
          unfold pending
          rw [hcur]
          rfl
        exact ⟨i', h1, h2, h3, by rw [h4, this], fun hn => by rw [this, ← h4]; exact h5 hn⟩
    obtain ⟨i', h1, h2, h3, h4, h5⟩ := hhead
    unfold collect
    rw [h1]
    dsimp only
    cases hcur : i'.cur with
    | some u =>
      obtain ⟨b, is', g1, g2, g3, g4⟩ := collect_plain env mostly hc (n + 1) is hrest
      rw [if_pos (by simp), g1]
      refine ⟨b, i' :: is', rfl, .cons ⟨h2, h3, h4⟩ g2, fun hb j hj => ?_, fun hb => ?_⟩
      · rcases List.mem_cons.1 hj with rfl | hj
        · rw [hcur]; rfl
        · exact g3 hb j hj
      · obtain ⟨j, hj, hp⟩ := g4 hb
        exact ⟨j, List.mem_cons_of_mem _ hj, hp⟩
    | none =>
      rw [h3.noNum, h3.optional, hc]
      refine ⟨false, i' :: is, by simp, .cons ⟨h2, h3, h4⟩ (Same.refl hrest), fun hb => (by cases hb), fun _ => ⟨i, List.mem_cons_self .., h5 hcur⟩⟩

/-! ## Selection -/

theorem minmax_spec : ∀ (l : List Word) (a b : Word), a ≤ b → (minmax l (a, b)).1 ≤ a ∧ b ≤ (minmax l (a, b)).2 ∧
    (∀ x ∈ l, (minmax l (a, b)).1 ≤ x ∧ x ≤ (minmax l (a, b)).2) ∧ ((minmax l (a, b)).1 = a ∨ (minmax l (a, b)).1 ∈ l) ∧ ((minmax l (a, b)).2 = b ∨ (minmax l (a, b)).2 ∈ l)
  | [], a, b, _ => ⟨BitVec.le_refl _, BitVec.le_refl _, fun x hx => (by cases hx), Or.inl rfl, Or.inl rfl⟩
  | x :: l, a, b, hab => by
    unfold minmax
    by_cases h1 : x < a
    · rw [if_pos h1]
      obtain ⟨g1, g2, g3, g4, g5⟩ := minmax_spec l x b (by bv_omega)
      refine ⟨by bv_omega, g2, fun y hy => ?_, ?_, ?_⟩
      · rcases List.mem_cons.1 hy with rfl | hy
        · exact ⟨g1, by bv_omega⟩
        · exact g3 y hy
      · rcases g4 with g | g
        · exact Or.inr (by rw [g]; exact List.mem_cons_self ..)
        · exact Or.inr (List.mem_cons_of_mem _ g)
      · rcases g5 with g | g
        · exact Or.inl g
        · exact Or.inr (List.mem_cons_of_mem _ g)
    · rw [if_neg h1]
      by_cases h2 : x > b
      · rw [if_pos h2]
        obtain ⟨g1, g2, g3, g4, g5⟩ := minmax_spec l a x (by bv_omega)
        refine ⟨g1, by bv_omega, fun y hy => ?_, ?_, ?_⟩
        · rcases List.mem_cons.1 hy with rfl | hy
          · exact ⟨by bv_omega, g2⟩
          · exact g3 y hy
        · rcases g4 with g | g
          · exact Or.inl g
          · exact Or.inr (List.mem_cons_of_mem _ g)
        · rcases g5 with g | g
          · exact Or.inr (by rw [g]; exact List.mem_cons_self ..)
          · exact Or.inr (List.mem_cons_of_mem _ g)
      · rw [if_neg h2]
        obtain ⟨g1, g2, g3, g4, g5⟩ := minmax_spec l a b hab
        refine ⟨g1, g2, fun y hy => ?_, ?_, ?_⟩
        · rcases List.mem_cons.1 hy with rfl | hy
          · exact ⟨by bv_omega, by bv_omega⟩
          · exact g3 y hy
        · rcases g4 with g | g
          · exact Or.inl g
          · exact Or.inr (List.mem_cons_of_mem _ g)
        · rcases g5 with g | g
          · exact Or.inl g
          · exact Or.inr (List.mem_cons_of_mem _ g)

/-- All inputs with a current event. -/
def Ready (c : Cfg) (is : List Inp) (us : List Cur) : Prop := List.Forall₂ (fun i u => PlainInp c i ∧ i.cur = some u) is us

theorem ready_of {c : Cfg} : ∀ {is : List Inp}, (∀ i ∈ is, PlainInp c i) → (∀ i ∈ is, i.cur.isSome = true) → ∃ us, Ready c is us
  | [], _, _ => ⟨[], .nil⟩
  | i :: is, h, hc => by
    obtain ⟨us, hus⟩ := ready_of (fun j hj => h j (List.mem_cons_of_mem i hj)) fun j hj => hc j (List.mem_cons_of_mem i hj)
    obtain ⟨u, hu⟩ := Option.isSome_iff_exists.1 (hc i (List.mem_cons_self ..))
    exact ⟨u :: us, .cons ⟨h i (List.mem_cons_self ..), hu⟩ hus⟩

theorem Ready.numbered {c : Cfg} : ∀ {is : List Inp} {us : List Cur}, Ready c is us → numbered is = us
  | _, _, .nil => rfl
  | _, _, .cons h1 h2 => by
    unfold MbsComb.numbered
    rw [List.filterMap_cons_some (by rw [if_neg (by rw [h1.1.noNum]; decide), h1.2])]
    congr 1
    exact Ready.numbered h2

theorem Ready.special {c : Cfg} : ∀ {is : List Inp} {us : List Cur}, Ready c is us → (us.any fun u => u.special) = false
  | _, _, .nil => rfl
  | _, _, .cons h1 h2 => by
    rw [List.any_cons, (h1.1.cur _ h1.2).2, Ready.special h2]
    rfl

theorem Ready.selection {c : Cfg} {m : Word} : ∀ {is : List Inp} {us : List Cur}, Ready c is us → selection m false is = us.map fun u => if u.nr = m then some u else none
  | _, _, .nil => rfl
  | _, _, @List.Forall₂.cons _ _ _ i u is us h1 h2 => by
    unfold MbsComb.selection
    rw [h1.2]
    dsimp only
    rw [if_neg (by decide), h1.1.noNum, Bool.or_false, Ready.selection h2, List.map_cons]
    congr 1
    by_cases h : u.nr = m
    · rw [if_pos h, if_pos (by rw [h]; exact decide_eq_true rfl)]
    · rw [if_neg h, if_neg (by rw [decide_eq_true_eq]; exact h)]

/-- All are selected. -/
theorem ready_all {m : Word} {us : List Cur} (hm : ∀ u ∈ us, u.nr = m) : (us.map fun u => if u.nr = m then some u else none) = us.map some := by
  apply List.map_congr_left
  intro u hu
  rw [if_pos (hm u hu)]

theorem Ready.skipped_true {c : Cfg} {m : Word} (env : Env) : ∀ {is : List Inp} {us : List Cur} (n : Nat), Ready c is us → (∃ u ∈ us, u.nr ≠ m) →
    skipped env n (is.zip (us.map fun u => if u.nr = m then some u else none)) = true
  | _, _, _, .nil, h => by obtain ⟨u, hu, _⟩ := h; cases hu
  | _, _, n, @List.Forall₂.cons _ _ _ i v is us h1 h2, h => by
    rw [List.map_cons, List.zip_cons_cons]
    unfold skipped
    obtain ⟨u, hu, hn⟩ := h
    rcases List.mem_cons.1 hu with rfl | hu
    · rw [if_neg hn, h1.1.noNum, h1.1.optional]
      rfl
    · rw [Ready.skipped_true env (n + 1) h2 ⟨u, hu, hn⟩, Bool.or_true]

theorem Ready.skipped_false {c : Cfg} (env : Env) : ∀ {is : List Inp} {us : List Cur} (n : Nat), Ready c is us → skipped env n (is.zip (us.map some)) = false
  | _, _, _, .nil => rfl
  | _, _, n, .cons h1 h2 => by
    rw [List.map_cons, List.zip_cons_cons]
    unfold skipped
    rw [Ready.skipped_false env (n + 1) h2]
    rfl

theorem Ready.given {c : Cfg} : ∀ {is : List Inp} {us : List Cur}, Ready c is us → MbsComb.given (partsOf (is.zip (us.map some))) = (is.map Inp.cfg).zip (us.map Cur.ev)
  | _, _, .nil => rfl
  | _, _, .cons _ h2 => by
    have := Ready.given h2
    rw [given_partsOf] at this ⊢
    rw [List.map_cons, List.zip_cons_cons, List.map_cons, List.map_cons, List.zip_cons_cons, ← this]
    rfl

theorem Ready.header {c : Cfg} {is : List Inp} {us : List Cur} (h : Ready c is us) :
    MbsComb.header (is.zip (us.map some)) = leader (is.map Inp.cfg) (us.map Cur.ev) := by
  unfold MbsComb.header leader
  rw [← given_partsOf, h.given]
  dsimp only
  have hf : ((is.map Inp.cfg).zip (us.map Cur.ev)).find? (fun q => !q.1.opt && q.1.realMbs) = ((is.map Inp.cfg).zip (us.map Cur.ev)).find? fun q => q.1.realMbs := by
    induction h with
    | nil => rfl
    | @cons i u is us h1 _ ih =>
      rw [List.map_cons, List.map_cons, List.zip_cons_cons, List.find?_cons, List.find?_cons, ih]
      unfold ICfg.opt
      rw [h1.1.noNum, h1.1.optional]
      rfl
  rw [hf]
  cases ((is.map Inp.cfg).zip (us.map Cur.ev)).find? fun q => q.1.realMbs with
  | some q => rfl
  | none =>
    dsimp only
    cases h with
    | nil => rfl
    | cons _ _ => rfl

/-- The selected inputs go to their next event. -/
theorem advance_plain {c : Cfg} {m : Word} (skip : Bool) (F : Nat → List Ev) : ∀ {is : List Inp} {us : List Cur} (n : Nat), Ready c is us →
    (∀ l ∈ total F n is, l.Pairwise fun a b => key c a < key c b) → (∀ u ∈ us, m ≤ u.nr) →
    ∃ is', advance c skip (is.zip (us.map fun u => if u.nr = m then some u else none)) = some is' ∧ is'.map Inp.cfg = is.map Inp.cfg ∧ (∀ i ∈ is', PlainInp c i) ∧
      List.Forall₂ (Took c m) (total F n is) (total F n is') ∧
      ((∀ u ∈ us, u.nr = m) → total F n is = List.zipWith (fun u l => u :: l) (us.map Cur.ev) (total F n is')) ∧
      ((∃ u ∈ us, u.nr ≠ m) → ∃ l ∈ total F n is, ∀ e ∈ l, key c e ≠ m) ∧ (total F n is').length = us.length
  | _, _, _, .nil, _, _ => ⟨[], rfl, rfl, fun i hi => (by cases hi), .nil, fun _ => rfl, fun ⟨u, hu, _⟩ => (by cases hu), rfl⟩
  | _, _, n, @List.Forall₂.cons _ _ _ i u is us h1 h2, hs, hm => by
    obtain ⟨is', g1, g2, g3, g4, g5, g6, g7⟩ := advance_plain skip F (n + 1) h2 (fun l hl => hs l (by unfold total; exact List.mem_cons_of_mem _ hl))
      fun v hv => hm v (List.mem_cons_of_mem _ hv)
    have hp : pending i = u.ev :: (i.rest ++ i.queue.flatten) := by
      unfold pending
      rw [h1.2]
      rfl
    have hsi := hs (pending i ++ F n) (by unfold total; exact List.mem_cons_self ..)
    rw [hp, List.cons_append, List.pairwise_cons] at hsi
    have hk := (h1.1.cur u h1.2).1
    rw [List.map_cons, List.zip_cons_cons]
    unfold advance
    by_cases hu : u.nr = m
    · obtain ⟨i', k1, k2, k3, k4, k5⟩ := shift_plain h1.1
      rw [if_pos hu, h1.1.noNum, Bool.and_false, if_pos (by rfl), k1]
      dsimp only
      rw [g1]
      refine ⟨i' :: is', rfl, ?_, ?_, ?_, ?_, ?_, ?_⟩
      · rw [List.map_cons, List.map_cons, k2, g2]
      · intro j hj
        rcases List.mem_cons.1 hj with rfl | hj
        · exact k3
        · exact g3 j hj
      · unfold total
        refine .cons ⟨fun e he => ?_, Or.inr ⟨u.ev, hk.symm.trans hu, ?_⟩⟩ g4
        · rw [k4] at he
          have := hsi.1 e he
          rw [← hk, hu] at this
          intro hc
          rw [hc] at this
          bv_omega
        · rw [hp, k4]
          rfl
      · intro hall
        unfold total
        rw [List.map_cons, List.zipWith_cons_cons, ← g5 fun v hv => hall v (List.mem_cons_of_mem _ hv), hp, k4]
        rfl
      · rintro ⟨v, hv, hvn⟩
        rcases List.mem_cons.1 hv with rfl | hv
        · exact absurd hu hvn
        · obtain ⟨l, hl, hle⟩ := g6 ⟨v, hv, hvn⟩
          refine ⟨l, ?_, hle⟩
          unfold total
          exact List.mem_cons_of_mem _ hl
      · unfold total
        rw [List.length_cons, List.length_cons, g7]
    · rw [if_neg hu, if_neg (by simp)]
      dsimp only
      rw [g1]
      have hne : ∀ e ∈ pending i ++ F n, key c e ≠ m := by
        intro e he hc
        have h0 := hm u (List.mem_cons_self ..)
        rw [hp, List.cons_append] at he
        rcases List.mem_cons.1 he with rfl | he
        · exact hu (hk.trans hc)
        · have := hsi.1 e he
          rw [← hk, hc] at this
          bv_omega
      refine ⟨i :: is', rfl, ?_, ?_, ?_, ?_, ?_, ?_⟩
      · rw [List.map_cons, List.map_cons, g2]
      · intro j hj
        rcases List.mem_cons.1 hj with rfl | hj
        · exact h1.1
        · exact g3 j hj
      · unfold total
        exact .cons ⟨hne, Or.inl rfl⟩ g4
      · intro hall
        exact absurd (hall u (List.mem_cons_self ..)) hu
      · intro _
        refine ⟨pending i ++ F n, ?_, hne⟩
        unfold total
        exact List.mem_cons_self ..
      · unfold total
        rw [List.length_cons, List.length_cons, g7]

/-! ## Building -/

theorem built_room (sel : List (Inp × Option Cur)) (h : Ev) : (built sel h).room = 16 + ((sel.filterMap fun q => q.2.map fun u => u.ev).map subsSize).sum := by
  unfold built Ev.room
  dsimp only
  congr 1
  rw [given_evs (f := Ev.subs), List.map_filterMap]
  induction sel with
  | nil => rfl
  | cons q sel ih =>
    obtain ⟨i, o⟩ := q
    cases o with
    | none => exact ih
    | some u =>
      show ((u.ev.subs ++ (List.filterMap (fun q => Option.map (fun u => u.ev.subs) q.2) sel).flatten).map Sub.room).sum =
        subsSize u.ev + (List.filterMap (fun x => Option.map subsSize (Option.map (fun u => u.ev) x.2)) sel).sum
      rw [List.map_append, List.sum_append, ih]
      rfl

theorem produce_defined {env : Env} {s : St} {sel : List (Inp × Option Cur)} {h : Ev} (hh : header sel = some h) : ∃ q, produce env s sel = some q := by
  unfold produce
  rw [hh]
  dsimp only
  split
  · exact ⟨_, rfl⟩
  · split
    · exact ⟨_, rfl⟩
    · split
      · exact ⟨_, rfl⟩
      · split <;> exact ⟨_, rfl⟩

theorem produce_fits {env : Env} {s s' : St} {sel : List (Inp × Option Cur)} {h : Ev} (hh : header sel = some h)
    (hfit : ∀ cap, env.pool = some cap → (built sel h).room ≤ cap) (hlt : (built sel h).room < 2 ^ 32) (hp : produce env s sel = some (s', true)) :
    outputs s' = outputs s ++ [built sel h] := by
  have hroom := built_room sel h
  unfold produce at hp
  rw [hh] at hp
  dsimp only at hp
  have hmod : ((sel.filterMap fun q => q.2.map fun u => u.ev).map subsSize).sum % 2 ^ 32 = ((sel.filterMap fun q => q.2.map fun u => u.ev).map subsSize).sum :=
    Nat.mod_eq_of_lt (by omega)
  rw [hmod] at hp
  generalize hsz : ((sel.filterMap fun q => q.2.map fun u => u.ev).map subsSize).sum = size at hp hroom
  have hev : ((sel.filterMap fun q => q.2.map fun u => u.ev).map Ev.subs) = (given (partsOf sel)).map fun q => q.2.subs := by
    rw [given_evs, List.map_filterMap]
    congr 1
    funext q
    cases q with
    | mk i o => cases o <;> rfl
  rw [hev] at hp
  have key : ∃ s2 o, takeOut env (makeRoom env size s).1 = (s2, true) ∧ s2.out = some o ∧ place o size = true ∧ outputs s2 = outputs s := by
    split at hp
    · injection hp with hp; injection hp with _ hp; cases hp
    · rename_i hr
      split at hp
      · injection hp with hp; injection hp with _ hp; cases hp
      · rename_i ht
        have hfresh : ∀ s1 : St, s1.out = none → outputs s1 = outputs s → ¬ (!(takeOut env s1).2) = true →
            ∃ s2 o, takeOut env s1 = (s2, true) ∧ s2.out = some o ∧ place o size = true ∧ outputs s2 = outputs s := by
          intro s1 ho hout ht
          unfold takeOut at ht ⊢
          rw [ho] at ht ⊢
          dsimp only at ht ⊢
          cases hpool : env.pool with
          | none => rw [hpool] at ht; exact absurd rfl ht
          | some cap =>
            rw [hpool] at ht
            dsimp only at ht ⊢
            split
            · rename_i hc
              rw [if_pos hc] at ht
              exact absurd rfl ht
            · refine ⟨_, _, rfl, rfl, ?_, ?_⟩
              · unfold place bytesOf
                rw [decide_eq_true_eq]
                have := hfit cap hpool
                rw [hroom] at this
                simpa using this
              · rw [← hout]
                unfold outputs
                rw [ho]
        unfold makeRoom at hr ht ⊢
        cases ho : s.out with
        | none =>
          rw [ho] at hr ht
          exact hfresh s ho rfl ht
        | some o =>
          rw [ho] at hr ht
          dsimp only at hr ht ⊢
          by_cases hpl : place o size = true
          · rw [if_pos hpl]
            refine ⟨s, o, ?_, ho, hpl, rfl⟩
            unfold takeOut
            rw [ho]
          · rw [if_neg hpl] at hr ht ⊢
            have hfl : (flushBuffer env.canSend s).1.out = none := by
              unfold flushBuffer at hr ⊢
              rw [ho] at hr ⊢
              obtain ⟨n, l⟩ := o
              cases l with
              | nil => exact absurd rfl hr
              | cons e l =>
                dsimp only at hr ⊢
                split
                · rfl
                · rename_i hcs
                  rw [if_neg hcs] at hr
                  exact absurd rfl hr
            exact hfresh _ hfl (flush_outputs _ _).1 ht
  obtain ⟨s2, o, h1, h2, h3, h4⟩ := key
  rw [h1] at hp
  split at hp
  · injection hp with hp; injection hp with _ hp; cases hp
  · rw [if_neg (by simp)] at hp
    dsimp only at hp
    rw [h2] at hp
    dsimp only at hp
    rw [h3, if_neg (by decide)] at hp
    injection hp with hp
    injection hp with hp _
    have hout : outputs { s2 with out := some (o.1, o.2 ++ [built sel h]) } = outputs s ++ [built sel h] := by
      rw [← h4]
      unfold outputs
      rw [h2]
      simp
    split at hp
    · rw [← hp]
      exact hout
    · rw [← hp, (flush_outputs _ _).1]
      exact hout

/-- The output buffer is never left empty. -/
def OutOk (s : St) : Prop := ∀ n, s.out ≠ some (n, [])

theorem flush_outOk (b : Bool) (s : St) (h : OutOk s) : OutOk (flushBuffer b s).1 := by
  unfold flushBuffer
  split
  · exact h
  · exact h
  · split
    · intro n hn; cases hn
    · exact h

theorem flush_free {s : St} (h : OutOk s) {o : Nat × List Ev} (ho : s.out = some o) : (flushBuffer true s).2 = true := by
  unfold flushBuffer
  rw [ho]
  obtain ⟨n, l⟩ := o
  cases l with
  | nil => exact absurd ho (h n)
  | cons e l => rfl

/-- With room for the event in the buffers of the pool. -/
theorem produce_out {env : Env} {s s' : St} {sel : List (Inp × Option Cur)} {h : Ev} {b : Bool} (hs : OutOk s) (hh : header sel = some h)
    (hfit : ∀ cap, env.pool = some cap → 28 ≤ cap ∧ (built sel h).room ≤ cap) (hp : produce env s sel = some (s', b)) :
    OutOk s' ∧ (Free env → b = true) := by
  have hroom := built_room sel h
  unfold produce at hp
  rw [hh] at hp
  dsimp only at hp
  have hmod := Nat.mod_le ((sel.filterMap fun q => q.2.map fun u => u.ev).map subsSize).sum (2 ^ 32)
  generalize ((sel.filterMap fun q => q.2.map fun u => u.ev).map subsSize).sum % 2 ^ 32 = size at hp hmod
  generalize hr : makeRoom env size s = r at hp
  have h1 : OutOk r.1 ∧ (Free env → r.2 = true) ∧ ∀ o, r.1.out = some o → place o size = true ∨ r.2 = false := by
    rw [← hr]
    unfold makeRoom
    cases ho : s.out with
    | none => exact ⟨hs, fun _ => rfl, fun o h => by rw [ho] at h; cases h⟩
    | some o =>
      dsimp only
      split
      · rename_i hpl
        refine ⟨hs, fun _ => rfl, fun o' h => ?_⟩
        rw [ho] at h
        injection h with h
        subst h
        exact Or.inl hpl
      · refine ⟨flush_outOk _ s hs, fun hf => by rw [hf.1]; exact flush_free hs ho, fun o' h => Or.inr ?_⟩
        unfold flushBuffer at h ⊢
        rw [ho] at h ⊢
        obtain ⟨n, l⟩ := o
        cases l with
        | nil => rfl
        | cons e l =>
          dsimp only at h ⊢
          split
          · rename_i hc
            rw [if_pos hc] at h
            cases h
          · rfl
  clear hr
  split at hp
  · rename_i hn
    injection hp with hp
    injection hp with hp1 hp2
    subst hp1
    refine ⟨h1.1, fun hf => ?_⟩
    rw [h1.2.1 hf] at hn
    cases hn
  · rename_i hn
    have hr2 : r.2 = true := by simpa using hn
    generalize ht : takeOut env r.1 = t at hp
    have h2 : (t.2 = false → t.1 = r.1) ∧ (Free env → t.2 = true) ∧ (t.2 = true → ∃ o, t.1.out = some o ∧ place o size = true) := by
      rw [← ht]
      unfold takeOut
      cases ho : r.1.out with
      | some o =>
        dsimp only
        refine ⟨fun h => (by cases h), fun _ => rfl, fun _ => ⟨o, ho, ?_⟩⟩
        rcases h1.2.2 o ho with h | h
        · exact h
        · rw [hr2] at h; cases h
      | none =>
        dsimp only
        cases hpool : env.pool with
        | none =>
          refine ⟨fun _ => rfl, fun hf => ?_, fun h => (by cases h)⟩
          have := hf.2
          rw [hpool] at this
          cases this
        | some cap =>
          dsimp only
          obtain ⟨g1, g2⟩ := hfit cap hpool
          rw [if_neg (by omega)]
          refine ⟨fun h => (by cases h), fun _ => rfl, fun _ => ⟨(cap, []), rfl, ?_⟩⟩
          unfold place bytesOf
          rw [decide_eq_true_eq]
          rw [hroom] at g2
          show 0 + 16 + size ≤ cap
          omega
    split at hp
    · rename_i htn
      have htf : t.2 = false := by simpa using htn
      injection hp with hp
      injection hp with hp1 hp2
      subst hp1
      refine ⟨by rw [h2.1 htf]; exact h1.1, fun hf => ?_⟩
      rw [h2.2.1 hf] at htf
      cases htf
    · rename_i htn
      obtain ⟨o, ho, hpl⟩ := h2.2.2 (by simpa using htn)
      rw [ho] at hp
      dsimp only at hp
      rw [hpl, if_neg (by decide)] at hp
      injection hp with hp
      injection hp with hp1 hp2
      refine ⟨?_, fun _ => hp2.symm⟩
      have hok : ∀ e : Ev, OutOk { t.1 with out := some (o.1, o.2 ++ [e]) } := by
        intro e n hn
        injection hn with hn
        injection hn with _ hn
        exact absurd hn (by simp)
      rw [← hp1]
      split
      · exact hok _
      · exact flush_outOk _ _ (hok _)

/-- Events in all lists. -/
def count (ls : List (List Ev)) : Nat := (ls.map List.length).sum

theorem took_count {c : Cfg} {m : Word} {ls ls' : List (List Ev)} (h : List.Forall₂ (Took c m) ls ls') : count ls' ≤ count ls ∧ ((∃ l ∈ ls, ∃ e ∈ l, key c e = m) → count ls' < count ls) := by
  induction h with
  | nil => exact ⟨Nat.le_refl _, fun ⟨l, hl, _⟩ => (by cases hl)⟩
  | @cons l l' ls ls' h _ ih =>
    have e1 : count (l :: ls) = l.length + count ls := rfl
    have e2 : count (l' :: ls') = l'.length + count ls' := rfl
    rw [e1, e2]
    rcases h.2 with rfl | ⟨u, hu, rfl⟩
    · refine ⟨by omega, ?_⟩
      rintro ⟨k, hk, e, he, hm⟩
      rcases List.mem_cons.1 hk with rfl | hk
      · exact absurd hm (h.1 e he)
      · have := ih.2 ⟨k, hk, e, he, hm⟩
        omega
    · rw [List.length_cons]
      exact ⟨by omega, fun _ => by omega⟩

theorem sub_took {c : Cfg} {m : Word} {ls ls' : List (List Ev)} (h : List.Forall₂ (Took c m) ls ls') : List.Forall₂ List.Sublist ls' ls := by
  induction h with
  | nil => exact .nil
  | cons h _ ih =>
    refine .cons ?_ ih
    rcases h.2 with rfl | ⟨u, _, rfl⟩
    · exact List.Sublist.refl _
    · exact List.sublist_cons_self _ _

theorem sub_refl : ∀ (ls : List (List Ev)), List.Forall₂ List.Sublist ls ls
  | [] => .nil
  | l :: ls => .cons (List.Sublist.refl l) (sub_refl ls)

theorem sub_trans {a b d : List (List Ev)} (h : List.Forall₂ List.Sublist a b) (h' : List.Forall₂ List.Sublist b d) : List.Forall₂ List.Sublist a d := by
  induction h generalizing d with
  | nil => exact h'
  | cons h1 _ ih =>
    cases h' with
    | cons g1 g2 => exact .cons (h1.trans g1) (ih g2)

theorem sub_mem {ls ls' : List (List Ev)} (h : List.Forall₂ List.Sublist ls ls') : ∀ l ∈ ls, ∃ l' ∈ ls', l.Sublist l' := by
  induction h with
  | nil => intro l hl; cases hl
  | @cons a b _ _ h1 _ ih =>
    intro l hl
    rcases List.mem_cons.1 hl with rfl | hl
    · exact ⟨b, List.mem_cons_self .., h1⟩
    · obtain ⟨l', h2, h3⟩ := ih l hl
      exact ⟨l', List.mem_cons_of_mem _ h2, h3⟩

theorem Ready.cur_mem {c : Cfg} {F : Nat → List Ev} : ∀ {is : List Inp} {us : List Cur} (n : Nat), Ready c is us → ∀ u ∈ us, u.nr = key c u.ev ∧ ∃ l ∈ total F n is, u.ev ∈ l
  | _, _, _, .nil, u, hu => by cases hu
  | _, _, n, @List.Forall₂.cons _ _ _ i v is us h1 h2, u, hu => by
    unfold total
    rcases List.mem_cons.1 hu with rfl | hu
    · refine ⟨(h1.1.cur u h1.2).1, _, List.mem_cons_self .., ?_⟩
      unfold pending
      rw [h1.2]
      exact List.mem_cons_self ..
    · obtain ⟨g1, l, g2, g3⟩ := Ready.cur_mem (n + 1) h2 u hu
      exact ⟨g1, l, List.mem_cons_of_mem _ g2, g3⟩

theorem numbers_near {c : Cfg} {l : List Word} {x : Word} (h : ∀ a ∈ x :: l, ∀ b ∈ x :: l, a.toNat - b.toNat ≤ c.mask.toNat / 2) :
    (numbers c (minmax l (x, x))).2 ∈ x :: l ∧ (∀ a ∈ x :: l, (numbers c (minmax l (x, x))).2 ≤ a) ∧ (numbers c (minmax l (x, x))).1 = (minmax l (x, x)).2 - (minmax l (x, x)).1 := by
  obtain ⟨g1, g2, g3, g4, g5⟩ := minmax_spec l x x (BitVec.le_refl _)
  have m1 : (minmax l (x, x)).1 ∈ x :: l := by
    rcases g4 with g | g
    · rw [g]; exact List.mem_cons_self ..
    · exact List.mem_cons_of_mem _ g
  have m2 : (minmax l (x, x)).2 ∈ x :: l := by
    rcases g5 with g | g
    · rw [g]; exact List.mem_cons_self ..
    · exact List.mem_cons_of_mem _ g
  have hd := h _ m2 _ m1
  unfold numbers
  rw [if_neg]
  · refine ⟨m1, fun a ha => ?_, rfl⟩
    rcases List.mem_cons.1 ha with rfl | ha
    · exact g1
    · exact (g3 a ha).1
  · have hle : (minmax l (x, x)).1 ≤ (minmax l (x, x)).2 := by bv_omega
    generalize (minmax l (x, x)).1 = a at *
    generalize (minmax l (x, x)).2 = b at *
    rw [gt_iff_lt, BitVec.lt_def, BitVec.toNat_sub_of_le hle, BitVec.toNat_udiv]
    show ¬ c.mask.toNat / 2 < _
    omega

/-- What a call does with the expected events. -/
def Step (c : Cfg) (ks : List ICfg) (F : Nat → List Ev) (s s' : St) : Prop :=
  s'.inps.map Inp.cfg = ks ∧ (∀ i ∈ s'.inps, PlainInp c i) ∧ List.Forall₂ List.Sublist (total F 0 s'.inps) (total F 0 s.inps) ∧
    outputs s' ++ expected c ks (total F 0 s'.inps) = outputs s ++ expected c ks (total F 0 s.inps)

theorem Step.same {c : Cfg} {ks : List ICfg} {F : Nat → List Ev} {s s' : St} (hk : s.inps.map Inp.cfg = ks) (h : Same c s.inps s'.inps) (ho : outputs s' = outputs s) : Step c ks F s s' := by
  refine ⟨h.cfgs.trans hk, h.plain, ?_, ?_⟩
  · rw [h.total 0]
    exact sub_refl _
  · rw [h.total 0, ho]

theorem Step.trans {c : Cfg} {ks : List ICfg} {F : Nat → List Ev} {s s' s'' : St} (h : Step c ks F s s') (h' : Step c ks F s' s'') : Step c ks F s s'' :=
  ⟨h'.1, h'.2.1, sub_trans h'.2.2.1 h.2.2.1, h'.2.2.2.trans h.2.2.2⟩

theorem assemble_plain {c : Cfg} {ks : List ICfg} {env : Env} {s : St} {F : Nat → List Ev} {us : List Cur} (hc : c.complete = true) (hk : s.inps.map Inp.cfg = ks)
    (hus : Ready c s.inps us) (hreg : Regular c ks (total F 0 s.inps)) (hg : Good (expected c ks (total F 0 s.inps)) env) :
    ∃ s' b, assemble c env s = some (s', b) ∧ Step c ks F s s' ∧ (OutOk s → OutOk s') ∧ (b = true → count (total F 0 s'.inps) < count (total F 0 s.inps)) ∧
      (OutOk s → Free env → Within c (total F 0 s.inps) → us ≠ [] → b = true) := by
  have hplain : ∀ i ∈ s.inps, PlainInp c i := by
    clear hreg hg hk
    generalize s.inps = is at hus
    induction hus with
    | nil => intro i hi; cases hi
    | cons h1 _ ih =>
      intro i hi
      rcases List.mem_cons.1 hi with rfl | hi
      · exact h1.1
      · exact ih i hi
  unfold assemble
  rw [hus.numbered]
  cases hnr : us.map fun u => u.nr with
  | nil =>
    refine ⟨_, _, rfl, Step.same hk (Same.refl hplain) rfl, id, fun hb => (by cases hb), fun _ _ _ hne => absurd (List.map_eq_nil_iff.1 hnr) hne⟩
  | cons x l =>
    dsimp only
    have hnear : ∀ a ∈ x :: l, ∀ b ∈ x :: l, a.toNat - b.toNat ≤ c.mask.toNat / 2 := by
      rw [← hnr]
      intro a ha b hb
      obtain ⟨u, hu, rfl⟩ := List.mem_map.1 ha
      obtain ⟨v, hv, rfl⟩ := List.mem_map.1 hb
      obtain ⟨h1, l1, h2, h3⟩ := hus.cur_mem (F := F) 0 u hu
      obtain ⟨g1, l2, g2, g3⟩ := hus.cur_mem (F := F) 0 v hv
      rw [h1, g1]
      exact hreg.near l1 h2 l2 g2 _ h3 _ g3
    obtain ⟨n1, n2, n3⟩ := numbers_near hnear
    have hwithin : Within c (total F 0 s.inps) → ¬ (decide (c.tolerance > 0) && decide ((numbers c (minmax l (x, x))).1 > c.tolerance)) = true := by
      intro hw
      rw [n3, Bool.and_eq_true, decide_eq_true_eq, decide_eq_true_eq]
      rcases hw with hw | hw
      · rw [hw]
        intro h
        exact absurd h.1 (by decide)
      · obtain ⟨g1, g2, g3, g4, g5⟩ := minmax_spec l x x (BitVec.le_refl _)
        have m1 : (minmax l (x, x)).1 ∈ us.map fun u => u.nr := by
          rw [hnr]
          rcases g4 with g | g
          · rw [g]; exact List.mem_cons_self ..
          · exact List.mem_cons_of_mem _ g
        have m2 : (minmax l (x, x)).2 ∈ us.map fun u => u.nr := by
          rw [hnr]
          rcases g5 with g | g
          · rw [g]; exact List.mem_cons_self ..
          · exact List.mem_cons_of_mem _ g
        obtain ⟨u, hu, hu'⟩ := List.mem_map.1 m2
        obtain ⟨v, hv, hv'⟩ := List.mem_map.1 m1
        obtain ⟨k1, l1, k2, k3⟩ := hus.cur_mem (F := F) 0 u hu
        obtain ⟨j1, l2, j2, j3⟩ := hus.cur_mem (F := F) 0 v hv
        have := hw l1 k2 l2 j2 _ k3 _ j3
        rw [← k1, ← j1, hu', hv'] at this
        have hle : (minmax l (x, x)).1 ≤ (minmax l (x, x)).2 := by bv_omega
        generalize (minmax l (x, x)).1 = a at *
        generalize (minmax l (x, x)).2 = b at *
        rw [gt_iff_lt, gt_iff_lt, BitVec.lt_def, BitVec.lt_def, BitVec.toNat_sub_of_le hle]
        omega
    generalize numbers c (minmax l (x, x)) = r at n1 n2 hwithin ⊢
    rw [hus.special]
    split
    · rename_i htol
      refine ⟨_, _, rfl, Step.same hk (Same.refl hplain) rfl, id, fun hb => (by cases hb), fun _ _ hw _ => absurd ?_ (hwithin hw)⟩
      simpa using htol
    · rw [hus.selection]
      have hmin : ∀ u ∈ us, r.2 ≤ u.nr := by
        intro u hu
        apply n2
        rw [← hnr]
        exact List.mem_map_of_mem (f := fun u => u.nr) hu
      obtain ⟨is', a1, a2, a3, a4, a5, a6, a7⟩ := advance_plain (skips c env false (s.inps.zip (us.map fun u => if u.nr = r.2 then some u else none))) F 0 hus hreg.sorted hmin
      have hcount : count (total F 0 is') < count (total F 0 s.inps) := by
        apply (took_count a4).2
        rw [← hnr] at n1
        obtain ⟨u, hu, hu'⟩ := List.mem_map.1 n1
        obtain ⟨k1, l1, k2, k3⟩ := hus.cur_mem (F := F) 0 u hu
        exact ⟨l1, k2, _, k3, k1.symm.trans hu'⟩
      by_cases hall : ∀ u ∈ us, u.nr = r.2
      · have hsel := ready_all hall
        rw [hsel] at a1 ⊢
        have htot := a5 hall
        have htl : (us.map Cur.ev).length = (total F 0 is').length := by rw [List.length_map, a7]
        have hne : ∀ l ∈ total F 0 is', ∀ e ∈ l, key c e ≠ r.2 := by
          clear htot htl a7 a6 a5 hcount hwithin
          generalize total F 0 s.inps = t at a4
          generalize total F 0 is' = t' at a4
          induction a4 with
          | nil => intro l hl; cases hl
          | cons h _ ih =>
            intro l hl
            rcases List.mem_cons.1 hl with rfl | hl
            · exact h.1
            · exact ih l hl
        have hexp : expected c ks (total F 0 s.inps) = (merge ks (us.map Cur.ev)).toList ++ expected c ks (total F 0 is') := by
          rw [htot]
          refine expected_take htl ?_ hne
          intro e he
          obtain ⟨u, hu, rfl⟩ := List.mem_map.1 he
          rw [← (hus.cur_mem (F := F) 0 u hu).1]
          exact hall u hu
        obtain ⟨h, hh⟩ : ∃ h, header (s.inps.zip (us.map some)) = some h := by
          rw [hus.header]
          unfold leader
          cases (((s.inps.map Inp.cfg).zip (us.map Cur.ev)).find? fun q => q.1.realMbs) with
          | some q => exact ⟨_, rfl⟩
          | none =>
            dsimp only
            cases us with
            | nil => cases hnr
            | cons u us => exact ⟨_, rfl⟩
        have hmerge : merge ks (us.map Cur.ev) = some (built (s.inps.zip (us.map some)) h) := by
          unfold merge
          rw [← hk, ← hus.header, hh]
          unfold built
          rw [hus.given]
          dsimp only [Option.map_some]
          congr 3
          have hlen : us.length ≤ s.inps.length := by rw [List.Forall₂.length_eq hus]
          have hz : ((s.inps.map Inp.cfg).zip (us.map Cur.ev)).map Prod.snd = us.map Cur.ev := List.map_snd_zip (by simpa using hlen)
          rw [← hz, List.map_map, hz]
          rfl
        rw [hmerge] at hexp
        have hin : built (s.inps.zip (us.map some)) h ∈ expected c ks (total F 0 s.inps) := by
          rw [hexp]
          exact List.mem_cons_self ..
        have hskip : skips c env false (s.inps.zip (us.map some)) = false := by
          unfold skips
          rw [hus.skipped_false env 0]
          cases hci : c.checkIds with
          | false => simp
          | true =>
            have := hreg.ids hci _ hin
            unfold built at this
            dsimp only at this
            rw [List.map_flatten, List.map_map] at this
            have hid := given_evs (s.inps.zip (us.map some)) (f := fun e => e.subs.map Sub.id)
            rw [show (List.map Sub.id ∘ fun q : ICfg × Ev => q.2.subs) = fun q => q.2.subs.map Sub.id from rfl, hid] at this
            simp [this]
        rw [hskip] at a1 ⊢
        rw [if_neg (by decide)]
        cases hp : produce env s (s.inps.zip (us.map some)) with
        | none =>
          obtain ⟨q, hq⟩ := produce_defined (env := env) (s := s) hh
          rw [hq] at hp
          cases hp
        | some q =>
          obtain ⟨s1, b⟩ := q
          obtain ⟨hi, ho⟩ := produce_spec hp
          have hout := fun hs => produce_out hs hh (fun cap hcap => ⟨(hg.2.1 cap hcap).1, (hg.2.1 cap hcap).2 _ hin⟩) hp
          cases b with
          | false =>
            refine ⟨_, _, rfl, Step.same hk ?_ ?_, fun hs => (hout hs).1, fun hb => (by cases hb), fun hs hf _ _ => (hout hs).2 hf⟩
            · rw [hi]
              exact Same.refl hplain
            · rcases ho with ho | ⟨hb, _⟩
              · exact ho
              · cases hb
          | true =>
            dsimp only
            rw [a1]
            have ho := produce_fits hh (fun cap hcap => (hg.2.1 cap hcap).2 _ hin) (hg.2.2 _ hin) hp
            refine ⟨_, _, rfl, ⟨a2.trans hk, a3, sub_took a4, ?_⟩, fun hs => (hout hs).1, fun _ => hcount, fun _ _ _ _ => rfl⟩
            show outputs s1 ++ _ = _
            rw [ho, hexp, List.append_assoc]
            rfl
      · have hex : ∃ u ∈ us, u.nr ≠ r.2 := by
          simpa using hall
        have hskip : skips c env false (s.inps.zip (us.map fun u => if u.nr = r.2 then some u else none)) = true := by
          unfold skips
          rw [hus.skipped_true env 0 hex, hc]
          rfl
        rw [hskip] at a1 ⊢
        rw [if_pos rfl]
        dsimp only
        rw [a1]
        refine ⟨_, _, rfl, ⟨a2.trans hk, a3, sub_took a4, ?_⟩, id, fun _ => hcount, fun _ _ _ _ => rfl⟩
        show outputs s ++ _ = _
        rw [expected_skip a4 (a6 hex)]

theorem anyInp_false {f : Nat → Inp → Bool} : ∀ (n : Nat) (is : List Inp), (∀ n, ∀ i ∈ is, f n i = false) → anyInp f n is = false
  | _, [], _ => rfl
  | n, i :: is, h => by
    unfold anyInp
    rw [h n i (List.mem_cons_self ..), anyInp_false (n + 1) is fun m j hj => h m j (List.mem_cons_of_mem _ hj)]
    rfl

theorem Good.connected {l : List Ev} {env : Env} (h : Good l env) (is : List Inp) : anyInp (fun n i => !i.cfg.opt && !env.connected n) 0 is = false := by
  apply anyInp_false
  intro n i _
  rw [h.1 n]
  simp

theorem buildEvent_plain {c : Cfg} {ks : List ICfg} {env : Env} {s : St} {F : Nat → List Ev} (hc : c.complete = true) (hk : s.inps.map Inp.cfg = ks)
    (hp : ∀ i ∈ s.inps, PlainInp c i) (hreg : Regular c ks (total F 0 s.inps)) (hg : Good (expected c ks (total F 0 s.inps)) env) :
    ∃ s' b, buildEvent c env s = some (s', b) ∧ Step c ks F s s' ∧ (OutOk s → OutOk s') ∧ (b = true → count (total F 0 s'.inps) < count (total F 0 s.inps)) ∧
      (OutOk s → Free env → Within c (total F 0 s.inps) → (∀ i ∈ s.inps, pending i ≠ []) → s.inps ≠ [] → b = true) := by
  unfold buildEvent
  dsimp only
  rw [hg.connected, Bool.false_and, if_neg (by decide)]
  obtain ⟨b, is', h1, h2, h3, h4⟩ := collect_plain env (anyInp (fun n i => !i.cfg.opt && env.full n) 0 s.inps) hc 0 s.inps hp
  rw [h1]
  cases b with
  | false =>
    refine ⟨_, _, rfl, Step.same hk h2 rfl, id, fun hb => (by cases hb), fun _ _ _ hn _ => ?_⟩
    obtain ⟨i, hi, he⟩ := h4 rfl
    exact absurd he (hn i hi)
  | true =>
    dsimp only
    obtain ⟨us, hus⟩ := ready_of h2.plain (h3 rfl)
    have htot := Same.total (F := F) 0 h2
    obtain ⟨s', b, g1, g2, g3, g4, g5⟩ := assemble_plain (env := env) (s := { s with inps := is' }) hc (h2.cfgs.trans hk) hus (by rw [htot]; exact hreg) (by rw [htot]; exact hg)
    refine ⟨s', b, g1, Step.trans (s' := { s with inps := is' }) (Step.same hk h2 rfl) g2, g3, fun hb => by rw [← htot]; exact g4 hb, fun ho hf hw _ hne => ?_⟩
    refine g5 ho hf (by rw [htot]; exact hw) fun hnil => hne ?_
    have hl1 := List.Forall₂.length_eq hus
    have hl2 := List.Forall₂.length_eq h2
    have hl1 : is'.length = us.length := hl1
    rw [hnil, List.length_nil] at hl1
    exact List.eq_nil_of_length_eq_zero (hl2.trans hl1)

/-! ## Runs -/

/-- Nothing that is expected is lost, and nothing else given out; `A` is all that arrives. -/
structure ExInv (c : Cfg) (ks : List ICfg) (A : List (List Ev)) (F : Nat → List Ev) (s : St) : Prop where
  cfgs : s.inps.map Inp.cfg = ks
  plain : ∀ i ∈ s.inps, PlainInp c i
  sub : List.Forall₂ List.Sublist (total F 0 s.inps) A
  eq : outputs s ++ expected c ks (total F 0 s.inps) = expected c ks A
  out : OutOk s

theorem ExInv.expected_mem {c : Cfg} {ks : List ICfg} {A : List (List Ev)} {F : Nat → List Ev} {s : St} (h : ExInv c ks A F s) {e : Ev}
    (he : e ∈ expected c ks (total F 0 s.inps)) : e ∈ expected c ks A := by
  rw [← h.eq]
  exact List.mem_append_right _ he

theorem ExInv.regular {c : Cfg} {ks : List ICfg} {A : List (List Ev)} {F : Nat → List Ev} {s : St} (h : ExInv c ks A F s) (hr : Regular c ks A) :
    Regular c ks (total F 0 s.inps) := by
  have hm := sub_mem h.sub
  refine ⟨fun l hl => ?_, fun l hl l' hl' a ha b hb => ?_, fun l hl e he => ?_, fun hc e he => hr.ids hc e (h.expected_mem he)⟩
  · obtain ⟨k, hk, hs⟩ := hm l hl
    exact (hr.sorted k hk).sublist hs
  · obtain ⟨k, hk, hs⟩ := hm l hl
    obtain ⟨k', hk', hs'⟩ := hm l' hl'
    exact hr.near k hk k' hk' a (hs.subset ha) b (hs'.subset hb)
  · obtain ⟨k, hk, hs⟩ := hm l hl
    exact hr.usual k hk e (hs.subset he)

theorem ExInv.good {c : Cfg} {ks : List ICfg} {A : List (List Ev)} {F : Nat → List Ev} {s : St} (h : ExInv c ks A F s) {env : Env} (hg : Good (expected c ks A) env) :
    Good (expected c ks (total F 0 s.inps)) env :=
  ⟨hg.1, fun cap hcap => ⟨(hg.2.1 cap hcap).1, fun e he => (hg.2.1 cap hcap).2 e (h.expected_mem he)⟩, fun e he => hg.2.2 e (h.expected_mem he)⟩

theorem ExInv.step {c : Cfg} {ks : List ICfg} {A : List (List Ev)} {F : Nat → List Ev} {s s' : St} (h : ExInv c ks A F s) (hs : Step c ks F s s') (ho : OutOk s') : ExInv c ks A F s' :=
  ⟨hs.1, hs.2.1, sub_trans hs.2.2.1 h.sub, hs.2.2.2.trans h.eq, ho⟩

theorem ExInv.build {c : Cfg} {ks : List ICfg} {A : List (List Ev)} {F : Nat → List Ev} {s : St} {env : Env} (h : ExInv c ks A F s) (hc : c.complete = true)
    (hr : Regular c ks A) (hg : Good (expected c ks A) env) : ∃ s' b, buildEvent c env s = some (s', b) ∧ ExInv c ks A F s' := by
  obtain ⟨s', b, h1, h2, h3, _⟩ := buildEvent_plain hc h.cfgs h.plain (h.regular hr) (h.good hg)
  exact ⟨s', b, h1, h.step h2 (h3 h.out)⟩

theorem ExInv.loop {c : Cfg} {ks : List ICfg} {A : List (List Ev)} {F : Nat → List Ev} (hc : c.complete = true) (hr : Regular c ks A) :
    ∀ (envs : List Env) {s : St}, (∀ env ∈ envs, Good (expected c ks A) env) → ExInv c ks A F s → ∃ s', buildLoop c envs s = some s' ∧ ExInv c ks A F s'
  | [], s, _, h => ⟨s, rfl, h⟩
  | env :: envs, s, hg, h => by
    obtain ⟨s1, b, h1, h2⟩ := h.build hc hr (hg env (List.mem_cons_self ..))
    unfold buildLoop
    rw [h1]
    cases b with
    | true => exact ExInv.loop hc hr envs (fun e he => hg e (List.mem_cons_of_mem _ he)) h2
    | false => exact ⟨s1, rfl, h2⟩

theorem ExInv.flush {c : Cfg} {ks : List ICfg} {A : List (List Ev)} {F : Nat → List Ev} {s : St} (h : ExInv c ks A F s) (b b' : Bool) :
    ExInv c ks A F { (flushBuffer b s).1 with flush := b' } := by
  obtain ⟨h1, h2⟩ := flush_outputs b s
  refine ⟨?_, ?_, ?_, ?_, flush_outOk b s h.out⟩
  · show (flushBuffer b s).1.inps.map Inp.cfg = ks
    rw [h2]; exact h.cfgs
  · show ∀ i ∈ (flushBuffer b s).1.inps, PlainInp c i
    rw [h2]; exact h.plain
  · show List.Forall₂ List.Sublist (total F 0 (flushBuffer b s).1.inps) A
    rw [h2]; exact h.sub
  · show outputs (flushBuffer b s).1 ++ expected c ks (total F 0 (flushBuffer b s).1.inps) = _
    rw [h1, h2]; exact h.eq

theorem total_arrive {F : Nat → List Ev} {m : Nat} {b : List Ev} : ∀ (n : Nat) (is : List Inp),
    total F n (is.modify m fun i => { i with queue := i.queue ++ [b] }) = total (fun k => (if k = n + m then b else []) ++ F k) n is
  | _, [] => by cases m <;> rfl
  | n, i :: is => by
    cases m with
    | zero =>
      rw [List.modify_zero_cons]
      have hrest : ∀ (k : Nat) (is : List Inp), n < k → total F k is = total (fun k => (if k = n + 0 then b else []) ++ F k) k is := by
        intro k is
        induction is generalizing k with
        | nil => intro _; rfl
        | cons j is ih =>
          intro hk
          unfold total
          rw [ih (k + 1) (by omega), if_neg (by omega)]
          rfl
      unfold total
      rw [← hrest (n + 1) is (by omega), if_pos (by omega)]
      congr 1
      unfold pending
      dsimp only
      rw [List.flatten_append, List.flatten_singleton]
      simp only [List.append_assoc]
    | succ m =>
      rw [List.modify_succ_cons]
      unfold total
      rw [total_arrive (n + 1) is, if_neg (by omega)]
      have : n + 1 + m = n + (m + 1) := by omega
      rw [this]
      rfl

theorem ExInv.run {c : Cfg} {ks : List ICfg} {A : List (List Ev)} (hc : c.complete = true) (hr : Regular c ks A) :
    ∀ (ops : List Op) {s : St}, (∀ o ∈ ops, ∀ env ∈ o.envs, Good (expected c ks A) env) → ExInv c ks A (fun n => arrived n ops) s →
    ∃ s', MbsComb.run c ops s = some s' ∧ ExInv c ks A (fun _ => []) s'
  | [], s, _, h => ⟨s, rfl, h⟩
  | o :: ops, s, hg, h => by
    have hg' := fun o' ho' => hg o' (List.mem_cons_of_mem o ho')
    unfold MbsComb.run
    cases o with
    | build env =>
      have h : ExInv c ks A (fun n => arrived n ops) s := h
      obtain ⟨s1, b, h1, h2⟩ := h.build hc hr (hg _ (List.mem_cons_self ..) env (List.mem_cons_self ..))
      show ∃ s', ((buildEvent c env s).map fun q => q.1).bind (MbsComb.run c ops) = some s' ∧ _
      rw [h1]
      exact ExInv.run hc hr ops hg' h2
    | timer envs b =>
      have h : ExInv c ks A (fun n => arrived n ops) s := h
      show ∃ s', (MbsComb.timer c envs b s).bind (MbsComb.run c ops) = some s' ∧ _
      unfold MbsComb.timer
      split
      · obtain ⟨s1, h1, h2⟩ := h.loop hc hr envs (hg _ (List.mem_cons_self ..))
        rw [h1]
        exact ExInv.run hc hr ops hg' (h2.flush b true)
      · exact ExInv.run hc hr ops hg' ⟨h.cfgs, h.plain, h.sub, h.eq, h.out⟩
    | arrive m b =>
      show ∃ s', MbsComb.run c ops (MbsComb.arrive m b s) = some s' ∧ _
      refine ExInv.run hc hr ops hg' ?_
      have harr : (fun n => arrived n (Op.arrive m b :: ops)) = fun k => (if k = 0 + m then b else []) ++ arrived k ops := by
        funext k
        unfold arrived
        by_cases hk : k = m
        · rw [if_pos (by omega), List.filterMap_cons_some (b := b) (by exact if_pos hk.symm), List.flatten_cons]
        · rw [if_neg (by omega), List.filterMap_cons_none (by exact if_neg fun hh => hk hh.symm), List.nil_append]
      have htot := total_arrive (F := fun n => arrived n ops) (m := m) (b := b) 0 s.inps
      rw [← harr] at htot
      unfold MbsComb.arrive
      have hget : ∀ i ∈ s.inps.modify m (fun i => { i with queue := i.queue ++ [b] }), ∃ j ∈ s.inps, i.cfg = j.cfg ∧ i.cur = j.cur := by
        intro i hi
        obtain ⟨k, hk⟩ := List.getElem?_of_mem hi
        rw [List.getElem?_modify] at hk
        cases hs : s.inps[k]? with
        | none => rw [hs] at hk; cases hk
        | some j =>
          rw [hs] at hk
          injection hk with hk
          refine ⟨j, List.mem_of_getElem? hs, ?_⟩
          rw [← hk]
          split <;> exact ⟨rfl, rfl⟩
      have htotmem : ∀ (F : Nat → List Ev) (n : Nat) (is : List Inp), ∀ i ∈ is, ∃ l ∈ total F n is, ∀ e ∈ pending i, e ∈ l := by
        intro F n is
        induction is generalizing n with
        | nil => intro i hi; cases hi
        | cons j is ih =>
          intro i hi
          unfold total
          rcases List.mem_cons.1 hi with rfl | hi
          · exact ⟨_, List.mem_cons_self .., fun e he => List.mem_append_left _ he⟩
          · obtain ⟨l, h1, h2⟩ := ih (n + 1) i hi
            exact ⟨l, List.mem_cons_of_mem _ h1, h2⟩
      refine ⟨?_, fun i hi => ?_, ?_, ?_, h.out⟩
      · rw [← h.cfgs]
        apply List.ext_getElem?
        intro k
        rw [List.getElem?_map, List.getElem?_map, List.getElem?_modify]
        cases s.inps[k]? with
        | none => rfl
        | some i => dsimp only [Option.map_some]; split <;> rfl
      · obtain ⟨j, hj, h1, h2⟩ := hget i hi
        have hp := h.plain j hj
        refine ⟨by rw [h1]; exact hp.realNum, by rw [h1]; exact hp.noNum, by rw [h1]; exact hp.optional, by rw [h2]; exact hp.cur, fun e he => ?_⟩
        obtain ⟨l, h3, h4⟩ := htotmem (fun n => arrived n ops) 0 _ i hi
        rw [htot] at h3
        exact (h.regular hr).usual l h3 e (h4 e he)
      · show List.Forall₂ List.Sublist (total _ 0 (s.inps.modify m _)) A
        rw [htot]
        exact h.sub
      · show outputs s ++ expected c ks (total _ 0 (s.inps.modify m _)) = _
        rw [htot]
        exact h.eq

/-- What arrives at the inputs. -/
def arrivals (ks : List ICfg) (ops : List Op) : List (List Ev) := (List.range ks.length).map fun n => arrived n ops

theorem total_init (F : Nat → List Ev) : ∀ (n : Nat) (ks : List ICfg), total F n (ks.map fun k => (⟨k, none, [], []⟩ : Inp)) = (List.range' n ks.length).map F
  | _, [] => rfl
  | n, k :: ks => by
    rw [List.map_cons]
    unfold total
    rw [total_init F (n + 1) ks]
    rfl

theorem exInv_init {c : Cfg} {ks : List ICfg} (hp : Plain c ks) (ops : List Op) : ExInv c ks (arrivals ks ops) (fun n => arrived n ops) (init ks) := by
  have ht : total (fun n => arrived n ops) 0 (init ks).inps = arrivals ks ops := by
    unfold arrivals init
    rw [List.range_eq_range']
    exact total_init _ 0 ks
  refine ⟨?_, fun i hi => ?_, ?_, ?_, fun n hn => (by cases hn)⟩
  · unfold init
    rw [List.map_map]
    exact List.map_id _
  · obtain ⟨k, hk, rfl⟩ := List.mem_map.1 hi
    obtain ⟨h1, h2, h3⟩ := hp.2 k hk
    exact ⟨h1, h2, h3, fun u hu => (by cases hu), fun e he => (by cases he)⟩
  · rw [ht]
    exact sub_refl _
  · rw [ht]
    rfl

theorem total_none (n : Nat) (is : List Inp) : total (fun _ => []) n is = is.map pending := by
  induction is generalizing n with
  | nil => rfl
  | cons i is ih =>
    unfold total
    rw [ih, List.append_nil]
    rfl

theorem sub_nil {ls ls' : List (List Ev)} (h : List.Forall₂ List.Sublist ls ls') (hn : [] ∈ ls') : [] ∈ ls := by
  induction h with
  | nil => exact hn
  | cons h1 _ ih =>
    rcases List.mem_cons.1 hn with rfl | hn
    · rw [List.sublist_nil.1 h1]
      exact List.mem_cons_self ..
    · exact List.mem_cons_of_mem _ (ih hn)

theorem Within.sub {c : Cfg} {ls ls' : List (List Ev)} (h : Within c ls') (hs : List.Forall₂ List.Sublist ls ls') : Within c ls := by
  rcases h with h | h
  · exact Or.inl h
  · refine Or.inr fun l hl l' hl' a ha b hb => ?_
    obtain ⟨k, hk, g⟩ := sub_mem hs l hl
    obtain ⟨k', hk', g'⟩ := sub_mem hs l' hl'
    exact h k hk k' hk' a (g.subset ha) b (g'.subset hb)

/-- Building again and again gives out all that is expected. -/
theorem ExInv.builds {c : Cfg} {ks : List ICfg} {A : List (List Ev)} (hc : c.complete = true) (hr : Regular c ks A) (hw : Within c A) :
    ∀ (envs : List Env) {s : St}, (∀ env ∈ envs, Good (expected c ks A) env ∧ Free env) → ExInv c ks A (fun _ => []) s →
    (count (s.inps.map pending) ≤ envs.length ∨ [] ∈ s.inps.map pending) → ∃ s', MbsComb.run c (envs.map .build) s = some s' ∧ outputs s' = expected c ks A
  | [], s, _, h, hn => by
    refine ⟨s, rfl, ?_⟩
    rw [← h.eq, total_none]
    suffices hex : expected c ks (s.inps.map pending) = [] by rw [hex, List.append_nil]
    rcases hn with hn | hn
    · cases hl : s.inps.map pending with
      | nil => rfl
      | cons l ls =>
        rw [hl] at hn
        have hz : l.length + count ls ≤ 0 := hn
        apply expected_nil
        rw [List.eq_nil_of_length_eq_zero (l := l) (by omega)]
        exact List.mem_cons_self ..
    · exact expected_nil hn
  | env :: envs, s, hg, h, hn => by
    have hg0 := hg env (List.mem_cons_self ..)
    have hg' := fun e he => hg e (List.mem_cons_of_mem env he)
    obtain ⟨s1, b, h1, h2, h3, h4, h5⟩ := buildEvent_plain hc h.cfgs h.plain (h.regular hr) (h.good hg0.1)
    have hinv := h.step h2 (h3 h.out)
    rw [List.map_cons]
    unfold MbsComb.run
    show ∃ s', ((buildEvent c env s).map fun q => q.1).bind (MbsComb.run c (envs.map .build)) = some s' ∧ _
    rw [h1]
    refine ExInv.builds hc hr hw envs hg' hinv ?_
    have hsub := h2.2.2.1
    rw [total_none, total_none] at h4 hsub
    by_cases hnil : [] ∈ s.inps.map pending
    · exact Or.inr (sub_nil hsub hnil)
    · rcases hn with hn | hn
      · left
        by_cases hinp : s.inps = []
        · have : s1.inps = [] := by
            have hk := h2.1
            rw [← h.cfgs, hinp] at hk
            exact List.map_eq_nil_iff.1 hk
          rw [this]
          exact Nat.zero_le _
        · have hb := h5 h.out hg0.2 (hw.sub h.sub) (fun i hi he => hnil (List.mem_map.2 ⟨i, hi, he⟩)) hinp
          have := h4 hb
          rw [List.length_cons] at hn
          show count (s1.inps.map pending) ≤ _
          omega
      · exact absurd hn hnil

end Verif.MbsComb
