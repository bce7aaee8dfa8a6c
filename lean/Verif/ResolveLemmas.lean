import Verif.Spec.Resolve

/-!
# Lemmas about variables in configuration values
-/

namespace Verif.Resolve

open Spec

/-! ## Finding variables -/

theorem free_left {a b : Text} (h : Free (a ++ b)) : Free a :=
  fun x y hxy => h x (y ++ b) (by simp [hxy])

theorem free_tail {c : Char} {r : Text} (h : Free (c :: r)) : Free r :=
  fun x y hxy => h (c :: x) y (by simp [hxy])

theorem not_open {c : Char} {r : Text} (h : Free (c :: r)) : ¬ (c = '$' ∧ r.head? = some '{') := by
  rintro ⟨rfl, hr⟩
  cases r with
  | nil => cases hr
  | cons d r =>
    cases hr
    exact h [] r rfl

theorem next_free (s : Text) (h : Free s) : next s = .none := by
  induction s with
  | nil => rfl
  | cons c r ih =>
    unfold next
    rw [if_neg (not_open h), ih (free_tail h)]

theorem free_of_next (s : Text) (h : next s = .none) : Free s := by
  induction s with
  | nil => intro a b; simp
  | cons c r ih =>
    unfold next at h
    split at h
    · split at h <;> cases h
    · rename_i hc
      intro a b hab
      cases a with
      | nil =>
        apply hc
        simp at hab
        simp [hab]
      | cons x a =>
        have hr : r = a ++ ['$', '{'] ++ b := by simp at hab; simp [hab]
        refine ih ?_ a b hr
        revert h
        cases next r <;> simp

theorem next_none_iff (s : Text) : next s = .none ↔ Free s := ⟨free_of_next s, next_free s⟩

theorem close_eq (v rest : Text) (h : '}' ∉ v) : close (v ++ '}' :: rest) = some (v, rest) := by
  induction v with
  | nil => simp [close]
  | cons c v ih =>
    rw [List.cons_append, close, if_neg (by intro hc; exact h (by simp [hc])), ih (by intro hc; exact h (by simp [hc]))]

theorem next_var (pre v rest : Text) (hp : Free pre) (hv : '}' ∉ v) :
    next (pre ++ ('$' :: '{' :: (v ++ '}' :: rest))) = .var pre v rest := by
  induction pre with
  | nil => simp [next, close_eq v rest hv]
  | cons c pre ih =>
    rw [List.cons_append, next, if_neg, ih (free_tail hp)]
    rintro ⟨rfl, hr⟩
    cases pre with
    | nil => simp at hr
    | cons d pre =>
      simp at hr
      subst hr
      exact hp [] pre rfl

theorem next_bad (s : Text) : next s = .bad ↔ ∃ a b, s = a ++ ['$', '{'] ++ b ∧ Free a ∧ '}' ∉ b := by
  have hclose : ∀ b : Text, close b = none ↔ '}' ∉ b := by
    intro b
    induction b with
    | nil => simp [close]
    | cons c b ih =>
      unfold close
      by_cases hc : c = '}'
      · simp [hc]
      · rw [if_neg hc]
        constructor
        · intro h hm
          rw [List.mem_cons] at hm
          rcases hm with hm | hm
          · exact hc hm.symm
          · refine absurd hm (ih.mp ?_)
            revert h
            cases close b <;> simp
        · intro h
          rw [ih.mpr (fun hm => h (List.mem_cons_of_mem _ hm))]
  constructor
  · intro h
    induction s with
    | nil => cases h
    | cons c r ih =>
      unfold next at h
      split at h
      · rename_i hc
        obtain ⟨rfl, hr⟩ := hc
        cases r with
        | nil => cases hr
        | cons d r =>
          cases hr
          refine ⟨[], r, rfl, by intro a b; simp, (hclose r).mp ?_⟩
          revert h
          simp only [List.tail_cons]
          cases close r <;> simp
      · rename_i hc
        have hb : next r = .bad := by
          revert h
          cases next r <;> simp
        obtain ⟨a, b, hr, ha, hb⟩ := ih hb
        refine ⟨c :: a, b, by simp [hr], ?_, hb⟩
        intro x y hxy
        cases x with
        | nil =>
          simp at hxy
          apply hc
          simp [hr, hxy]
        | cons z x =>
          simp at hxy
          exact ha x y (by simp [hxy])
  · rintro ⟨a, b, rfl, ha, hb⟩
    induction a with
    | nil => simp [next, (hclose b).mpr hb]
    | cons c a ih =>
      rw [List.cons_append, List.cons_append, next, if_neg, ih (free_tail ha)]
      rintro ⟨rfl, hr⟩
      cases a with
      | nil => simp at hr
      | cons d a =>
        simp at hr
        subst hr
        exact ha [] a rfl

/-! ## Arrays -/

theorem not_array (value : Text) (hv : value ≠ []) (h : ∀ s, value ≠ ['['] ++ s ++ [']']) : isArray value = false := by
  unfold isArray
  cases value with
  | nil => exact absurd rfl hv
  | cons c r =>
    rw [Bool.eq_false_iff]
    intro hc
    simp only [List.head?_cons, Bool.and_eq_true, beq_iff_eq, Option.some.injEq] at hc
    obtain ⟨rfl, hl⟩ := hc
    rcases List.eq_nil_or_concat r with rfl | ⟨r, d, rfl⟩
    · simp at hl
    · rw [List.concat_eq_append] at h hl
      rw [← List.cons_append, List.getLast?_append] at hl
      simp at hl
      subst hl
      exact h r rfl

theorem isArray_array (xs : List Text) : isArray (array xs) = true := by
  unfold isArray array
  simp [List.getLast?_append, List.getLast?_cons]

theorem commas (xs : List Text) (h : ∀ x ∈ xs, ',' ∉ x) (hx : xs ≠ []) :
    (((xs.intersperse [',']).flatten).filter (· = ',')).length + 1 = xs.length := by
  have hf : ∀ x : Text, ',' ∉ x → x.filter (fun c => decide (c = ',')) = [] := by
    intro x hx
    rw [List.filter_eq_nil_iff]
    intro c hc
    simp
    rintro rfl
    exact hx hc
  induction xs with
  | nil => exact absurd rfl hx
  | cons x xs ih =>
    cases xs with
    | nil => simp [hf x (h x (by simp))]
    | cons y xs =>
      have := ih (fun z hz => h z (List.mem_cons_of_mem _ hz)) (by simp)
      rw [List.intersperse_cons_cons]
      simp only [List.flatten_cons, List.filter_append, List.length_append, List.length_cons] at this ⊢
      rw [hf x (h x (by simp))]
      simp at this ⊢
      omega

theorem array_inner (xs : List Text) : ((array xs).drop 1).dropLast = (xs.intersperse [',']).flatten := by
  unfold array
  simp

theorem count_eq {value c : Text} (h : IsCount value c) : count value = c := by
  unfold count
  rcases h with ⟨rfl, rfl⟩ | ⟨xs, hx, hc, rfl, rfl⟩ | ⟨hv, h, rfl⟩
  · rfl
  · rw [if_neg (by simp [array]), isArray_array]
    simp only [Bool.not_true, Bool.false_eq_true, if_false]
    rw [array_inner]
    have := commas xs hc hx
    congr 1
    omega
  · rw [if_neg hv, not_array value hv h]
    rfl

theorem pick_cons (id : Nat) (cur : Text) (c : Char) (r : Text) :
    pick id cur (c :: r) = if c = ',' ∨ r = [] then (match id with | 0 => cur | id + 1 => pick id [] r)
      else pick id (cur ++ [c]) r := by
  cases id <;> simp [pick]

theorem pick_inner (id : Nat) (cur x r : Text) (h : ',' ∉ x) (hr : r ≠ []) :
    pick id cur (x ++ r) = pick id (cur ++ x) r := by
  induction x generalizing cur with
  | nil => simp
  | cons c x ih =>
    rw [List.cons_append, pick_cons, if_neg, ih _ (fun hm => h (List.mem_cons_of_mem _ hm))]
    · simp
    · rintro (hc | hc)
      · exact h (by simp [hc])
      · simp at hc
        exact hr hc.2

theorem pick_array (id : Nat) (xs : List Text) (h : ∀ x ∈ xs, ',' ∉ x) (hx : xs ≠ []) :
    pick id [] ((xs.intersperse [',']).flatten ++ [']']) = xs.getD id [] := by
  induction xs generalizing id with
  | nil => exact absurd rfl hx
  | cons x xs ih =>
    cases xs with
    | nil =>
      simp only [List.intersperse_singleton, List.flatten_cons, List.flatten_nil, List.append_nil]
      rw [pick_inner id [] x _ (h x (by simp)) (by simp), List.nil_append, pick_cons, if_pos (Or.inr rfl)]
      cases id with
      | zero => rfl
      | succ id => simp [pick]
    | cons y xs =>
      rw [List.intersperse_cons_cons]
      simp only [List.flatten_cons, List.append_assoc]
      rw [pick_inner id [] x _ (h x (by simp)) (by simp), List.nil_append, List.cons_append, List.nil_append, pick_cons,
        if_pos (Or.inl rfl)]
      cases id with
      | zero => rfl
      | succ id =>
        have := ih id (fun z hz => h z (List.mem_cons_of_mem _ hz)) (by simp)
        simpa using this

theorem elem_eq {id : Nat} {value x : Text} (hv : value ≠ []) (h : IsElem id value x) : elem id value = x := by
  unfold elem
  rcases h with ⟨xs, hx, hc, rfl, rfl⟩ | ⟨h, rfl⟩
  · rw [isArray_array]
    simp only [Bool.not_true, Bool.false_eq_true, if_false]
    rw [← pick_array id xs hc hx]
    simp [array]
  · rw [not_array value hv h]
    rfl

theorem entries (s : Text) : ∃ xs : List Text, xs ≠ [] ∧ (∀ x ∈ xs, ',' ∉ x) ∧ (xs.intersperse [',']).flatten = s := by
  induction s with
  | nil => exact ⟨[[]], by simp, by simp, rfl⟩
  | cons c s ih =>
    obtain ⟨xs, hx, hc, hs⟩ := ih
    cases xs with
    | nil => exact absurd rfl hx
    | cons x xs =>
      by_cases h : c = ','
      · refine ⟨[] :: x :: xs, by simp, ?_, ?_⟩
        · intro y hy
          rw [List.mem_cons] at hy
          rcases hy with rfl | hy
          · simp
          · exact hc y hy
        · rw [List.intersperse_cons_cons, List.flatten_cons, List.flatten_cons, hs, h]
          rfl
      · refine ⟨(c :: x) :: xs, by simp, ?_, ?_⟩
        · intro y hy
          rw [List.mem_cons] at hy
          rcases hy with rfl | hy
          · simp only [List.mem_cons, not_or]
            exact ⟨fun h' => h h'.symm, hc x (by simp)⟩
          · exact hc y (List.mem_cons_of_mem _ hy)
        · rw [← hs]
          cases xs with
          | nil => simp
          | cons y xs => simp [List.intersperse_cons_cons]

/-! ## Sources of values -/

theorem findChild_first {l : List (Text × Text)} {v t : Text} (h : First l v t) : findChild l v = some t := by
  obtain ⟨a, b, rfl, ha⟩ := h
  induction a with
  | nil => simp [findChild]
  | cons p a ih =>
    obtain ⟨n, x⟩ := p
    rw [List.cons_append, findChild, if_neg (ha (n, x) (by simp)), ih (fun q hq => ha q (List.mem_cons_of_mem _ hq))]

theorem findChild_none {l : List (Text × Text)} {v : Text} : findChild l v = none ↔ Absent l v := by
  induction l with
  | nil => simp [findChild, Absent]
  | cons p l ih =>
    obtain ⟨n, x⟩ := p
    unfold findChild
    by_cases hn : n = v
    · rw [if_pos hn]
      simp [Absent, hn]
    · rw [if_neg hn, ih]
      simp [Absent, hn]

theorem first_of_find {l : List (Text × Text)} {v t : Text} (h : findChild l v = some t) : First l v t := by
  induction l with
  | nil => cases h
  | cons p l ih =>
    obtain ⟨n, x⟩ := p
    unfold findChild at h
    by_cases hn : n = v
    · rw [if_pos hn] at h
      cases h
      exact ⟨[], l, by simp [hn], by simp⟩
    · rw [if_neg hn] at h
      obtain ⟨a, b, rfl, ha⟩ := ih h
      refine ⟨(n, x) :: a, b, rfl, ?_⟩
      intro q hq
      rw [List.mem_cons] at hq
      rcases hq with rfl | hq
      · exact hn
      · exact ha q hq

theorem raw_defines {e : Env} {v t : Text} : raw e v = some t ↔ Defines e v t := by
  unfold raw Defines
  constructor
  · intro h
    split at h
    · rename_i x hx
      cases h
      exact Or.inl (first_of_find hx)
    · rename_i hx
      exact Or.inr ⟨findChild_none.mp hx, first_of_find h⟩
  · rintro (h | ⟨ha, h⟩)
    · rw [findChild_first h]
    · rw [findChild_none.mpr ha, findChild_first h]

theorem orElse_outer {e : Env} {v x : Text} (h : Outer e v x) : orElse e v [] = x := by
  unfold orElse
  rw [if_pos rfl]
  rcases h with ⟨hf, hx⟩ | ⟨ha | hf, rfl⟩
  · rw [findChild_first hf]
    simp [hx]
  · rw [findChild_none.mpr ha]
    simp
  · rw [findChild_first hf]
    simp

theorem orElse_ne (e : Env) (v x : Text) (h : x ≠ []) : orElse e v x = x := if_neg h

/-! ## The loop -/

theorem loop_succ (e : Env) (n : Nat) (id : Int) (arg name r : Text) (h : loop e n id arg name = some r) :
    loop e (n + 1) id arg name = some r := by
  induction n generalizing id arg name r with
  | zero => cases h
  | succ n ih =>
    rw [loop] at h ⊢
    cases hn : next name with
    | none => rw [hn] at h; exact h
    | bad => rw [hn] at h; exact h
    | var pre v rest =>
      rw [hn] at h
      dsimp only at h ⊢
      by_cases hv : v = []
      · rw [if_pos hv] at h ⊢
        exact ih _ _ _ _ h
      · rw [if_neg hv] at h ⊢
        cases hr : raw e v with
        | none =>
          rw [hr] at h
          dsimp only at h ⊢
          exact ih _ _ _ _ h
        | some t =>
          rw [hr] at h
          dsimp only at h ⊢
          cases hl : loop e n (-1) t t with
          | none => rw [hl] at h; cases h
          | some x =>
            rw [hl] at h
            rw [ih _ _ _ _ hl]
            exact ih _ _ _ _ h

theorem loop_mono (e : Env) {n m : Nat} (hm : n ≤ m) {id : Int} {arg name r : Text} (h : loop e n id arg name = some r) :
    loop e m id arg name = some r := by
  induction hm with
  | refl => exact h
  | step _ ih => exact loop_succ _ _ _ _ _ _ ih

/-- The value of a variable is found. -/
def Found (e : Env) (val : Text → Text) (v : Text) : Prop :=
  (raw e v = none ∧ orElse e v [] = val v) ∨
  (∃ t n x, raw e v = some t ∧ loop e n (-1) t t = some x ∧ orElse e v x = val v)

theorem loop_var (e : Env) (val : Text → Text) (id : Int) (arg pre v rest r : Text) (hp : Free pre) (hv : v ≠ [])
    (hb : '}' ∉ v) (hf : Found e val v) (h : ∃ n, loop e n id arg (put id pre (val v) rest) = some r) :
    ∃ n, loop e n id arg (pre ++ ('$' :: '{' :: (v ++ '}' :: rest))) = some r := by
  obtain ⟨n, hn⟩ := h
  rcases hf with ⟨hr, ho⟩ | ⟨t, k, x, hr, hl, ho⟩
  · refine ⟨n + 1, ?_⟩
    rw [loop, next_var _ _ _ hp hb]
    dsimp only
    rw [if_neg hv, hr]
    dsimp only
    rw [ho, hn]
  · refine ⟨max n k + 1, ?_⟩
    rw [loop, next_var _ _ _ hp hb]
    dsimp only
    rw [if_neg hv, hr]
    dsimp only
    rw [loop_mono e (Nat.le_max_right n k) hl]
    dsimp only
    rw [ho, loop_mono e (Nat.le_max_left n k) hn]

theorem loop_pieces (e : Env) (val : Text → Text) (id : Int) (arg : Text) (ps : List Piece) (t pre : Text)
    (hm : Means val id ps t) (hf : Free (pre ++ t)) (hc : Clear val id pre ps)
    (hd : ∀ p ∈ ps, ∀ w, p.name? = some w → Found e val w) :
    ∃ n, loop e n id arg (pre ++ text ps) = some (pre ++ t) := by
  induction hm generalizing pre with
  | nil =>
    refine ⟨1, ?_⟩
    rw [loop]
    simp only [text, List.flatMap_nil]
    rw [next_free _ hf]
  | lit s ps t hm ih =>
    have := ih (pre ++ s) (by rw [List.append_assoc]; exact hf) hc (fun p hp => hd p (List.mem_cons_of_mem _ hp))
    simpa [text, Piece.text] using this
  | var v ps t hm ih =>
    obtain ⟨hv, hb, hh, hr, hc⟩ := hc
    have := ih (pre ++ val v) (by rw [List.append_assoc]; exact hf) hc (fun p hp => hd p (List.mem_cons_of_mem _ hp))
    have h2 : put id pre (val v) (text ps) = pre ++ val v ++ text ps := by
      unfold put
      rw [if_neg hh, if_neg]
      rintro ⟨h0, h1, h2⟩
      exact hr h0 h2 h1
    rw [← h2] at this
    have := loop_var e val id arg pre v (text ps) _ (free_left hf) hv hb (hd (.var v) (by simp) v rfl) this
    simpa [text, Piece.text] using this
  | count v c ps t hcnt hm ih =>
    obtain ⟨hv, hb, hc⟩ := hc
    have := ih (pre ++ c) (by rw [List.append_assoc]; exact hf) (hc c hcnt) (fun p hp => hd p (List.mem_cons_of_mem _ hp))
    have h2 : put id (pre ++ ['#']) (val v) (text ps) = pre ++ c ++ text ps := by
      unfold put
      rw [if_pos (by simp), count_eq hcnt]
      simp
    rw [← h2] at this
    have hfp : Free (pre ++ ['#']) := by
      intro a b hab
      have h1 : pre ++ ['#'] = (a ++ ['$', '{']) ++ b := hab
      rcases List.eq_nil_or_concat b with rfl | ⟨b, d, rfl⟩
      · rw [List.append_nil, show a ++ ['$', '{'] = (a ++ ['$']) ++ ['{'] by simp] at h1
        have := List.append_inj_right' h1 rfl
        simp at this
      · rw [List.concat_eq_append, ← List.append_assoc] at h1
        have := List.append_inj_left' h1 rfl
        exact free_left hf a b this
    have := loop_var e val id arg (pre ++ ['#']) v (text ps) _ hfp hv hb (hd (.count v) (by simp) v rfl) this
    simpa [text, Piece.text] using this
  | elem v x ps t hx hm ih =>
    obtain ⟨hv, hb, hh, h0, hne, hc⟩ := hc
    have := ih (pre ++ x) (by rw [List.append_assoc]; exact hf) (hc x hx) (fun p hp => hd p (List.mem_cons_of_mem _ hp))
    have h2 : put id pre (val v) ('#' :: text ps) = pre ++ x ++ text ps := by
      unfold put
      rw [if_neg hh, if_pos ⟨h0, rfl, hne⟩, elem_eq hne hx]
      simp
    rw [← h2] at this
    have := loop_var e val id arg pre v ('#' :: text ps) _ (free_left hf) hv hb (hd (.elem v) (by simp) v rfl) this
    simpa [text, Piece.text] using this
  | empty ps t hm ih =>
    obtain ⟨n, hn⟩ := ih pre hf hc (fun p hp => hd p (List.mem_cons_of_mem _ hp))
    refine ⟨n + 1, ?_⟩
    have hnext := next_var pre [] (text ps) (free_left hf) (by simp)
    have ht : pre ++ text (.empty :: ps) = pre ++ ('$' :: '{' :: ([] ++ '}' :: text ps)) := by simp [text, Piece.text]
    rw [ht, loop, hnext]
    dsimp only
    rw [if_pos rfl, hn]

theorem found_all (e : Env) (val : Text → Text) (rank : Text → Nat) (h : Values e val rank) (k : Nat) :
    ∀ v, rank v < k → Found e val v := by
  induction k with
  | zero => intro v hv; omega
  | succ k ih =>
    intro v hv
    cases hr : raw e v with
    | none =>
      refine Or.inl ⟨hr, orElse_outer (h.other v ?_)⟩
      intro t ht
      rw [raw_defines.mpr ht] at hr
      cases hr
    | some t =>
      obtain ⟨ps, r, rfl, hm, hf, hc, hk, h1, h2⟩ := h.given v t (raw_defines.mp hr)
      obtain ⟨n, hn⟩ := loop_pieces e val (-1) (text ps) ps r [] hm hf hc
        (fun p hp w hw => ih w (by have := hk p hp w hw; omega))
      refine Or.inr ⟨text ps, n, r, hr, hn, ?_⟩
      by_cases hre : r = []
      · rw [hre]
        exact orElse_outer (h2 hre)
      · rw [orElse_ne _ _ _ hre, h1 hre]

theorem found_values (e : Env) (val : Text → Text) (rank : Text → Nat) (h : Values e val rank) (v : Text) :
    Found e val v := found_all e val rank h (rank v + 1) v (Nat.lt_succ_self _)

theorem loop_result (e : Env) (n : Nat) (id : Int) (arg name r : Text) (h : loop e n id arg name = some r) :
    Free r ∨ r = arg := by
  induction n generalizing id arg name r with
  | zero => cases h
  | succ n ih =>
    rw [loop] at h
    cases hn : next name with
    | none =>
      rw [hn] at h
      cases h
      exact Or.inl (free_of_next _ hn)
    | bad =>
      rw [hn] at h
      cases h
      exact Or.inr rfl
    | var pre v rest =>
      rw [hn] at h
      dsimp only at h
      by_cases hv : v = []
      · rw [if_pos hv] at h
        exact ih _ _ _ _ h
      · rw [if_neg hv] at h
        cases hr : raw e v with
        | none =>
          rw [hr] at h
          exact ih _ _ _ _ h
        | some t =>
          rw [hr] at h
          dsimp only at h
          cases hl : loop e n (-1) t t with
          | none => rw [hl] at h; cases h
          | some x =>
            rw [hl] at h
            exact ih _ _ _ _ h

end Verif.Resolve
