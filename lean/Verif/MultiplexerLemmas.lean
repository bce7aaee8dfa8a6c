import Verif.Spec.Multiplexer

namespace Verif.Multiplexer

open Spec

/-! ## Turns -/

theorem turn_outs_length (l : Look) (id : Nat) (s : S) : (turn l id s).outs.length = s.outs.length := by
  unfold turn
  dsimp only
  split
  · simp [sendAll]
  · rfl

theorem turn_inputs_length (l : Look) (id : Nat) (s : S) : (turn l id s).inputs.length = s.inputs.length := by
  unfold turn
  dsimp only
  split
  · simp
  · rfl

/-- A property which turns keep is kept by the loop; turns happen only after the
look at all outputs. -/
theorem loop_keeps {P : S → Prop} {looks : Nat → Look} {m : Nat} (hm : ∀ s, P s → s.outs.length = m)
    (hP : ∀ k id s, canAll m (looks k) = true → P s → P (turn (looks k) id s)) :
    ∀ ids k s, P s → P (loop looks ids k s).2 := by
  intro ids
  induction ids with
  | nil => intro k s h; exact h
  | cons id r ih =>
    intro k s h
    unfold loop
    split
    · rename_i hc
      rw [hm s h] at hc
      exact ih _ _ (hP k id s hc h)
    · exact h

theorem only_append (p : Nat) (a b : List (Nat × Nat)) : only p (a ++ b) = only p a ++ only p b := by
  simp [only]

theorem only_one (p q b : Nat) : only p [(q, b)] = if q = p then [b] else [] := by
  by_cases h : q = p <;> simp [only, h]

/-- Taken and waiting buffers of an input. -/
def have_ (p : Nat) (s : S) : List Nat := only p s.taken ++ (s.inputs[p]?).getD []

theorem turn_have (l : Look) (id : Nat) (s : S) (p : Nat) : have_ p (turn l id s) = have_ p s := by
  unfold turn
  dsimp only
  split
  · rename_i b r h
    generalize (if s.inputs.length ≤ id then 0 else id) = i at h
    unfold have_
    dsimp only
    rw [only_append, only_one]
    have hi : i < s.inputs.length := by
      rcases Nat.lt_or_ge i s.inputs.length with h1 | h1
      · exact h1
      · rw [List.getElem?_eq_none h1] at h; cases h
    by_cases hp : i = p
    · subst hp
      rw [if_pos rfl, h, List.getElem?_set_self hi]
      simp
    · rw [if_neg hp, List.getElem?_set_ne hp]
      simp
  · rfl

theorem check_fields (looks : Nat → Look) (s : S) {P : S → Prop} {m : Nat}
    (hm : ∀ s, P s → s.outs.length = m)
    (hP : ∀ k id s, canAll m (looks k) = true → P s → P (turn (looks k) id s))
    (hi : ∀ s ids, P s → P { s with ids := ids }) (h : P s) : P (check looks s) :=
  hi _ _ (loop_keeps hm hP s.ids 0 s h)

/-! ## What arrived -/

def Arr (i m : Nat) (os : List Op) (s : S) : Prop :=
  s.inputs.length = i ∧ s.outs.length = m ∧ ∀ p, have_ p s = only p (arrivals i os)

theorem arrivals_snoc (n : Nat) (os : List Op) (o : Op) :
    arrivals n (os ++ [o]) = arrivals n os ++ arrival n o := by
  simp [arrivals]

theorem put_have (p b : Nat) (s : S) (q : Nat) (pd : List Nat) :
    have_ q { s with inputs := s.inputs.modify p (· ++ [b]), pend := pd } =
    have_ q s ++ only q (if p < s.inputs.length then [(p, b)] else []) := by
  unfold have_
  dsimp only
  rw [List.getElem?_modify]
  by_cases hp : p < s.inputs.length
  · rw [if_pos hp, only_one]
    by_cases hq : p = q
    · subst hq
      rw [List.getElem?_eq_getElem hp]
      simp
    · cases h : s.inputs[q]? <;> simp [hq]
  · rw [if_neg hp]
    cases h : s.inputs[q]? with
    | none => simp [only]
    | some x =>
      have : p ≠ q := by
        intro e; subst e
        rw [List.getElem?_eq_none (by omega)] at h; cases h
      simp [only, this]

theorem check_arr {i m : Nat} {os : List Op} (looks : Nat → Look) {s : S} (h : Arr i m os s) :
    Arr i m os (check looks s) := by
  refine check_fields (m := m) looks s (fun s hs => hs.2.1) ?_ (fun s ids hs => hs) h
  intro k id s _ hs
  exact ⟨(turn_inputs_length _ _ _).trans hs.1, (turn_outs_length _ _ _).trans hs.2.1,
    fun p => (turn_have _ _ _ p).trans (hs.2.2 p)⟩

theorem step_arr {i m : Nat} {os : List Op} {s : S} (h : Arr i m os s) (o : Op) :
    Arr i m (os ++ [o]) (step s o) := by
  have key : ∀ s', Arr i m os s' → arrival i o = [] → Arr i m (os ++ [o]) s' := by
    intro s' h' e
    refine ⟨h'.1, h'.2.1, fun p => ?_⟩
    rw [arrivals_snoc, e, List.append_nil]; exact h'.2.2 p
  cases o with
  | arrive p b =>
    refine ⟨by simp [step, h.1], h.2.1, fun q => ?_⟩
    rw [arrivals_snoc, only_append, ← h.2.2 q]
    simp only [step, arrival]
    rw [put_have, h.1]
  | silent p b =>
    refine ⟨by simp [step, h.1], h.2.1, fun q => ?_⟩
    rw [arrivals_snoc, only_append, ← h.2.2 q]
    simp only [step, arrival]
    rw [← h.1]
    exact put_have p b s q s.pend
  | inEvent l =>
    refine key _ ?_ rfl
    simp only [step]
    split
    · exact h
    · (try dsimp only)
      split
      · exact check_arr l h
      · exact h
  | outEvent l =>
    refine key _ ?_ rfl
    simp only [step]
    split
    · exact check_arr l h
    · exact h
  | stop => exact key _ h rfl
  | start =>
    refine key _ ?_ rfl
    simp only [step]
    split
    · exact h
    · exact h

theorem new_arr (i m : Nat) : Arr i m [] (new i m) := by
  refine ⟨by simp [new], by simp [new], fun p => ?_⟩
  unfold have_ new
  dsimp only
  rcases Nat.lt_or_ge p i with hp | hp
  · simp [hp, only, arrivals]
  · rw [List.getElem?_eq_none (by simpa using hp)]; simp [only, arrivals]

theorem steps_snoc (s : S) (os : List Op) (o : Op) : steps s (os ++ [o]) = step (steps s os) o := by
  simp [steps]

theorem steps_arr (i m : Nat) (os : List Op) : Arr i m os (steps (new i m) os) := by
  suffices h : ∀ (ys xs : List Op), xs.reverse = ys → Arr i m xs (steps (new i m) xs) from h _ os rfl
  intro ys
  induction ys with
  | nil => intro xs hx; rw [List.reverse_eq_nil_iff.mp hx]; exact new_arr i m
  | cons y ys ih =>
    intro xs hx
    have : xs = ys.reverse ++ [y] := by rw [← List.reverse_reverse xs, hx, List.reverse_cons]
    subst this
    rw [steps_snoc]
    exact step_arr (ih _ (List.reverse_reverse ys)) y

/-! ## Steady outputs -/

def Full (n m : Nat) (s : S) : Prop := s.outs.length = m ∧ s.outs[n]? = some (s.taken.map (·.2))

theorem canAll_get {m : Nat} {l : Look} (h : canAll m l = true) {n : Nat} (hn : n < m)
    (hc : l.conn n = true) : l.can n = true := by
  unfold canAll at h
  rw [List.all_eq_true] at h
  have := h n (List.mem_range.mpr hn)
  rw [hc] at this
  simpa using this

theorem turn_full {n m : Nat} {l : Look} (hs : l.conn n = true ∧ (l.can n = true → l.again n = true))
    (hn : n < m) {id : Nat} {s : S} (hc : canAll m l = true) (h : Full n m s) : Full n m (turn l id s) := by
  refine ⟨(turn_outs_length _ _ _).trans h.1, ?_⟩
  have ha := hs.2 (canAll_get hc hn hs.1)
  unfold turn
  dsimp only
  split
  · dsimp only [sendAll]
    rw [List.getElem?_mapIdx, h.2]
    simp [ha]
  · exact h.2

theorem step_full {n m : Nat} (hn : n < m) {s : S} (h : Full n m s) {o : Op} (hs : Steady n o) :
    Full n m (step s o) := by
  have hck : ∀ l, looks o = some l → ∀ s, Full n m s → Full n m (check l s) := by
    intro l hl s h
    exact check_fields (m := m) l s (fun s hs => hs.1)
      (fun k id s hc hf => turn_full (hs l hl k) hn hc hf) (fun s ids hf => hf) h
  cases o with
  | arrive p b => exact h
  | silent p b => exact h
  | inEvent l =>
    simp only [step]
    split
    · exact h
    · (try dsimp only)
      split
      · exact hck l rfl _ h
      · exact h
  | outEvent l =>
    simp only [step]
    split
    · exact hck l rfl _ h
    · exact h
  | stop => exact h
  | start =>
    simp only [step]
    split
    · exact h
    · exact h

/-! ## Order of arrival and waiting buffers in calm runs -/

/-- The inputs of the waiting buffers, in the order of arrival: first those with
a number in `fQueue`, then those with a waiting event. -/
structure Good (i m : Nat) (os : List Op) (s : S) : Prop where
  arr : Arr i m os s
  run : s.running = true
  ports : s.taken.map (·.1) ++ s.ids ++ s.pend = (arrivals i os).map (·.1)

/-- A list of tagged buffers is known from its tags and from the buffers of each
tag. -/
theorem tags_prefix : ∀ (a b : List (Nat × Nat)), (∃ r, a.map (·.1) ++ r = b.map (·.1)) →
    (∀ p, ∃ r, only p a ++ r = only p b) → ∃ r, a ++ r = b := by
  intro a
  induction a with
  | nil => intro b _ _; exact ⟨b, rfl⟩
  | cons x a ih =>
    intro b h1 h2
    cases b with
    | nil => obtain ⟨r, h⟩ := h1; simp at h
    | cons y b =>
      obtain ⟨r, h⟩ := h1
      simp only [List.map_cons, List.cons_append, List.cons.injEq] at h
      obtain ⟨hx, h⟩ := h
      obtain ⟨x1, x2⟩ := x
      obtain ⟨y1, y2⟩ := y
      dsimp only at hx
      subst hx
      have e : x2 = y2 := by
        obtain ⟨r, hr⟩ := h2 x1
        simp [only] at hr
        exact hr.1
      subst e
      obtain ⟨r', hr'⟩ := ih b ⟨r, h⟩ (by
        intro p
        obtain ⟨r, hr⟩ := h2 p
        by_cases hp : x1 = p
        · simp [only, hp] at hr; exact ⟨r, by simpa [only] using hr⟩
        · simp [only, hp] at hr; exact ⟨r, by simpa [only] using hr⟩)
      exact ⟨r', by simp [hr']⟩

theorem only_length (p : Nat) (l : List (Nat × Nat)) : (only p l).length = (l.map (·.1)).count p := by
  induction l with
  | nil => rfl
  | cons x l ih =>
    unfold only at ih ⊢
    rw [List.filter_cons, List.map_cons, List.count_cons]
    by_cases h : x.1 = p <;> simp [h] <;> simpa using ih

theorem arrivals_lt (i : Nat) (os : List Op) : ∀ x ∈ (arrivals i os).map (·.1), x < i := by
  intro x hx
  simp only [arrivals, List.mem_map, List.mem_flatten] at hx
  obtain ⟨⟨q, b⟩, ⟨l, ⟨o, _, rfl⟩, hl⟩, rfl⟩ := hx
  cases o <;> simp [arrival] at hl <;> (obtain ⟨h, rfl, _⟩ := hl; exact h)

/-- The number at the head of `fQueue` belongs to a waiting buffer. -/
theorem head_has {i m : Nat} {os : List Op} {s : S} {id : Nat} {r : List Nat} (ha : Arr i m os s)
    (hp : s.taken.map (·.1) ++ (id :: r) ++ s.pend = (arrivals i os).map (·.1)) :
    ∃ b q, s.inputs[id]? = some (b :: q) := by
  have hlt : id < i := arrivals_lt i os id (by rw [← hp]; simp)
  have hc := congrArg (List.count id) hp
  rw [List.count_append, List.count_append, ← only_length, ← only_length, ← ha.2.2 id] at hc
  unfold have_ at hc
  rw [List.length_append, List.count_cons_self] at hc
  rw [List.getElem?_eq_getElem (by rw [ha.1]; exact hlt)] at hc ⊢
  simp only [Option.getD_some] at hc
  cases hx : s.inputs[id]'(by rw [ha.1]; exact hlt) with
  | nil => rw [hx] at hc; simp at hc; omega
  | cons b q => exact ⟨b, q, rfl⟩

theorem loop_good {i m : Nat} {os : List Op} {looks : Nat → Look} : ∀ (ids : List Nat) (k : Nat) (s : S),
    Arr i m os s → s.running = true →
    s.taken.map (·.1) ++ ids ++ s.pend = (arrivals i os).map (·.1) →
    Good i m os { (loop looks ids k s).2 with ids := (loop looks ids k s).1 } := by
  intro ids
  induction ids with
  | nil => intro k s h1 h2 h3; exact ⟨h1, h2, h3⟩
  | cons id r ih =>
    intro k s h1 h2 h3
    unfold loop
    split
    · obtain ⟨b, q, hq⟩ := head_has h1 h3
      have hlt : id < s.inputs.length := by
        rcases Nat.lt_or_ge id s.inputs.length with h | h
        · exact h
        · rw [List.getElem?_eq_none h] at hq; cases hq
      have he : turn (looks k) id s = { s with
          inputs := s.inputs.set id q
          outs := sendAll (looks k) b s.outs
          taken := s.taken ++ [(id, b)] } := by
        unfold turn
        dsimp only
        rw [if_neg (by omega), hq]
      apply ih
      · exact ⟨(turn_inputs_length _ _ _).trans h1.1, (turn_outs_length _ _ _).trans h1.2.1,
          fun p => (turn_have _ _ _ p).trans (h1.2.2 p)⟩
      · rw [he]; exact h2
      · rw [he]
        dsimp only
        rw [List.map_append]
        simpa using h3
    · exact ⟨h1, h2, h3⟩

theorem step_good {i m : Nat} {os : List Op} {s : S} (h : Good i m os s) {o : Op} (hc : Calm o) :
    Good i m (os ++ [o]) (step s o) := by
  have ha := step_arr h.arr o
  have key : ∀ s', Good i m os s' → s' = step s o → arrival i o = [] → Good i m (os ++ [o]) (step s o) := by
    intro s' h' e hn
    subst e
    exact ⟨ha, h'.run, by rw [arrivals_snoc, hn, List.append_nil]; exact h'.ports⟩
  cases o with
  | arrive p b =>
    refine ⟨ha, h.run, ?_⟩
    rw [arrivals_snoc, List.map_append, ← h.ports]
    simp only [step, arrival]
    rw [h.arr.1]
    split <;> simp
  | silent p b => exact hc.elim
  | inEvent l =>
    refine key (step s (.inEvent l)) ?_ rfl rfl
    simp only [step]
    split
    · exact h
    · rename_i p r hp
      rw [if_pos h.run]
      refine loop_good _ 0 { s with pend := r, ids := s.ids ++ [p] } h.arr h.run ?_
      have := h.ports
      rw [hp] at this
      simpa using this
  | outEvent l =>
    refine key (step s (.outEvent l)) ?_ rfl rfl
    simp only [step]
    rw [if_pos h.run]
    exact loop_good _ 0 s h.arr h.run h.ports
  | stop => exact hc.elim
  | start =>
    refine key (step s .start) ?_ rfl rfl
    simp only [step]
    rw [if_pos h.run]
    exact h

theorem steps_good (i m : Nat) (os : List Op) (hc : ∀ o ∈ os, Calm o) :
    Good i m os (steps (new i m) os) := by
  suffices h : ∀ (ys xs : List Op), xs.reverse = ys → (∀ o ∈ xs, Calm o) → Good i m xs (steps (new i m) xs)
    from h _ os rfl hc
  intro ys
  induction ys with
  | nil =>
    intro xs hx _
    rw [List.reverse_eq_nil_iff.mp hx]
    exact ⟨new_arr i m, rfl, rfl⟩
  | cons y ys ih =>
    intro xs hx hc
    have : xs = ys.reverse ++ [y] := by rw [← List.reverse_reverse xs, hx, List.reverse_cons]
    subst this
    rw [steps_snoc]
    exact step_good (ih _ (List.reverse_reverse ys) fun o ho => hc o (by simp [ho])) (hc y (by simp))

/-! ## Start -/

theorem count_blocks (p : Nat) : ∀ (l : List (List Nat)) (k : Nat),
    ((l.mapIdx fun i q => List.replicate q.length (k + i)).flatten).count p =
    if p < k then 0 else ((l[p - k]?).getD []).length := by
  intro l
  induction l with
  | nil => intro k; simp
  | cons x l ih =>
    intro k
    rw [List.mapIdx_cons, List.flatten_cons, List.count_append]
    have e : (l.mapIdx fun i q => List.replicate q.length (k + (i + 1))) =
        l.mapIdx fun i q => List.replicate q.length (k + 1 + i) := by
      congr 1; funext i q; congr 1; omega
    rw [e, ih (k + 1), List.count_replicate]
    rcases Nat.lt_trichotomy p k with h | h | h
    · rw [if_pos (show p < k + 1 by omega), if_pos h]
      have : ¬ (k = p) := by omega
      simp [this]
    · subst h
      simp
    · rw [if_neg (show ¬ p < k + 1 by omega), if_neg (show ¬ p < k by omega)]
      have h1 : p - k = (p - (k + 1)) + 1 := by omega
      have : ¬ (k = p) := by omega
      rw [h1, List.getElem?_cons_succ]
      simp [this]

theorem count_start (p : Nat) (l : List (List Nat)) :
    (startEvents l).count p = ((l[p]?).getD []).length := by
  have := count_blocks p l 0
  simp only [Nat.zero_add, Nat.not_lt_zero, if_false, Nat.sub_zero] at this
  exact this

end Verif.Multiplexer
