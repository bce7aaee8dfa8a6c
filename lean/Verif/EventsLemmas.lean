import Verif.Spec.Events

namespace Verif.Events
variable {E : Type}

theorem firstLoop_length (nq) (qs : List (EvQ E)) : (firstLoop nq qs).2.length = qs.length := by
  induction qs generalizing nq with
  | nil => rfl
  | cons q qs ih =>
    simp only [firstLoop]
    split
    · simp [ih]
    · split <;> simp [ih]

theorem secondLoop_length (nq) (qs : List (EvQ E)) : (secondLoop nq qs).2.length = qs.length := by
  induction qs generalizing nq with
  | nil => rfl
  | cons q qs ih =>
    simp only [secondLoop]
    split <;> simp [ih]

theorem getNextEvent_length (qs : List (EvQ E)) : (getNextEvent qs).2.length = qs.length := by
  have := firstLoop_length 0 qs
  unfold getNextEvent
  split
  · rename_i h; rw [h] at this; exact this
  · rename_i h; rw [h] at this; rw [secondLoop_length]; exact this

/-- Result of a fetch expressed on the waiting lists. -/
def taken (j : Nat) (r : Option (Nat × E)) : List E := delivered j [r]

theorem delivered_cons (j) (r : Option (Nat × E)) (os) : delivered j (r :: os) = taken j r ++ delivered j os := by
  cases r with
  | none => rfl
  | some p => obtain ⟨i, e⟩ := p; simp only [taken, delivered]; split <;> simp

theorem delivered_append (j) (a b : List (Option (Nat × E))) : delivered j (a ++ b) = delivered j a ++ delivered j b := by
  induction a with
  | nil => rfl
  | cons r a ih => rw [List.cons_append, delivered_cons, delivered_cons, ih, List.append_assoc]

@[simp] theorem waiting_cons_zero (q : EvQ E) (qs) : waiting (q :: qs) 0 = q.items := rfl
@[simp] theorem waiting_cons_succ (q : EvQ E) (qs) (j) : waiting (q :: qs) (j+1) = waiting qs j := by simp [waiting]
@[simp] theorem waiting_nil (j) : waiting ([] : List (EvQ E)) j = [] := by simp [waiting]

theorem firstLoop_ge (nq) (qs : List (EvQ E)) {i e} (h : (firstLoop nq qs).1 = some (i, e)) : nq ≤ i := by
  induction qs generalizing nq with
  | nil => simp [firstLoop] at h
  | cons q qs ih =>
    simp only [firstLoop] at h
    split at h
    · have := ih _ h; omega
    · split at h
      · simp at h; omega
      · have := ih _ h; omega

theorem secondLoop_ge (nq) (qs : List (EvQ E)) {i e} (h : (secondLoop nq qs).1 = some (i, e)) : nq ≤ i := by
  induction qs generalizing nq with
  | nil => simp [secondLoop] at h
  | cons q qs ih =>
    simp only [secondLoop] at h
    split at h
    · have := ih _ h; omega
    · simp at h; omega

theorem taken_none_of_ge {nq j : Nat} (hj : j < nq) (r : Option (Nat × E)) (h : ∀ i e, r = some (i, e) → nq ≤ i) :
    taken j r = [] := by
  cases r with
  | none => rfl
  | some p =>
    obtain ⟨i, e⟩ := p
    have := h i e rfl
    simp only [taken, delivered]; rw [if_neg (by omega)]

theorem firstLoop_waiting (nq) (qs : List (EvQ E)) (j) :
    taken (nq + j) (firstLoop nq qs).1 ++ waiting (firstLoop nq qs).2 j = waiting qs j := by
  induction qs generalizing nq j with
  | nil => simp [firstLoop, taken, delivered]
  | cons q qs ih =>
    simp only [firstLoop]
    split
    · rename_i h0
      cases j with
      | zero =>
        rw [taken_none_of_ge (nq := nq + 1) (by omega) _ (fun i e h => firstLoop_ge _ _ h)]
        simp
      | succ j =>
        have := ih (nq + 1) j
        rw [show nq + 1 + j = nq + (j + 1) by omega] at this
        simpa using this
    · rename_i e rest h0
      split
      · cases j with
        | zero => simp [taken, delivered, h0]
        | succ j => simp [taken, delivered]
      · cases j with
        | zero =>
          rw [taken_none_of_ge (nq := nq + 1) (by omega) _ (fun i e h => firstLoop_ge _ _ h)]
          simp
        | succ j =>
          have := ih (nq + 1) j
          rw [show nq + 1 + j = nq + (j + 1) by omega] at this
          simpa using this

theorem secondLoop_waiting (nq) (qs : List (EvQ E)) (j) :
    taken (nq + j) (secondLoop nq qs).1 ++ waiting (secondLoop nq qs).2 j = waiting qs j := by
  induction qs generalizing nq j with
  | nil => simp [secondLoop, taken, delivered]
  | cons q qs ih =>
    simp only [secondLoop]
    split
    · cases j with
      | zero =>
        rw [taken_none_of_ge (nq := nq + 1) (by omega) _ (fun i e h => secondLoop_ge _ _ h)]
        simp
      | succ j =>
        have := ih (nq + 1) j
        rw [show nq + 1 + j = nq + (j + 1) by omega] at this
        simpa using this
    · rename_i e rest h0
      cases j with
      | zero => simp [taken, delivered, h0]
      | succ j => simp [taken, delivered]

theorem getNextEvent_waiting (qs : List (EvQ E)) (j) :
    taken j (getNextEvent qs).1 ++ waiting (getNextEvent qs).2 j = waiting qs j := by
  have h1 := firstLoop_waiting 0 qs j
  rw [Nat.zero_add] at h1
  unfold getNextEvent
  split
  · rename_i h; rw [h] at h1; exact h1
  · rename_i qs' h
    rw [h] at h1
    have h2 := secondLoop_waiting 0 qs' j
    rw [Nat.zero_add] at h2
    rw [h2]; simpa [taken, delivered] using h1

theorem secondLoop_none (nq) (qs : List (EvQ E)) (h : (secondLoop nq qs).1 = none) (j) : waiting qs j = [] := by
  induction qs generalizing nq j with
  | nil => simp
  | cons q qs ih =>
    simp only [secondLoop] at h
    split at h
    · rename_i h0
      cases j with
      | zero => simp [h0]
      | succ j => simpa using ih _ h j
    · simp at h

theorem getNextEvent_none (qs : List (EvQ E)) (h : (getNextEvent qs).1 = none) (j) : waiting qs j = [] := by
  have h1 := firstLoop_waiting 0 qs j
  unfold getNextEvent at h
  split at h
  · simp at h
  · rename_i qs' h'
    rw [h'] at h1
    rw [← h1]
    simp [taken, delivered, secondLoop_none _ _ h j]

theorem waiting_modify (qs : List (EvQ E)) (k j : Nat) (e : E) (hk : k < qs.length) :
    waiting (qs.modify k fun q => { q with items := q.items ++ [e] }) j = waiting qs j ++ (if k = j then [e] else []) := by
  simp only [waiting, List.getElem?_modify]
  by_cases h : k = j
  · subst h
    simp [List.getElem?_eq_getElem hk]
  · simp [h]

theorem pushEvent_some {qs qs' : List (EvQ E)} {e nq} (h : pushEvent qs e nq = some qs') :
    ∃ k : Nat, prio qs.length nq = k ∧ k < qs.length ∧ qs' = qs.modify k fun q => { q with items := q.items ++ [e] } := by
  unfold pushEvent at h
  by_cases hn : nq < 0
  · simp only [hn, if_true] at h
    split at h
    · refine ⟨qs.length - 1, ?_, ?_, ?_⟩
      · simp only [prio, hn, if_true]; omega
      · omega
      · cases h; congr 1; omega
    · simp at h
  · simp only [hn, if_false] at h
    split at h
    · refine ⟨nq.toNat, ?_, ?_, ?_⟩
      · simp only [prio, hn, if_false]; omega
      · omega
      · cases h; rfl
    · simp at h

theorem run_waiting (ops : List (Op E)) : ∀ {qs outs qs'}, run qs ops = some (outs, qs') →
    qs'.length = qs.length ∧ ∀ j, delivered j outs ++ waiting qs' j = waiting qs j ++ fired qs.length j ops := by
  induction ops with
  | nil => intro qs outs qs' h; simp only [run] at h; cases h; simp [delivered, fired]
  | cons op ops ih =>
    intro qs outs qs' h
    cases op with
    | fire e nq =>
      simp only [run, Option.bind_eq_bind, Option.bind_eq_some_iff] at h
      obtain ⟨qs1, h1, h2⟩ := h
      obtain ⟨k, hk1, hk2, rfl⟩ := pushEvent_some h1
      obtain ⟨e1, e2⟩ := ih h2
      refine ⟨by simpa using e1, fun j => ?_⟩
      rw [e2 j, waiting_modify _ _ _ _ hk2, List.length_modify]
      simp only [fired, hk1]
      by_cases hj : k = j
      · simp [hj]
      · simp [hj, show ¬ (k : Int) = j by omega]
    | fetch =>
      simp only [run, Option.bind_eq_bind, Option.bind_eq_some_iff] at h
      obtain ⟨⟨os, qs1⟩, h1, h2⟩ := h
      cases h2
      obtain ⟨e1, e2⟩ := ih h1
      rw [getNextEvent_length] at e1 e2
      refine ⟨e1, fun j => ?_⟩
      rw [delivered_cons, List.append_assoc, e2 j, ← List.append_assoc, getNextEvent_waiting]
      rfl

theorem run_append (a b : List (Op E)) : ∀ {qs}, run qs (a ++ b) =
    (run qs a).bind fun r => (run r.2 b).map fun s => (r.1 ++ s.1, s.2) := by
  induction a with
  | nil =>
    intro qs
    simp only [List.nil_append, run, Option.bind_some]
    cases run qs b <;> simp
  | cons op a ih =>
    intro qs
    cases op with
    | fire e nq =>
      simp only [List.cons_append, run, Option.bind_eq_bind]
      cases pushEvent qs e nq with
      | none => rfl
      | some q => simp [ih]
    | fetch =>
      simp only [List.cons_append, run, Option.bind_eq_bind, ih]
      cases run (getNextEvent qs).2 a with
      | none => rfl
      | some r =>
        simp only [Option.bind_some]
        cases run r.2 b <;> simp

/-! ### Starvation bound -/

/-- All scalers lie in 1..8. -/
def ScalersOk (qs : List (EvQ E)) : Prop := ∀ q ∈ qs, 1 ≤ q.scaler ∧ q.scaler ≤ 8

/-- Upper bound on the fetches until event number `k` waiting in queue `j` is delivered; depends only
on the scalers. -/
def bound (k : Nat) : Nat → List (EvQ E) → Int
  | _, [] => 1
  | 0, q :: _ => 1 + 2 * k + (if q.scaler = 1 then 1 else 0)
  | j + 1, q :: qs => q.scaler + 8 * (bound k j qs - 1)

theorem bound_pos (k j : Nat) (qs : List (EvQ E)) (hs : ScalersOk qs) : 1 ≤ bound k j qs := by
  induction qs generalizing j with
  | nil => cases j <;> simp [bound]
  | cons q qs ih =>
    cases j with
    | zero => simp only [bound]; split <;> omega
    | succ j =>
      have := ih j (fun q hq => hs q (by simp [hq]))
      have := hs q (by simp)
      simp only [bound]; omega

theorem bound_le (k j : Nat) (qs : List (EvQ E)) (hs : ScalersOk qs) : bound k j qs ≤ ((8 ^ j * (2 * k + 2) : Nat) : Int) := by
  induction qs generalizing j with
  | nil =>
    have : 0 < 8 ^ j * (2 * k + 2) := Nat.mul_pos (Nat.pow_pos (by omega)) (by omega)
    cases j <;> simp only [bound] <;> omega
  | cons q qs ih =>
    cases j with
    | zero => simp only [bound]; split <;> omega
    | succ j =>
      have h1 := ih j (fun q hq => hs q (by simp [hq]))
      have h2 := hs q (by simp)
      simp only [bound]
      have : (8 : Nat) ^ (j + 1) * (2 * k + 2) = 8 * (8 ^ j * (2 * k + 2)) := by
        rw [Nat.pow_succ, Nat.mul_comm (8 ^ j) 8, Nat.mul_assoc]
      rw [this]
      omega

theorem bound_mono (k k' j : Nat) (qs : List (EvQ E)) (h : k' ≤ k) : bound k' j qs ≤ bound k j qs := by
  induction qs generalizing j with
  | nil => cases j <;> simp [bound]
  | cons q qs ih =>
    cases j with
    | zero => simp only [bound]; split <;> omega
    | succ j => have := ih j; simp only [bound]; omega

theorem firstLoop_scalers (nq) (qs : List (EvQ E)) (hs : ScalersOk qs) : ScalersOk (firstLoop nq qs).2 := by
  induction qs generalizing nq with
  | nil => exact hs
  | cons q qs ih =>
    have h1 := ih (nq + 1) (fun q hq => hs q (by simp [hq]))
    have h2 := hs q (by simp)
    have h3 : ∀ q ∈ qs, 1 ≤ q.scaler ∧ q.scaler ≤ 8 := fun q hq => hs q (by simp [hq])
    simp only [firstLoop]
    split
    · intro p hp
      rcases List.mem_cons.mp hp with rfl | hp
      · exact h2
      · exact h1 p hp
    · split
      · intro p hp
        rcases List.mem_cons.mp hp with rfl | hp
        · simp only; omega
        · exact h3 p hp
      · intro p hp
        rcases List.mem_cons.mp hp with rfl | hp
        · simp only; omega
        · exact h1 p hp

theorem secondLoop_scalers (nq) (qs : List (EvQ E)) :
    (secondLoop nq qs).2.map EvQ.scaler = qs.map EvQ.scaler := by
  induction qs generalizing nq with
  | nil => rfl
  | cons q qs ih =>
    simp only [secondLoop]
    split <;> simp [ih]

theorem bound_congr (k j : Nat) (qs qs' : List (EvQ E)) (h : qs'.map EvQ.scaler = qs.map EvQ.scaler) :
    bound k j qs' = bound k j qs := by
  induction qs generalizing qs' j with
  | nil => simp at h; subst h; rfl
  | cons q qs ih =>
    cases qs' with
    | nil => simp at h
    | cons q' qs' =>
      simp only [List.map_cons, List.cons.injEq] at h
      cases j with
      | zero => simp only [bound, h.1]
      | succ j => simp only [bound, h.1, ih j qs' h.2]

theorem scalersOk_congr (qs qs' : List (EvQ E)) (h : qs'.map EvQ.scaler = qs.map EvQ.scaler) (hs : ScalersOk qs) :
    ScalersOk qs' := by
  intro q hq
  have : q.scaler ∈ qs'.map EvQ.scaler := List.mem_map_of_mem hq
  rw [h, List.mem_map] at this
  obtain ⟨p, hp, he⟩ := this
  rw [← he]; exact hs p hp

theorem firstLoop_bound (k j nq : Nat) (qs : List (EvQ E)) (hs : ScalersOk qs) (hk : k < (waiting qs j).length) :
    (taken (nq + j) (firstLoop nq qs).1 = [] → bound k j (firstLoop nq qs).2 + 1 ≤ bound k j qs) ∧
    (taken (nq + j) (firstLoop nq qs).1 ≠ [] → 1 ≤ k → bound (k - 1) j (firstLoop nq qs).2 + 1 ≤ bound k j qs) := by
  induction qs generalizing j nq with
  | nil => simp at hk
  | cons q qs ih =>
    have h2 := hs q (by simp)
    have h3 : ScalersOk qs := fun q hq => hs q (by simp [hq])
    cases j with
    | zero =>
      rw [waiting_cons_zero] at hk
      have hne : q.items ≠ [] := by intro e; simp [e] at hk
      obtain ⟨e, rest, he⟩ := List.exists_cons_of_ne_nil hne
      simp only [firstLoop, he]
      by_cases hsc : q.scaler - 1 > 0
      · rw [if_pos hsc]
        constructor
        · intro h; simp [taken, delivered] at h
        · intro _ h1
          simp only [bound]
          rw [if_neg (by omega : ¬ q.scaler = 1)]
          split <;> omega
      · rw [if_neg hsc]
        have hnil := taken_none_of_ge (nq := nq + 1) (j := nq + 0) (by omega) _ (fun i e h => firstLoop_ge (nq + 1) qs h)
        constructor
        · intro _
          simp only [bound]
          rw [if_pos (by omega : q.scaler = 1)]
          simp
        · intro h; exact absurd hnil h
    | succ j =>
      rw [waiting_cons_succ] at hk
      have := ih j (nq + 1) h3 hk
      rw [show nq + 1 + j = nq + (j + 1) by omega] at this
      obtain ⟨i1, i2⟩ := this
      simp only [firstLoop]
      split
      · constructor
        · intro h; have := i1 h; simp only [bound]; omega
        · intro h h1; have := i2 h h1; simp only [bound]; omega
      · rename_i e rest he
        by_cases hsc : q.scaler - 1 > 0
        · rw [if_pos hsc]
          constructor
          · intro _; simp only [bound]; omega
          · intro h; simp [taken, delivered] at h
        · rw [if_neg hsc]
          constructor
          · intro h; have := i1 h; simp only [bound]; omega
          · intro h h1; have := i2 h h1; simp only [bound]; omega

theorem getNextEvent_scalers (qs : List (EvQ E)) (hs : ScalersOk qs) : ScalersOk (getNextEvent qs).2 := by
  have h1 := firstLoop_scalers 0 qs hs
  unfold getNextEvent
  split
  · rename_i h; rw [h] at h1; exact h1
  · rename_i qs' h; rw [h] at h1
    exact scalersOk_congr _ _ (secondLoop_scalers 0 qs') h1

theorem getNextEvent_bound (k j : Nat) (qs : List (EvQ E)) (hs : ScalersOk qs) (hk : k < (waiting qs j).length) :
    (taken j (getNextEvent qs).1 = [] → bound k j (getNextEvent qs).2 + 1 ≤ bound k j qs) ∧
    (taken j (getNextEvent qs).1 ≠ [] → 1 ≤ k → bound (k - 1) j (getNextEvent qs).2 + 1 ≤ bound k j qs) := by
  have h1 := firstLoop_bound k j 0 qs hs hk
  rw [Nat.zero_add] at h1
  unfold getNextEvent
  split
  · rename_i h; rw [h] at h1; exact h1
  · rename_i qs' h; rw [h] at h1
    have h2 := h1.1 rfl
    simp only at h2
    constructor
    · intro _; rw [bound_congr _ _ _ _ (secondLoop_scalers 0 qs')]; exact h2
    · intro _ _
      rw [bound_congr _ _ _ _ (secondLoop_scalers 0 qs')]
      have := bound_mono k (k - 1) j qs' (by omega)
      omega

theorem taken_length (j) (r : Option (Nat × E)) : (taken j r).length ≤ 1 := by
  cases r with
  | none => simp [taken, delivered]
  | some p => obtain ⟨i, e⟩ := p; simp only [taken, delivered]; split <;> simp

theorem run_bound (ops : List (Op E)) : ∀ {qs outs qs'} (k j : Nat), run qs ops = some (outs, qs') →
    ScalersOk qs → k < (waiting qs j).length → bound k j qs ≤ fetches ops → k < (delivered j outs).length := by
  induction ops with
  | nil =>
    intro qs outs qs' k j _ hs _ hb
    have := bound_pos k j qs hs
    simp only [fetches] at hb; omega
  | cons op ops ih =>
    intro qs outs qs' k j h hs hk hb
    cases op with
    | fire e nq =>
      simp only [run, Option.bind_eq_bind, Option.bind_eq_some_iff] at h
      obtain ⟨qs1, h1, h2⟩ := h
      obtain ⟨i, hi1, hi2, rfl⟩ := pushEvent_some h1
      have hsc : (qs.modify i fun q => { q with items := q.items ++ [e] }).map EvQ.scaler = qs.map EvQ.scaler := by
        apply List.ext_getElem?
        intro m
        simp only [List.getElem?_map, List.getElem?_modify]
        split
        · cases qs[m]? <;> rfl
        · simp
      refine ih k j h2 (scalersOk_congr _ _ hsc hs) ?_ ?_
      · rw [waiting_modify _ _ _ _ hi2, List.length_append]; omega
      · rw [bound_congr _ _ _ _ hsc]; exact hb
    | fetch =>
      simp only [run, Option.bind_eq_bind, Option.bind_eq_some_iff] at h
      obtain ⟨⟨os, qs1⟩, h1, h2⟩ := h
      cases h2
      have hb1 := getNextEvent_bound k j qs hs hk
      have hw := congrArg List.length (getNextEvent_waiting qs j)
      have hs1 := getNextEvent_scalers qs hs
      have htl := taken_length j (getNextEvent qs).1
      rw [List.length_append] at hw
      rw [delivered_cons, List.length_append]
      simp only [fetches] at hb
      by_cases ht : taken j (getNextEvent qs).1 = []
      · rw [ht] at hw ⊢
        simp only [List.length_nil, Nat.zero_add] at hw ⊢
        have := hb1.1 ht
        exact ih k j h1 hs1 (by omega) (by omega)
      · have hl1 : (taken j (getNextEvent qs).1).length = 1 := by
          have := List.length_pos_iff.mpr ht; omega
        by_cases hk0 : k = 0
        · omega
        · have := hb1.2 ht (by omega)
          have := ih (k - 1) j h1 hs1 (by omega) (by omega)
          simp only at *
          omega

theorem run_scalers (ops : List (Op E)) : ∀ {qs outs qs'}, run qs ops = some (outs, qs') → ScalersOk qs → ScalersOk qs' := by
  induction ops with
  | nil => intro qs outs qs' h hs; simp only [run] at h; cases h; exact hs
  | cons op ops ih =>
    intro qs outs qs' h hs
    cases op with
    | fire e nq =>
      simp only [run, Option.bind_eq_bind, Option.bind_eq_some_iff] at h
      obtain ⟨qs1, h1, h2⟩ := h
      obtain ⟨i, hi1, hi2, rfl⟩ := pushEvent_some h1
      refine ih h2 (scalersOk_congr _ _ ?_ hs)
      apply List.ext_getElem?
      intro m
      simp only [List.getElem?_map, List.getElem?_modify]
      split
      · cases qs[m]? <;> rfl
      · simp
    | fetch =>
      simp only [run, Option.bind_eq_bind, Option.bind_eq_some_iff] at h
      obtain ⟨⟨os, qs1⟩, h1, h2⟩ := h
      cases h2
      exact ih h1 (getNextEvent_scalers qs hs)

theorem init_scalers (n) : ScalersOk (initQueues n : List (EvQ E)) := by
  intro q hq
  have := List.eq_of_mem_replicate hq
  subst this; simp

theorem init_waiting (n j) : waiting (initQueues n : List (EvQ E)) j = [] := by
  simp only [waiting, initQueues, List.getElem?_replicate]
  split <;> simp

end Verif.Events
