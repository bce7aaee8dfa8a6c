import Verif.QueueRefine

/-! # Properties C01-C04 of `dabc::Queue`; the specification is in `Verif/Spec/Queue.lean`. -/

namespace Verif.Queue
variable {α : Type} [DecidableEq α]

/-! ## C01 -/

/-- **C01.** An expandable queue created with any capacity answers every sequence of calls exactly as
the ideal unbounded FIFO does. -/
theorem C01_queue_fifo (cap : Nat) (ops : List (Op α)) (outs : List (Out α)) (l : List α)
    (hspec : specRun fifoStep [] ops = some (outs, l)) :
    ∃ q, run true (Q.empty.init cap) ops = some (outs, q) ∧ Content q l := by
  obtain ⟨q, e1, e2⟩ := run_fifo ops (rep_init (n := cap)) hspec
  exact ⟨q, e1, e2.content⟩

/-- Non-trivial case: wrap around, reallocation and removal in the middle. -/
example : specRun fifoStep [] [.push 1, .push 2, .pop, .push 3, .push 4, .removeItem 1, .push 2, .remove 2, .back, .pop]
    = some ([.unit, .unit, .val 1, .unit, .unit, .bool true, .unit, .unit, .val 4, .val 4], []) := by decide

/-! ## C02 -/

/-- **C02.** A fixed queue of capacity `cap` answers every sequence of calls as the ideal FIFO bounded
by `cap`, in which a push on a full queue changes nothing. -/
theorem C02_fixed_queue_bounded (cap : Nat) (ops : List (Op α)) (outs : List (Out α)) (s : List α × Nat)
    (hspec : specRun boundedStep ([], cap) ops = some (outs, s)) :
    ∃ q, run false (Q.empty.init cap) ops = some (outs, q) ∧ Content q s.1 ∧ q.cap = s.2 := by
  obtain ⟨q, e1, e2, e3⟩ := run_bounded ops (rep_init (n := cap)) (by rw [init_cap]; exact hspec)
  exact ⟨q, e1, e2.content, e3⟩

example : specRun boundedStep ([], 2) [.push 1, .push 2, .full, .push 3, .pop, .push 4, .pop, .pop, .empty]
    = some ([.unit, .unit, .bool true, .unit, .val 1, .unit, .val 2, .val 4, .bool true], ([], 2)) := by decide

/-- **C02**, size bound: a fixed queue that is never re-dimensioned never holds more than `cap`
elements, whatever is called. -/
theorem C02_fixed_queue_size (cap : Nat) (ops : List (Op α)) (outs : List (Out α)) (q : Q α)
    (hop : ∀ op ∈ ops, ∀ n, op ≠ Op.allocate n ∧ op ≠ Op.expand n)
    (hrun : run false (Q.empty.init cap) ops = some (outs, q)) : q.size ≤ cap := by
  have hc := run_fixed_cap ops _ _ _ _ rep_init hop hrun
  obtain ⟨l, hl⟩ := run_rep ops rep_init (fun op h => (hop op h 0).1) hrun
  have := hl.le
  rw [hc, init_cap] at this
  exact this

/-! ## C03 -/

/-- **C03 (partial).** `Remove(v)` leaves exactly the elements different from `v` in their order.  Its
result tells whether something was removed - *except* when a completely filled queue contains only
elements equal to `v` (see the counterexample).  Missing for the full property: the flag in that case. -/
theorem C03_remove_partial (ce : Bool) (q : Q α) (hq : Reachable ce q) (l : List α) (hl : Content q l) (v : α) :
    ∃ b q', q.remove v = some (b, q') ∧ Content q' (l.filter (· ≠ v)) ∧ q'.cap = q.cap ∧
      (¬ (l.length = q.cap ∧ ∀ x ∈ l, x = v) → (b = true ↔ v ∈ l)) := by
  have h := reachable_content hq hl
  have h1 := h.len; have h2 := h.le; have h3 := h.tl; have h4 := h.hd
  obtain ⟨b, q', e1, e2, e3, e4⟩ := rep_remove h v
  refine ⟨b, q', e1, e2.content, e3, fun hnot => ?_⟩
  rw [e4]
  have hmem : v ∈ l ↔ (l.filter (· ≠ v)).length ≠ l.length := by
    constructor
    · intro hv heq
      have := List.length_filter_eq_length_iff.mp heq v hv
      simp at this
    · intro hne
      apply Classical.byContradiction
      intro hv
      apply hne
      rw [List.length_filter_eq_length_iff]
      intro a ha
      simp only [decide_not, Bool.not_eq_eq_eq_not, Bool.not_true, decide_eq_false_iff_not]
      rintro rfl; exact hv ha
  have hle : (l.filter (· ≠ v)).length ≤ l.length := List.length_filter_le _ _
  have hzero : (l.filter (· ≠ v)).length = 0 → ∀ x ∈ l, x = v := by
    intro h0 x hx
    have := List.length_eq_zero_iff.mp h0
    rw [List.filter_eq_nil_iff] at this
    simpa using this x hx
  rw [hmem, h4, h1]
  generalize (l.filter (· ≠ v)).length = n at *
  constructor
  · rintro ⟨hne, _⟩ heq
    rw [heq] at hne; exact hne rfl
  · intro hne
    refine ⟨?_, ?_⟩
    · intro heq
      simp only [Q.at] at heq
      have hcase : n = 0 ∧ q.size = q.cap := by
        split at heq <;> split at heq <;> omega
      exact hnot ⟨by omega, hzero hcase.1⟩
    · intro e
      have : l.length = 0 := by rw [e]; rfl
      omega

/-- The queue of capacity 4 after pushing 1,2,1,3, seen by the user as [1,2,1,3]. -/
example : ∃ q : Q Nat, run true (Q.empty.init 4) [.push 1, .push 2, .push 1, .push 3] = some ([.unit, .unit, .unit, .unit], q)
    ∧ (q.remove 1).map (fun r => (r.1, r.2.size, r.2.item 0, r.2.item 1)) = some (true, 2, some 2, some 3) :=
  ⟨_, rfl, rfl⟩

/-- **C03 counterexample.** A queue of capacity 2 filled with 7,7: `Remove(7)` removes both and
returns false. -/
theorem C03_remove_flag_counterexample :
    ∃ q : Q Nat, run false (Q.empty.init 2) [.push 7, .push 7] = some ([.unit, .unit], q) ∧
      (q.remove 7).map (fun r => (r.1, r.2.size)) = some (false, 0) :=
  ⟨_, rfl, rfl⟩

/-! ## C04 -/

/-- **C04 (partial).** Iterating a non-empty queue visits exactly the stored elements in order and
ends.  Missing: the empty queue, for which the property is false (counterexample below). -/
theorem C04_iterate_partial (ce : Bool) (q : Q α) (hq : Reachable ce q) (l : List α) (hl : Content q l)
    (hne : l ≠ []) (fuel : Nat) (hf : l.length < fuel) : q.iterate fuel = some l := by
  have h := reachable_content hq hl
  have hpos : 0 < l.length := List.length_pos_iff.mpr hne
  have h2 := h.le; have h1 := h.len; have h3 := h.tl
  have := iterFrom_spec l h 0 fuel hpos (by simp) hf
  rw [if_neg (by omega)] at this
  exact this

example : ∃ q : Q Nat, run true (Q.empty.init 2) [.push 1, .push 2, .pop, .push 3] = some ([.unit, .unit, .val 1, .unit], q)
    ∧ q.tail = 1 ∧ q.head = 1 ∧ q.iterate 3 = some [2, 3] :=
  ⟨_, rfl, rfl, rfl, rfl⟩

/-- **C04 counterexample.** After push and pop the queue is empty, but iterating it visits the stale
element. -/
theorem C04_iterate_empty_counterexample :
    ∃ q : Q Nat, run true (Q.empty.init 1) [.push 5, .pop] = some ([.unit, .val 5], q) ∧
      Content q [] ∧ q.iterate 2 = some [5] :=
  ⟨_, rfl, ⟨rfl, fun i hi => by simp at hi⟩, rfl⟩

end Verif.Queue
