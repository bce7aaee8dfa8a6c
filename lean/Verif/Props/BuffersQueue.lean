import Verif.BuffersQueueLemmas

/-! # Property C05 (`dabc::BuffersQueue`); specification in `Verif/Spec/BuffersQueue.lean`. -/

namespace Verif.BuffersQueue
variable {β : Type}

/-- **C05.** A `BuffersQueue` of any capacity `N ≥ 1` answers every sequence of calls as the ideal FIFO
bounded by `N`; the reported total size is the sum over the content. -/
theorem C05_buffers_queue_fifo (N : Nat) (hN : 0 < N) (ops : List (Op β)) (outs : List (Out β)) (l : List (Option β))
    (hspec : specRun N [] ops = some (outs, l)) (sz : β → Nat) :
    ∃ q, run (BQ.create N) ops = some (outs, q) ∧ q.size = l.length ∧ (∀ i, i < l.length → q.item i = l[i]?) ∧
      q.totalSize sz = (l.map fun b => (b.map sz).getD 0).sum := by
  obtain ⟨q, e1, e2, e3⟩ := run_spec ops (rep_create hN) hspec
  refine ⟨q, e1, e2.len.symm, fun i hi => rep_item e2 hi, ?_⟩
  rw [BQ.totalSize]
  congr 1
  apply List.ext_getElem?
  intro i
  by_cases hi : i < l.length
  · have h1 := e2.len
    have h2 := e2.cells i hi
    simp only [List.getElem?_map, List.getElem?_range (by omega : i < q.size), ← h2, Option.map_some]
    rw [Nat.add_comm]
  · have h1 := e2.len
    rw [List.getElem?_eq_none (by simp; omega), List.getElem?_eq_none (by simp; omega)]

example : specRun 2 [] [.push (some 1), .push (some 2), .push (some 3), .pop, .push (some 3), .item 1, .cleanup, .size]
    = some ([.flag true none, .flag true none, .flag false (some 3), .flag true (some 1), .flag true none,
        .buf (some 3), .unit, .nat 0], []) := by decide

/-- **C05**, clean-up under a mutex (partial): `Cleanup(Mutex*)` empties a queue holding only non-null
buffers.  Missing: queues holding a null buffer, for which it stops early (next theorem). -/
theorem C05_cleanup_mutex_partial (N : Nat) (hN : 0 < N) (ops : List (Op β)) (outs : List (Out β)) (l : List (Option β))
    (hspec : specRun N [] ops = some (outs, l)) (hnn : ∀ b ∈ l, b.isSome) :
    ∃ q q', run (BQ.create N) ops = some (outs, q) ∧ q.cleanupM (q.size + 1) = some q' ∧ q'.size = 0 := by
  obtain ⟨q, e1, e2, e3⟩ := run_spec ops (rep_create hN) hspec
  obtain ⟨q', e4, e5, _⟩ := rep_cleanupM (q.size + 1) e2 (by have := e2.len; omega)
  refine ⟨q, q', e1, e4, ?_⟩
  have : l.dropWhile Option.isSome = [] := by
    clear hspec e1 e2 e5
    induction l with
    | nil => rfl
    | cons a l ih =>
      rw [List.dropWhile_cons, if_pos (hnn a (by simp))]
      exact ih (fun b hb => hnn b (by simp [hb]))
  rw [this] at e5
  simpa using e5.len.symm

example : specRun 2 [] [.push (some 1), .push (some 2)]
    = some ([.flag true none, .flag true none], [some 1, some 2]) := by decide

/-- **C05 counterexample.** After pushing a null buffer and then a real one, `Cleanup(Mutex*)` leaves
the real buffer in the queue. -/
theorem C05_cleanup_mutex_counterexample :
    ∃ q q' : BQ Nat, run (BQ.create 2) [.push none, .push (some 1)] = some ([.flag true none, .flag true none], q) ∧
      q.cleanupM (q.size + 1) = some q' ∧ q'.size = 1 ∧ q'.item 0 = some (some 1) :=
  ⟨_, _, rfl, rfl, rfl, rfl⟩

end Verif.BuffersQueue
