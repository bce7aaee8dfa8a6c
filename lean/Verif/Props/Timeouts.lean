import Verif.TimeoutsLemmas

/-!
# C65: timeouts are neither early nor forgotten

The hypothesis `FlatOp`: no worker runs the event loop of the thread inside of
its own `ProcessTimeout`.  Without it the statements are false, see the
counterexamples.
-/

namespace Verif.Timeouts

open Spec

/-- **C65** (partial: `FlatOp`).  `ProcessTimeout` is called only when a timeout
was requested and its time is over, with the time since the last call (or since
the activation) as argument. -/
theorem C65_not_early_partial (n : Nat) (os : List Op) (hf : ∀ o ∈ os, FlatOp o) (i : Nat)
    (hi : i < n) : (slot i (steps (new n) os).log).ok = true := by
  obtain ⟨r, _, h⟩ := slot_exists hf hi
  exact h.ok

/-- **C65** (partial: `FlatOp`).  When `CheckTimeouts` is called, `ProcessTimeout`
is called for every slot whose time is over. -/
theorem C65_fires_partial (n : Nat) (os : List Op) (hf : ∀ o ∈ os, FlatOp o) (ans : Nat → Ans)
    (ha : Flat ans) (i : Nat) (hi : i < n) (s : S) (hs : s = steps (new n) os) (d : Nat)
    (hd : (slot i s.log).due = some d) (hlate : d < s.clock) :
    ∃ l diff, (checkTimeouts false ans s).1.log = s.log ++ l ∧ Ev.fire i s.clock diff ∈ l := by
  obtain ⟨r, hr, h⟩ := slot_exists hf hi
  rw [← hs] at hr h
  have hinv : Inv s := by rw [hs]; exact steps_inv hf (new_inv n)
  obtain ⟨l, hl, hfire⟩ := (check_all ha hinv).log
  have hnext : r.next = some d := by rw [← hd, h.due]; rfl
  obtain ⟨diff, hm⟩ := hfire i r d hr hnext hlate
  exact ⟨l, diff, hl, hm⟩

/-- **C65** (partial: `FlatOp`).  The time which `CheckTimeouts` lets the thread
wait ends not later than the next timeout is due — apart from the time which the
called `ProcessTimeout` needed; the thread waits without limit only when no
timeout is due. -/
theorem C65_wait_partial (n : Nat) (os : List Op) (hf : ∀ o ∈ os, FlatOp o) (ans : Nat → Ans)
    (ha : Flat ans) (i : Nat) (hi : i < n) (s s' : S) (w : Option Nat) (hs : s = steps (new n) os)
    (hc : checkTimeouts false ans s = (s', w)) (d : Nat) (hd : (slot i s'.log).due = some d) :
    ∃ k, w = some k ∧ s'.clock + k ≤ d + (s'.clock - s.clock) := by
  have hf' : ∀ o ∈ os ++ [Op.loop ans], FlatOp o := by
    intro o ho
    rcases List.mem_append.mp ho with ho | ho
    · exact hf o ho
    · obtain rfl := List.mem_singleton.mp ho; exact ha
  obtain ⟨r, hr, h⟩ := slot_exists (n := n) hf' hi
  have hinv : Inv s := by rw [hs]; exact steps_inv hf (new_inv n)
  have hst : steps (new n) (os ++ [Op.loop ans]) = s' := by
    unfold steps
    rw [List.foldl_append]
    show step (steps (new n) os) (Op.loop ans) = s'
    rw [← hs]
    show (checkTimeouts false ans s).1 = s'
    rw [hc]
  rw [hst] at hr h
  have hnext : r.next = some d := by rw [← hd, h.due]; rfl
  have hall := check_all ha hinv
  rw [hc] at hall
  obtain ⟨k, hk, hkd⟩ := hall.wait i r d hr hnext
  have hcl := hall.clock
  refine ⟨k, hk, ?_⟩
  dsimp only at hcl
  omega

/-- **C65** (partial: `FlatOp`).  A request which the thread did not take over
has an event in the queue of the thread. -/
theorem C65_request_partial (n : Nat) (os : List Op) (hf : ∀ o ∈ os, FlatOp o) (i : Nat)
    (hi : i < n) (h : (slot i (steps (new n) os).log).req ≠ none) : i ∈ (steps (new n) os).evs := by
  obtain ⟨r, hr, hrel⟩ := slot_exists hf hi
  refine (steps_inv hf (new_inv n)).evs i r hr ?_
  cases ha : r.active with
  | true => rfl
  | false => exact absurd (hrel.free ha) h

/-! ## Counterexamples -/

/-- A worker activates its timeout again inside of `ProcessTimeout`, runs the
event loop there and returns `-1`: the timeout is lost — nothing is in the queue
and the thread waits without limit. -/
theorem C65_lost_counterexample :
    let ans : Nat → Ans := fun _ => ⟨none, [.act 0 (some 5), .event 0]⟩
    let s := steps (new 1) [.act 0 (some 1), .event 0 fun _ => {}, .wait 2, .loop ans, .wait 100]
    (slot 0 s.log).due = some 7 ∧ s.clock = 102 ∧ s.evs = [] ∧
    (checkTimeouts false (fun _ => {}) s).2 = none ∧ (checkTimeouts false (fun _ => {}) s).1 = s := by
  decide

/-- Worker 1 runs the event loop inside of its `ProcessTimeout` and there the
timeout of worker 0 is activated: the thread does not know of it. -/
theorem C65_other_counterexample :
    let ans : Nat → Ans := fun _ => ⟨none, [.act 0 (some 5), .event 0]⟩
    let s := steps (new 2) [.act 1 (some 1), .event 1 fun _ => {}, .wait 2, .loop ans, .wait 100]
    (slot 0 s.log).due = some 7 ∧ s.clock = 102 ∧ s.evs = [] ∧
    (checkTimeouts false (fun _ => {}) s).2 = none ∧ (checkTimeouts false (fun _ => {}) s).1 = s := by
  decide

/-- `ActivateTimeout(-1)` does not prevent a call of `ProcessTimeout` which is
due before the thread meets the event. -/
theorem C65_cancel_counterexample :
    (steps (new 1) [.act 0 (some 1), .event 0 fun _ => {}, .act 0 none, .wait 5, .loop fun _ => {}]).log =
    [.act 0 0 (some 1), .taken 0, .act 0 0 none, .fire 0 5 5, .done 0 5 none] := by decide

/-! ## Examples -/

/-- Two slots with periods 3 and 5. -/
def demo : List Op :=
  let ans : Nat → Ans := fun i => ⟨some (if i = 0 then 3 else 5), [.wait 1]⟩
  [.act 0 (some 3), .act 1 (some 5), .event 1 ans, .event 0 ans, .wait 4, .loop ans, .wait 2, .loop ans]

example : (steps (new 2) demo).log =
    [.act 0 0 (some 3), .act 1 0 (some 5), .taken 1, .taken 0, .fire 0 4 4, .done 0 4 (some 3),
     .fire 1 7 7, .done 1 7 (some 5)] := by decide

example : (steps (new 2) demo).nextT = some 7 ∧ (slot 1 (steps (new 2) demo).log).due = some 12 := by
  decide

example : ∀ o ∈ demo, FlatOp o := by
  have h : Flat fun i => ⟨some (if i = 0 then 3 else 5), [.wait 1]⟩ := by
    intro i j hj
    simp at hj
  intro o ho
  simp only [demo, List.mem_cons, List.not_mem_nil, or_false] at ho
  rcases ho with rfl | rfl | rfl | rfl | rfl | rfl | rfl | rfl <;> first | exact h | trivial

/-- The hypotheses of `C65_fires_partial` and `C65_request_partial`. -/
example : let s := steps (new 1) [.act 0 (some 3), .event 0 fun _ => {}, .wait 4, .act 0 (some 1)]
    (slot 0 s.log).due = some 3 ∧ 3 < s.clock ∧ (slot 0 s.log).req ≠ none := by decide

/-- The expectation refuses early calls and calls without request. -/
example : (slot 0 [.act 0 1 (some 3), .taken 0, .fire 0 4 3]).ok = false ∧
    (slot 0 [.act 0 1 (some 3), .fire 0 8 7]).ok = false ∧
    (slot 0 [.act 0 1 (some 3), .taken 0, .fire 0 5 3]).ok = false ∧
    (slot 0 [.act 0 1 (some 3), .taken 0, .fire 0 5 4, .done 0 5 none, .fire 0 9 4]).ok = false := by
  decide

end Verif.Timeouts
