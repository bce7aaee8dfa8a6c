import Verif.OutTransportLemmas

/-!
# C64: output transports keep to the protocol of their output object
-/

namespace Verif.OutTransport

open Spec

/-- **C64**.  In every run the calls on the output object follow the protocol:
check, buffer, complete; pauses and call-backs are awaited; after an error the
output is either deleted or — when it wants to and after a pause — initialised
again before anything else is done with it; a deleted output is not used. -/
theorem C64_protocol (c : Cfg) (os : List Op) : (run c.retry (steps c new os).log).isSome := by
  rcases steps_base c os with ⟨h, _⟩ | ⟨h, _, _⟩
  · rw [h.log]; rfl
  · obtain ⟨p, hp, _⟩ := h.good.log
    rw [hp]; rfl

/-- **C64**.  What came to the port is dealt with in this order and once: each
data buffer is given to the output or skipped on its wish, each end-of-line
flushes, the end-of-file closes; the rest waits in the queue. -/
theorem C64_conserved (c : Cfg) (os : List Op) :
    consumed (steps c new os).log ++ (steps c new os).queue = arrived c os := by
  rcases steps_base c os with ⟨_, h⟩ | ⟨h, _, _⟩
  · exact h
  · exact h.cons

/-- **C64**.  A running transport never falls asleep: between operations an
event for its input port is under way, or there is nothing to write, or the
output owes a call-back, or a pause is needed and the timer is armed, or the
output waits for a new initialisation. -/
theorem C64_awake (c : Cfg) (os : List Op) (s : S) (hs : s = steps c new os)
    (ho : s.opened = true) (hr : s.run = true) :
    s.pend = true ∨ s.queue = [] ∨ run c.retry s.log = some .asked ∨
    run c.retry s.log = some .writing ∨
    (s.timer = true ∧ run c.retry s.log = some .timed) ∨ run c.retry s.log = some .paused := by
  subst hs
  rcases steps_base c os with ⟨h, _⟩ | ⟨h, hrest, hw⟩
  · exact absurd (ho.symm.trans h.opened) (by simp)
  · have hst : ∀ st q, (steps c new os).st = st → (∀ p, Rel st p → p = q) →
        run c.retry (steps c new os).log = some q := fun st q h1 h2 => h.good.runs h1 h2
    generalize steps c new os = s at *
    cases hx : s.st with
    | ready =>
      rcases hw hr hx with hq | hq
      · exact Or.inl hq
      · exact Or.inr (Or.inl hq)
    | initTimeout => exact Or.inr (Or.inr (Or.inr (Or.inr (Or.inl ⟨h.aux.timer hr hx, hst _ _ hx fun _ h => h⟩))))
    | waitCallback => exact Or.inr (Or.inr (Or.inl (hst _ _ hx fun _ h => h)))
    | waitFinish => exact Or.inr (Or.inr (Or.inr (Or.inl (hst _ _ hx fun _ h => h))))
    | retry => exact Or.inr (Or.inr (Or.inr (Or.inr (Or.inr (hst _ _ hx fun _ h => h)))))
    | startWriting | finishWriting | error | closing | closed => rw [hx] at hrest; exact absurd hrest id

/-- **C64** (partial: only while nobody stops the transport after its start).
An output which waits for a new initialisation will get it: the timer is
armed. -/
theorem C64_retry_partial (c : Cfg) (os : List Op) (hn : Op.stop ∉ os) (s : S)
    (hs : s = steps c new (.start :: os)) (ho : s.opened = true)
    (hp : run c.retry s.log = some .paused) : s.timer = true := by
  have hl : Live s := by
    rw [hs]
    exact steps_live (s := step c new .start) ⟨rfl, rfl, rfl, fun _ h => absurd (show St.ready = St.retry from h) (by simp)⟩ hn
  refine hl.paused ho ?_
  have hb := steps_base c (.start :: os)
  rw [← hs] at hb
  rcases hb with ⟨h, _⟩ | ⟨h, _, _⟩
  · rw [h.log] at hp; exact absurd hp (by simp)
  · obtain ⟨p, hp', hrel⟩ := h.good.log
    rw [hp] at hp'
    obtain rfl := Option.some.inj hp'
    unfold Rel at hrel
    cases hst : s.st <;> rw [hst] at hrel <;> first | rfl | exact absurd hrel (by simp)

/-- A transport which loses its timer: it is stopped while a buffer is written,
the writing fails, the output wants to try again — but the timer rings before
the transport is started again. -/
def lose : List Op :=
  [.start, .arrive (.data 1), .input [{ write := .callBack }], .stop,
   .back .ok false [{ compl := .error, retry := true }], .timer true [], .start]

/-- The general statement of `C64_retry_partial` is false: after these
operations the transport runs and waits for a new initialisation without a
timer, and whatever happens (besides an error call-back) nothing is ever written
again. -/
theorem C64_stuck_counterexample (os : List Op) (h : ∀ v r as, Op.back v r as ∈ os → v = .ok) :
    let c : Cfg := ⟨true, 1⟩
    let s := steps c new lose
    run true s.log = some .paused ∧ s.run = true ∧ s.opened = true ∧
    consumed (steps c s os).log = consumed s.log := by
  refine ⟨by decide, by decide, by decide, ?_⟩
  exact (stuck_steps ⟨Or.inl ⟨by decide, by decide, by decide⟩, rfl⟩ h).same

/-- While the output waits for a new initialisation and a buffer is in the
queue, the transport turns in an idle loop: an event of the port changes nothing
but fires the same event again. -/
theorem C64_busy_counterexample (c : Cfg) (s : S) (as : List Ans) (hst : s.st = .retry)
    (ho : s.out = true) (hop : s.opened = true) (hr : s.run = true) (hq : s.queue ≠ [])
    (hp : s.pend = true) (ha : ∀ a ∈ as, a.gone = false) : step c s (.input as) = s := by
  unfold step
  dsimp only
  rw [if_neg (by rw [hop]; simp), retry_input _ as (s := { s with pend := false }) hst ho ha]
  have hq' : s.queue.isEmpty = false := by
    cases hx : s.queue with
    | nil => exact absurd hx hq
    | cons a l => rfl
  dsimp only
  rw [hr, hop, hq']
  rw [if_pos (by rfl)]
  cases s
  simp_all

/-- A buffer whose writing failed is not written again after the new
initialisation. -/
theorem C64_lost_counterexample :
    (steps ⟨true, 1⟩ new [.start, .arrive (.data 1), .arrive (.data 2),
      .input [{ write := .error, retry := true }], .timer true []]).log =
    [.check .ok, .write 1 .error, .retry true, .timer, .init true, .check .ok, .write 2 .ok,
      .complete .ok] := by decide

/-- Closed on an error, the transport reports the state `Retry` and not
`Closed` (`CloseOnError` has no `return`). -/
theorem C64_state_counterexample :
    let s := steps ⟨false, 1⟩ new [.start, .arrive (.data 1), .input [{ check := .error }]]
    s.opened = false ∧ s.out = false ∧ s.st = .retry := by decide

/-! ## Examples -/

/-- Pauses, call-backs, skipped buffers, flush and end of file. -/
def demo : List Op :=
  [.start, .arrive (.data 1), .input [{ check := .againTimeOut }], .arrive (.data 2), .timer true [],
   .arrive (.data 3), .arrive .eol, .arrive (.data 4), .arrive .eof, .input [{ check := .callBack }],
   .back .ok false [{ write := .callBack }], .back .ok false [{}, { check := .skip }, {}],
   .input [{ check := .again }, {}, {}], .input []]

example : (steps ⟨false, 1⟩ new demo).log =
    [.check .againTimeOut, .timer, .check .ok, .write 1 .ok, .complete .ok, .check .ok, .write 2 .ok,
     .complete .ok, .check .callBack, .back .ok, .check .ok, .write 3 .callBack, .back .ok,
     .complete .ok, .flush, .check .ok, .write 4 .ok, .complete .ok, .eof, .delete] := by decide

example : run false (steps ⟨false, 1⟩ new demo).log = some .gone := by decide

example : arrived ⟨false, 1⟩ demo = [.data 1, .data 2, .data 3, .eol, .data 4, .eof] := by decide

/-- The hypotheses of `C64_awake`. -/
example : let s := steps ⟨false, 1⟩ new [.start, .arrive (.data 1)]
    s.opened = true ∧ s.run = true ∧ s.queue ≠ [] := by decide

/-- The hypotheses of `C64_retry_partial` and of `C64_busy_counterexample`. -/
example : let s := steps ⟨true, 1⟩ new [.start, .arrive (.data 1), .arrive (.data 2),
      .input [{ write := .error, retry := true }], .input []]
    s.opened = true ∧ run true s.log = some .paused ∧ s.st = .retry ∧ s.out = true ∧ s.run = true ∧
    s.queue ≠ [] ∧ s.pend = true := by decide

/-- The protocol refuses wrong histories. -/
example : run false [.write 1 .ok] = none ∧ run false [.check .ok, .write 1 .ok, .check .ok] = none ∧
    run false [.check .againTimeOut, .check .ok] = none ∧
    run true [.check .error, .check .ok] = none ∧ run true [.check .error, .delete] = none ∧
    run true [.check .error, .retry true, .init true] = none ∧
    run false [.check .close, .delete, .check .ok] = none ∧
    run false [.check .ok, .write 1 .callBack, .complete .ok] = none ∧
    run false [.check .skip, .check .ok] = none := by decide

end Verif.OutTransport
