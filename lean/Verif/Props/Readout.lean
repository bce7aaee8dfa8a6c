import Verif.ReadoutAge
/-!
# C108: reading events with a handle
-/

namespace Verif.Readout
open Spec

def e1 : Ev := ⟨1, true⟩
def e2 : Ev := ⟨2, true⟩
def e3 : Ev := ⟨3, false⟩

/-! ## No event is lost, repeated or exchanged when the age is not limited -/

/-- Calls without a limit of the age, whatever comes when and whatever the timeouts are, as long as no call is given up because the
module does not answer in time: the events returned and those still in the iterators and the queue are all events which came,
in the order in which they came.  Stated without the iterators: what was returned is the beginning of what came, and as soon as a call
finds nothing to return, and the queue is empty, it was everything. -/
theorem C108_order_partial (h : Bool) (cap : Nat) (as : List Act) (s : S)
    (ha : ∀ a ∈ as, NoAge a ∧ a ≠ .giveUp) (hr : run (new h cap) as = some s) :
    returned s.log <+: events h s.arrived ∧
    (s.queue = [] → s.user ≠ .idle → (∀ r m, s.user ≠ .got r m) → returned s.log = events h s.arrived) := by
  have hh : s.h = h := by
    refine run_ind (P := fun s => s.h = h) (Q := fun _ => True) ?_ rfl (fun _ _ => trivial) hr
    intro s a t hs _ hst
    have hp : ∀ s, (processData s).h = s.h := by
      intro s
      rcases processData_shape s with e | ⟨_, _, _, _, _, _, e, _⟩ | ⟨_, _, _, _, _, _, e, _, _⟩ <;> rw [e] <;> rfl
    have ht : ∀ dl s, (take dl s).h = s.h := by
      intro dl s
      unfold take
      split
      · exact hp s
      · split
        · exact hp s
        · rfl
    have hm : ∀ dl m s, (callMbs dl m s).h = s.h := by
      intro dl m s
      unfold callMbs
      split
      · split <;> rfl
      · rfl
    rw [← hs]
    cases a <;> simp only [step] at hst
    case tick => cases hst; rfl
    case arrive => cases hst; rfl
    case input =>
      split at hst
      · cases hst; exact hp _
      · cases hst
    case timer =>
      split at hst
      · split at hst
        · cases hst; exact hp _
        · cases hst
      · cases hst
    case call =>
      split at hst
      · cases hst
        unfold call
        split
        · split
          · rfl
          · exact hm _ _ _
        · exact hm _ _ _
      · cases hst
    case exec =>
      split at hst
      · split at hst
        · cases hst
          unfold exec
          split
          · rfl
          · exact ht _ _
        · cases hst
      · cases hst
    case giveUp =>
      split at hst <;> cases hst <;> rfl
    case late =>
      split at hst
      · cases hst
      · split at hst <;> cases hst
        · rfl
        · exact ht _ _
    case finish =>
      split at hst
      · cases hst
        unfold finish
        split
        · rfl
        · split
          · split <;> rfl
          · rfl
      · cases hst
  have hi := Inv.run (inv_new h cap) ha hr
  have hc := hi.cons
  rw [hh] at hc
  refine ⟨⟨_, hc⟩, ?_⟩
  intro hq hu hg
  have hb := hi.busy (by
    cases hx : s.user with
    | idle => exact absurd hx hu
    | sent dl m => exact .inl ⟨dl, m, rfl⟩
    | waiting m => exact .inr ⟨m, rfl⟩
    | got r m => exact absurd hx (hg r m))
  rw [hb.1, hb.2.1, hq, vis_nil] at hc
  simpa [events] using hc

example : ∃ s, run (new true 5) [.arrive (.mbs [e1, e3]), .call (some 3) none, .exec, .finish, .call none none,
    .arrive (.had [e2]), .call none none, .exec, .finish, .call (some 3) none] = some s ∧
    returned s.log = [e1, e2] ∧ s.user = .sent (some 3) none := by
  refine ⟨_, rfl, ?_, ?_⟩ <;> decide

/-- When a call was given up, the module may still hold the command, and the answer comes while the next call is on its way: its buffer
is replaced by the one of the next command.  The events of the first buffer are lost. -/
theorem C108_order_counterexample :
    ∃ s, run (new false 5) [.call (some 3) none, .exec, .giveUp, .finish, .call (some 3) none, .arrive (.mbs [e1]),
      .arrive (.mbs [e2]), .input, .exec, .finish] = some s ∧
      returned s.log = [e2] ∧ events false s.arrived = [e1, e2] ∧ s.queue = [] ∧ s.iter = [] := by
  refine ⟨_, rfl, ?_, ?_, ?_, ?_⟩ <;> decide

/-- Whatever the limits of the age and the timeouts are, also when calls are given up: no event is returned twice, and
they are returned in their order.  For sources which deliver buffers of one kind. -/
theorem C108_once_partial (h : Bool) (cap : Nat) (as : List Act) (s : S)
    (ha : (∀ a ∈ as, OnlyMbs a) ∨ ∀ a ∈ as, OnlyHad a) (hr : run (new h cap) as = some s) :
    (returned s.log).Sublist (events s.h s.arrived) := by
  have fin : ∀ k, Sub k s → (returned s.log).Sublist (events s.h s.arrived) := fun k hs =>
    (List.sublist_append_left _ _).trans hs.sub
  rcases ha with ha | ha
  · refine fin true (run_ind (P := Sub true) (Q := OnlyMbs) ?_ (sub_new true h cap) ha hr)
    intro s a t hs hq hst
    refine hs.step ?_ hst
    intro b hb
    exact hq b hb
  · refine fin false (run_ind (P := Sub false) (Q := OnlyHad) ?_ (sub_new false h cap) ha hr)
    intro s a t hs hq hst
    refine hs.step ?_ hst
    intro b hb l hl
    rcases hq b hb with ⟨_, h⟩ | h | h <;> rw [h] at hl <;> cases hl

example : (∀ a ∈ [Act.arrive (.mbs [e1, e2]), .call (some 3) none, .exec, .finish, .tick 9, .arrive (.mbs [e3]),
      .call (some 3) (some 5), .exec, .finish], OnlyMbs a) ∧
    ∃ s, run (new false 5) [.arrive (.mbs [e1, e2]), .call (some 3) none, .exec, .finish, .tick 9, .arrive (.mbs [e3]),
      .call (some 3) (some 5), .exec, .finish] = some s ∧ returned s.log = [e1, e3] := by
  refine ⟨?_, _, rfl, by decide⟩
  intro a ha b hb
  subst hb
  simp only [List.mem_cons, Act.arrive.injEq, reduceCtorEq, List.not_mem_nil, or_false, false_or] at ha
  rcases ha with rfl | rfl <;> exact .inl ⟨_, rfl⟩

/-! ## An event at hand is returned -/

/-- Outside of a call, nothing left of the last buffer, no old command: when the next buffer in the queue has events, the call returns the
first of them, without waiting for more data. -/
theorem C108_prompt (s : S) (t : Option Nat) (e : Ev) (l : List Ev) (q : List Buf)
    (hu : s.user = .idle) (hc : s.cmd = none) (hs : s.stale = []) (h1 : s.iter = []) (h2 : s.iter2 = [])
    (hq : (s.h = false ∧ s.queue = .mbs (e :: l) :: q) ∨ (s.h = true ∧ s.queue = .had (e :: l) :: q)) :
    ∃ s', run s [.call t none, .exec, .finish] = some s' ∧ s'.user = .idle ∧ s'.queue = q ∧
      s'.log = s.log ++ [⟨some e, s.now, some s.now, s.now, none⟩] := by
  obtain ⟨h, cap, now, queue, sig, cmd, iter, iter2, cur2, curTm, lastNF, due, user, since, tmo, stale, log, arrived, racy⟩ := s
  simp only at hu hc hs h1 h2 hq
  subst hu hc hs h1 h2
  rcases hq with ⟨rfl, rfl⟩ | ⟨rfl, rfl⟩
  all_goals
    cases t <;>
      simp [run, step, call, callMbs, inTime, exec, take, processData, cleanq, drain, accept, touch, reply, finish, ret, getEvent]

example : ∃ s, run (new true 5) [.arrive (.had [e1, e2])] = some s ∧ s.user = .idle ∧ s.cmd = none ∧ s.stale = [] ∧
    s.iter = [] ∧ s.iter2 = [] ∧ s.h = true ∧ s.queue = .had (e1 :: [e2]) :: [] := by
  refine ⟨_, rfl, ?_⟩; decide

/-! ## The age -/

/-- An event which `mbs::ReadoutHandle::NextEvent` with a limit of the age returns is of a buffer which was taken from the queue not
longer ago than the limit, or during this call. -/
theorem C108_age_partial (cap : Nat) (as : List Act) (s : S) (hr : run (new false cap) as = some s) :
    ∀ r ∈ s.log, r.ev ≠ none → ∀ m, r.maxage = some m →
      ∃ t, r.tm = some t ∧ (r.at_ ≤ t + m ∨ r.called ≤ t) := by
  have h0 : Age (new false cap) :=
    ⟨rfl, Nat.le_refl _, fun h => absurd rfl h, fun _ h => (by cases h), fun r hr => (by cases hr)⟩
  exact (run_ind (P := Age) (Q := fun _ => True) (fun s a t hs _ hst => hs.step hst) h0 (fun _ _ => trivial) hr).log

example : ∃ s, run (new false 5) [.arrive (.mbs [e1, e2]), .call (some 3) none, .exec, .finish, .tick 4,
    .call (some 3) (some 5)] = some s ∧ s.log = [⟨some e1, 0, some 0, 0, none⟩, ⟨some e2, 4, some 0, 4, some 5⟩] := by
  refine ⟨_, rfl, ?_⟩; decide

/-- `hadaq::ReadoutHandle::NextEvent` returns an event of any age: when there is no new buffer in time, the old one is used without a
check. -/
theorem C108_age_counterexample (d m : Nat) (hd : m < d) :
    ∃ s, run (new true 5) [.arrive (.had [e1, e2]), .call (some 3) none, .exec, .finish, .tick d,
      .call none (some m), .exec, .finish] = some s ∧
      s.log = [⟨some e1, 0, some 0, 0, none⟩, ⟨some e2, d, some 0, d, some m⟩] := by
  have h1 : ¬ d ≤ m := by omega
  simp [run, step, call, callMbs, inTime, exec, take, processData, cleanq, drain, accept, touch, reply, finish, ret, new, h1]

/-! ## Waiting -/

/-- A call which waits has a timer; when it fires the call returns, not later than the timeout.  As long as no call is given up. -/
theorem C108_returns_partial (h : Bool) (cap : Nat) (as : List Act) (s : S) (m : Option Nat)
    (ha : ∀ a ∈ as, a ≠ .giveUp) (hr : run (new h cap) as = some s) (hu : s.user = .waiting m) :
    ∃ t, s.tmo = some t ∧ ∀ d, s.since + t < s.now + d →
      ∃ s', run s [.tick d, .timer, .finish] = some s' ∧ s'.user = .idle ∧ s'.log.length = s.log.length + 1 := by
  have hc := run_ind (P := Calm) (Q := fun a => a ≠ .giveUp) (fun s a t hs hq hst => hs.step hq hst) (calm_new h cap) ha hr
  obtain ⟨h1, t, h2, h3⟩ := hc.wait m hu
  refine ⟨t, h2, ?_⟩
  intro d hd
  have hcm : s.cmd ≠ none := h1
  have fin : ∀ x : S, (∃ r, x.user = .got r m) → x.log = s.log →
      ∃ s', run x [.finish] = some s' ∧ s'.user = .idle ∧ s'.log.length = s.log.length + 1 := by
    intro x ⟨r, hx⟩ hl
    refine ⟨finish r m x, by simp [run, step, hx], ?_, ?_⟩
    · unfold finish
      split
      · rfl
      · split
        · split <;> rfl
        · rfl
    · rw [← hl]
      unfold finish
      split
      · simp [ret]
      · split
        · split <;> simp [ret]
        · simp [ret]
  let u : S := { s with now := s.now + d, due := none }
  have e : run s [.tick d, .timer, .finish] = run (processData u) [.finish] := by
    simp [run, step, h3, hd, u]
  rw [e]
  have hcu : u.cmd ≠ none := hcm
  have huu : u.user = .waiting m := hu
  apply fin
  · have key : ∀ v : S, v.user = .waiting m → ∀ res, (reply res v).user = .got res m := by
      intro v hv res
      unfold reply
      rw [hv]
    cases hcc : u.cmd with
    | none => exact absurd hcc hcu
    | some ma =>
      cases hdr : drain (cleanq ma u) u.queue with
      | none => obtain ⟨nf, e⟩ := processData_nil hcc (drain_none hdr); rw [e]; exact ⟨_, key _ huu _⟩
      | some bq =>
        obtain ⟨b, q⟩ := bq
        obtain ⟨nf, e⟩ := processData_cons hcc hdr
        rw [e]
        cases b with
        | eof => exact ⟨false, key _ huu _⟩
        | mbs l => exact ⟨true, key _ huu _⟩
        | had l =>
          unfold accept
          dsimp only
          split
          · exact ⟨true, key _ huu _⟩
          · exact ⟨false, key _ huu _⟩
        | other =>
          unfold accept
          dsimp only
          split
          · exact ⟨false, key _ huu _⟩
          · exact ⟨false, key _ huu _⟩
  · rcases processData_shape u with e | ⟨_, _, _, _, _, _, e, _⟩ | ⟨_, _, _, _, _, _, e, _, _⟩ <;> rw [e] <;> rfl

example : ∃ s, run (new true 5) [.tick 1, .call (some 3) none, .exec] = some s ∧ s.user = .waiting none ∧ s.since = 1 ∧ s.tmo = some 3 := by
  refine ⟨_, rfl, ?_⟩; decide

/-- It may return too early: the input event of a buffer which an earlier call already took ends the waiting, long before the timeout `t`,
without an event although one comes in time. -/
theorem C108_returns_counterexample (t : Nat) (ht : 0 < t) :
    ∃ s, run (new false 5) [.arrive (.mbs [e1]), .call (some t) none, .exec, .finish, .call (some t) none, .exec, .input,
      .finish] = some s ∧
      s.log = [⟨some e1, 0, some 0, 0, none⟩, ⟨none, 0, some 0, 0, none⟩] := by
  have h1 : t ≠ 0 := by omega
  simp [run, step, call, callMbs, inTime, exec, take, processData, cleanq, drain, accept, touch, reply, finish, ret, new,
    getEvent, h1]

/-- A timeout which is not positive does not mean to wait without limit: the call returns at once. -/
theorem C108_forever_counterexample (h : Bool) (cap : Nat) (m : Option Nat) :
    ∃ s, run (new h cap) [.call none m, .exec, .finish] = some s ∧ s.now = 0 ∧ s.log = [⟨none, 0, none, 0, m⟩] := by
  cases h <;> cases m <;>
    simp [run, step, call, callMbs, inTime, exec, take, processData, drain, reply, finish, ret, new]

/-! ## Two threads -/

/-- The iterators belong to the module but are used by the thread of the user without a lock.  As long as no call is given up, the module changes
them only while the user waits for it. -/
theorem C108_exclusive_partial (h : Bool) (cap : Nat) (as : List Act) (s : S)
    (ha : ∀ a ∈ as, a ≠ .giveUp) (hr : run (new h cap) as = some s) : s.racy = false :=
  (run_ind (P := Calm) (Q := fun a => a ≠ .giveUp) (fun s a t hs hq hst => hs.step hq hst) (calm_new h cap) ha hr).racy

/-- After a call was given up, the module changes the iterator at any time. -/
theorem C108_exclusive_counterexample :
    ∃ s, run (new false 5) [.call (some 3) none, .exec, .giveUp, .finish, .arrive (.mbs [e1]), .input] = some s ∧
      s.racy = true := by
  refine ⟨_, rfl, ?_⟩; decide

/-! ## Connecting -/

/-- The first handle gets its name. -/
theorem C108_connect_partial (used : Nat → Bool) (h : used 0 = false) (n : Nat) : chooseName used (n + 1) = some 0 := by
  simp [chooseName, h]

example : (fun _ : Nat => false) 0 = false := rfl

/-- While there is a handle, `Connect` of another one never returns: the number in the name is not counted up. -/
theorem C108_connect_counterexample (used : Nat → Bool) (h : used 0 = true) : ∀ n, chooseName used n = none := by
  intro n
  induction n with
  | zero => rfl
  | succ n ih => simp [chooseName, h, ih]

example : (fun n : Nat => decide (n = 0)) 0 = true := rfl

end Verif.Readout
