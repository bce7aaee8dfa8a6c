/-!
# Timeouts of a thread (`base/dabc/Thread.h:134-227`, `base/src/Thread.cxx`)

`ActivateTimeout` of a worker (from any thread) leaves a request in the record of
the worker and fires an event; the thread takes the request over when it meets
the event, and calls `ProcessTimeout` from `CheckTimeouts`, which also says how
long the thread may wait for events.

Simplified: times are natural numbers (double seconds in the code), a null time
stamp or a negative interval is `none`.  Worker `n` has two records (worker and
addon), which behave alike: the list `slots` has them in the order of the loop
in `CheckTimeouts`.  The set of workers is fixed.
-/

namespace Verif.Timeouts

/-- `TimeoutRec`, `Thread.h:134-140`. -/
structure Rec where
  mark : Nat := 0
  interv : Option Nat := none
  active : Bool := false
  prev : Option Nat := none
  next : Option Nat := none
deriving DecidableEq, Repr

inductive Ev where
  /-- `ActivateTimeout(t)` for slot `i` at time `m` -/
  | act (i m : Nat) (t : Option Nat)
  /-- the thread took the request over -/
  | taken (i : Nat)
  /-- `ProcessTimeout(diff)` was called; `now` is the time of the check -/
  | fire (i now : Nat) (diff : Int)
  /-- it returned -/
  | done (i now : Nat) (t : Option Nat)
deriving DecidableEq, Repr

/-- `nextT` is `fNextTimeout`, `evs` are the events `evntCheckTmoutWorker` and
`evntCheckTmoutAddon` in the queue. -/
structure S where
  clock : Nat
  slots : List Rec
  nextT : Option Nat
  evs : List Nat
  log : List Ev
deriving DecidableEq, Repr

def new (n : Nat) : S := ⟨0, List.replicate n {}, none, [], []⟩

def note (s : S) (e : Ev) : S := { s with log := s.log ++ [e] }

/-- `_ActivateWorkerTimeout`, `Thread.cxx:1416-1431`, with `Activate`,
`Thread.h:152-159`. -/
def activate (i : Nat) (t : Option Nat) (s : S) : S :=
  match s.slots[i]? with
  | none => s
  | some r =>
    note { s with
      slots := s.slots.set i { r with mark := s.clock, interv := t, active := true }
      evs := if r.active then s.evs else s.evs ++ [i] } (.act i s.clock t)

/-- `CheckEvent`, `Thread.h:163-197`. -/
def checkEvent (i : Nat) (s : S) : S × Bool :=
  match s.slots[i]? with
  | none => (s, false)
  | some r =>
    if r.active = false then (s, false)
    else
      match r.interv with
      | none =>
        (note { s with slots := s.slots.set i { r with active := false, next := none, prev := none } }
          (.taken i), false)
      | some t =>
        (note { s with slots := s.slots.set i { r with
            active := false
            prev := if r.prev = none ∧ 0 < t then some r.mark else r.prev
            next := some (r.mark + t) } } (.taken i), true)

/-- What happens inside of `ProcessTimeout`: time goes by, timeouts are
activated (also by other threads); when the worker runs the event loop of the
thread, events are processed — but `CheckTimeouts` does nothing then
(`Thread.cxx:1286`). -/
inductive Inner where
  | wait (k : Nat)
  | act (i : Nat) (t : Option Nat)
  | event (i : Nat)
deriving DecidableEq, Repr

def inner (s : S) : Inner → S
  | .wait k => { s with clock := s.clock + k }
  | .act i t => activate i t s
  | .event i =>
    if i ∈ s.evs then (checkEvent i { s with evs := s.evs.erase i }).1 else s

/-- What a worker does in `ProcessTimeout` and what it returns. -/
structure Ans where
  dist : Option Nat := none
  inner : List Inner := []
deriving DecidableEq, Repr

/-- The smaller waiting time. -/
def minTime (m : Option Nat) (d : Nat) : Option Nat :=
  match m with
  | none => some d
  | some k => if d < k then some d else some k

/-- `SetNextFire`, `Thread.h:214-226`. -/
def rearm (now : Nat) (dist : Option Nat) (r : Rec) : Rec :=
  match dist with
  | some d => { r with prev := some now, next := some (now + d) }
  | none => { r with prev := none, next := none }

/-- The waiting time after `SetNextFire`. -/
def rewait (dist : Option Nat) (m : Option Nat) : Option Nat :=
  match dist with
  | some d => minTime m d
  | none => m

/-- `last_diff` of `CheckNextProcess`, `Thread.h:209`. -/
def lastDiff (now : Nat) (r : Rec) : Int :=
  match r.prev with
  | none => 0
  | some q => (now : Int) - q

/-- One turn of the loop of `CheckTimeouts`, `Thread.cxx:1301-1319`, with
`CheckNextProcess`, `Thread.h:199-212`. -/
def checkSlot (ans : Nat → Ans) (now : Nat) (p : S × Option Nat) (i : Nat) : S × Option Nat :=
  match p.1.slots[i]? with
  | none => p
  | some r =>
    match r.next with
    | none => p
    | some d =>
      if now ≤ d then (p.1, minTime p.2 (d - now))
      else
        let s := (ans i).inner.foldl inner (note p.1 (.fire i now (lastDiff now r)))
        (note { s with slots := s.slots.modify i (rearm now (ans i).dist) } (.done i now (ans i).dist),
         rewait (ans i).dist p.2)

/-- The loop of `CheckTimeouts` and its end, `Thread.cxx:1299-1326`. -/
def scan (ans : Nat → Ans) (s : S) : S × Option Nat :=
  let p := (List.range s.slots.length).foldl (checkSlot ans s.clock) (s, none)
  ({ p.1 with nextT := p.2.map (s.clock + ·) }, p.2)

/-- `CheckTimeouts`, `Thread.cxx:1284-1327`; the result is the time to wait. -/
def checkTimeouts (force : Bool) (ans : Nat → Ans) (s : S) : S × Option Nat :=
  if force then scan ans s
  else
    match s.nextT with
    | none => (s, none)
    | some x => if s.clock < x then (s, some (x - s.clock)) else scan ans s

/-- Processing of `evntCheckTmoutWorker`, `Thread.cxx:1114-1130`. -/
def event (i : Nat) (ans : Nat → Ans) (s : S) : S :=
  let p := checkEvent i s
  if p.2 then (checkTimeouts true ans p.1).1 else p.1

/-- What can happen from outside of `CheckTimeouts`: time goes by, a timeout is
activated, the event of slot `i` is processed, `CheckTimeouts` is called by
`MainLoop` or `SingleLoop` (`Thread.cxx:446,478`). -/
inductive Op where
  | wait (k : Nat)
  | act (i : Nat) (t : Option Nat)
  | event (i : Nat) (ans : Nat → Ans)
  | loop (ans : Nat → Ans)

def step (s : S) : Op → S
  | .wait k => { s with clock := s.clock + k }
  | .act i t => activate i t s
  | .event i ans => if i ∈ s.evs then event i ans { s with evs := s.evs.erase i } else s
  | .loop ans => (checkTimeouts false ans s).1

def steps (s : S) (os : List Op) : S := os.foldl step s

end Verif.Timeouts
