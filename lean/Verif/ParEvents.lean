/-!
# Delivery of parameter events by the manager

`base/src/Manager.cxx:80-110, 480-490, 506-664, 1214-1240, 1283-1301, 1541-1553`.

Parameters are numbers.  Every critical section is one operation, so that all interleavings of the threads which change
parameters with the thread of the manager are sequences of operations: `todo` are the calls of `ProduceParameterEvent`
which begin, `pushing` those which have passed the first section, `firing` those which have put a record in the empty
queue and have not yet called `FireEvent`.  `deliver` is the rest of the loop of `ProcessParameterEvents` after the
record was taken: everything it changes belongs to the thread of the manager; the value is read there, once.
Reference of the record is never empty.  Masks are numbers, `hit` tells which parameters match.
`pushed`, `done` and `sent` are histories.
-/

namespace Verif.ParEvents

/-- `EParameterEvent`-numbers (`base/dabc/Parameter.h`). -/
inductive Ev | created | configured | modified | destroy
deriving DecidableEq, Repr

/-- `ParamEventReceiverRec` (`Manager.cxx:80-108`): `addr` is the address of the list element. -/
structure Recv where
  addr : Nat
  who : Nat
  mask : Nat
  onlyChange : Bool
  queue : Int := 0
deriving DecidableEq

/-- A `CmdParameterEvent` which was submitted. -/
structure Sent where
  addr : Nat
  par : Nat
  value : Nat
  ev : Ev
  attr : Bool
deriving DecidableEq

structure S where
  value : Nat → Nat := fun _ => 0
  attr : Nat → Bool := fun _ => false
  /-- `NeedTimeout`. -/
  need : Nat → Bool := fun _ => false
  /-- `IsDeliverAllEvents`. -/
  all : Nat → Bool := fun _ => false
  hit : Nat → Nat → Bool := fun _ _ => true
  todo : List (Nat × Ev) := []
  pushing : List (Nat × Ev) := []
  /-- `fParsQueue` -/
  queue : List (Nat × Ev) := []
  firing : Nat := 0
  events : Nat := 0
  /-- Rest of `maxcnt` while the manager is in `ProcessParameterEvents`. -/
  busy : Option Nat := none
  cur : Option (Nat × Ev) := none
  timed : List Nat := []
  recvs : List Recv := []
  flying : List Nat := []
  sent : List Sent := []
  pushed : List (Nat × Ev) := []
  done : List (Nat × Ev) := []

/-- First part of `ProduceParameterEvent` (`Manager.cxx:514-519`): whether an event is dropped. -/
def covered (s : S) (r : Nat × Ev) : Bool := decide (r.2 = .modified) && !s.all r.1 && decide (r ∈ s.queue)

def S.check (s : S) (i : Nat) : S :=
  match s.todo[i]? with
  | none => s
  | some r =>
    if covered s r then { s with todo := s.todo.eraseIdx i }
    else { s with todo := s.todo.eraseIdx i, pushing := s.pushing ++ [r] }

/-- Second part (`Manager.cxx:525-542`). -/
def S.push (s : S) (i : Nat) : S :=
  match s.pushing[i]? with
  | none => s
  | some r =>
    { s with
      pushing := s.pushing.eraseIdx i
      firing := if s.queue = [] then s.firing + 1 else s.firing
      queue := s.queue ++ [r]
      pushed := s.pushed ++ [r] }

/-- `FireEvent` (`Manager.cxx:546`). -/
def S.fire (s : S) : S :=
  if s.firing = 0 then s else { s with firing := s.firing - 1, events := s.events + 1 }

/-- The manager gets its event and calls `ProcessParameterEvents` (`Manager.cxx:549-552`). -/
def S.start (s : S) : S :=
  if s.events ≠ 0 ∧ s.busy = none then { s with events := s.events - 1, busy := some 100 } else s

/-- Head of the loop and its end (`Manager.cxx:554-565, 659-664`). -/
def S.pop (s : S) : S :=
  if s.cur ≠ none then s
  else match s.busy with
    | none => s
    | some 0 => { s with busy := none, events := s.events + 1 }
    | some (n + 1) =>
      match s.queue with
      | [] => { s with busy := none }
      | r :: q => { s with busy := some n, cur := some r, queue := q }

/-- The list of parameters with timeout (`Manager.cxx:569-606`). -/
def timedAfter (need : Bool) (timed : List Nat) (r : Nat × Ev) : List Nat :=
  match r.2 with
  | .created => if need then (if r.1 ∈ timed then timed else timed ++ [r.1]) else timed
  | .configured => if need then (if r.1 ∈ timed then timed else timed ++ [r.1]) else timed.erase r.1
  | .modified => timed
  | .destroy => if need then timed.erase r.1 else timed

/-- The event which is shown (`Manager.cxx:612-615`). -/
def shown : Ev → Ev
  | .configured => .modified
  | e => e

/-- `match` (`Manager.cxx:97-106`). -/
def accepts (s : S) (r : Recv) (par : Nat) (e : Ev) : Bool :=
  if r.onlyChange && decide (e ≠ .modified) then false else s.hit r.mask par

/-- Whether the event is submitted to a receiver (`Manager.cxx:624-638`). -/
def goes (s : S) (can : Nat → Bool) (par : Nat) (e : Ev) (r : Recv) : Bool :=
  accepts s r par e && !decide (r.queue > 1000) && can r.addr

/-- Rest of the loop (`Manager.cxx:567-655`); `can` tells which receivers accept commands. -/
def S.deliver (s : S) (can : Nat → Bool) : S :=
  match s.cur with
  | none => s
  | some (par, ev) =>
    let a := s.attr par || decide (ev = .configured)
    let e := shown ev
    { s with
      cur := none
      done := s.done ++ [(par, ev)]
      timed := timedAfter (s.need par) s.timed (par, ev)
      attr := fun k => if k = par then false else s.attr k
      recvs := s.recvs.map (fun r => if goes s can par e r then { r with queue := r.queue + 1 } else r)
      flying := s.flying ++ (s.recvs.filter (goes s can par e)).map (·.addr)
      sent := s.sent ++ (s.recvs.filter (goes s can par e)).map (fun r => ⟨r.addr, par, s.value par, e, a⟩) }

/-- `ParameterEventSubscription` (`Manager.cxx:1219-1229`); the address of a list element is not used by another. -/
def S.subscribe (s : S) (addr who mask : Nat) (only : Bool) : S :=
  if addr ∈ s.recvs.map (·.addr) then s else { s with recvs := s.recvs ++ [⟨addr, who, mask, only, 0⟩] }

/-- (`Manager.cxx:1230-1238`) -/
def S.unsubscribe (s : S) (who mask : Nat) : S :=
  { s with recvs := s.recvs.filter (fun r => !(decide (r.mask = mask) && decide (r.who = who))) }

/-- A worker is destroyed (`Manager.cxx:484-491`). -/
def S.gone (s : S) (who : Nat) : S := { s with recvs := s.recvs.filter (fun r => !decide (r.who = who)) }

/-- `ReplyCommand` (`Manager.cxx:1283-1301`). -/
def S.reply (s : S) (i : Nat) : S :=
  match s.flying[i]? with
  | none => s
  | some a =>
    { s with
      flying := s.flying.eraseIdx i
      recvs := s.recvs.map (fun r => if r.addr = a then { r with queue := r.queue - 1 } else r) }

inductive Op
  /-- A parameter gets a value and produces the event (`Parameter.cxx:135-171`). -/
  | modify (par v : Nat)
  | attr (par : Nat)
  | configure (par : Nat) (need : Bool)
  | create (par : Nat) (need : Bool)
  | destroy (par : Nat)
  | check (i : Nat)
  | push (i : Nat)
  | fire
  | start
  | pop
  | deliver (can : Nat → Bool)
  | subscribe (addr who mask : Nat) (only : Bool)
  | unsubscribe (who mask : Nat)
  | gone (who : Nat)
  | reply (i : Nat)

def step (s : S) : Op → S
  | .modify p v => { s with value := fun k => if k = p then v else s.value k, todo := s.todo ++ [(p, .modified)] }
  | .attr p => { s with attr := fun k => if k = p then true else s.attr k }
  | .configure p b => { s with need := fun k => if k = p then b else s.need k, todo := s.todo ++ [(p, .configured)] }
  | .create p b => { s with need := fun k => if k = p then b else s.need k, todo := s.todo ++ [(p, .created)] }
  | .destroy p => { s with todo := s.todo ++ [(p, .destroy)] }
  | .check i => s.check i
  | .push i => s.push i
  | .fire => s.fire
  | .start => s.start
  | .pop => s.pop
  | .deliver can => s.deliver can
  | .subscribe a w m o => s.subscribe a w m o
  | .unsubscribe w m => s.unsubscribe w m
  | .gone w => s.gone w
  | .reply i => s.reply i

def run (s : S) (ops : List Op) : S := ops.foldl step s

end Verif.ParEvents
