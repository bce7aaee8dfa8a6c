/-!
# Model of the commands submitted to a worker

`Worker::ProcessCommand`, base/src/Worker.cxx:449-497, `ProcessCoreEvent` for submitted commands, 392-424, `Submit`,
960-994, the direct execution in `Execute`, 889-906, and the end of `ObjectCleanup`, 250-269.

Commands are numbers with two flags.  The queue `fWorkerCommands` is split by kind (see C19 for the queue itself).  The
code of a command may run the event loop of the thread, therefore every step can happen while commands are executed.
Left out: replies to commands which the worker itself sent, assigned commands.
-/

namespace Verif.WorkCmd

/-- A command; `sync`: `IsLastCallerSync()`; `canceled`: `IsCanceled()`. -/
structure C where
  id : Nat
  sync : Bool
  canceled : Bool
  deriving DecidableEq, Repr

/-- `normal`: `IsNormalState()`; `active`: has thread and `fWorkerActive`; `pending`: submitted commands whose event was not
processed; `postponed`: kind `kindPostponed`; `frames`: commands being executed, the innermost first, with a mark whether
`ProcessCoreEvent` called `ProcessCommand`; `fWorkerCommandsLevel` is their number.
Ghosts: `submitted`, `delivered` (events processed), `begun`, `replied` with result, `kept` (execution returned
`cmd_postponed`), `dropped` (neither executed nor replied), `broken` (an exception left the execution). -/
structure S where
  normal : Bool
  active : Bool
  pending : List C
  postponed : List C
  frames : List (Bool × C)
  submitted : List C
  delivered : List C
  begun : List C
  replied : List (C × Int)
  kept : List C
  dropped : List C
  broken : List C
  deriving DecidableEq, Repr

/-- `cmd_false`, `cmd_ignore`, `cmd_postponed`, `cmd_canceled`, base/dabc/Command.h:36-45. -/
def cmdFalse : Int := 0
def cmdIgnore : Int := -2
def cmdPostponed : Int := -3
def cmdCanceled : Int := -5

/-- `ProcessCommand` up to the begin of the execution, base/src/Worker.cxx:451-476. -/
def process (s : S) (c : C) (viaEvent : Bool) : S :=
  if !s.normal then { s with dropped := s.dropped ++ [c] }
  else if c.canceled then { s with replied := s.replied ++ [(c, cmdCanceled)] }
  else if s.frames.length > 0 && !c.sync then { s with postponed := s.postponed ++ [c] }
  else { s with frames := (viaEvent, c) :: s.frames, begun := s.begun ++ [c] }

/-- The loop over postponed commands, base/src/Worker.cxx:411-419, until a command is executed. -/
def drain : S → List C → S
  | s, [] => { s with postponed := [] }
  | s, c :: rest =>
    if s.frames.length = 0 then drain (process { s with postponed := rest } c true) rest
    else { s with postponed := c :: rest }

/-- The event of a submitted command, base/src/Worker.cxx:397-424. -/
def deliver (s : S) (c : C) : S :=
  let s := process { s with pending := s.pending.erase c, delivered := s.delivered ++ [c] } c true
  drain s s.postponed

/-- The result which is replied, base/src/Worker.cxx:484-487. -/
def code (r : Int) : Int := if r = cmdIgnore then cmdFalse else r

/-- The reply after the execution, base/src/Worker.cxx:489-494. -/
def answer (s : S) (c : C) (r : Int) : S :=
  if code r = cmdPostponed then { s with kept := s.kept ++ [c] } else { s with replied := s.replied ++ [(c, code r)] }

/-- The end of the innermost execution with result `r`, base/src/Worker.cxx:481-496, and the loop behind it. -/
def finish (s : S) (r : Int) : S :=
  match s.frames with
  | [] => s
  | (ev, c) :: fs =>
    let s := answer { s with frames := fs } c r
    if ev then drain s s.postponed else s

/-- The loop in `ObjectCleanup`, base/src/Worker.cxx:259-264: first the postponed, then the submitted commands.  It is
called by `DecReference` in the state `stDoingDestroy`, base/src/Object.cxx:414-439. -/
def cleanup (s : S) : S :=
  (s.postponed ++ s.pending).foldl (fun s c => process s c false) { s with postponed := [], pending := [], normal := false }

/-- Steps: `submit`; `event` of a pending command (any of them, as priorities differ); `finish`: the innermost execution
returns; `throw`: it ends with an exception, caught by the surrounding wait; `direct`: `Execute` of a worker without
thread; `destroy`: the destruction was requested; `cleanup`. -/
inductive Act where
  | submit (c : C) | event (c : C) | finish (r : Int) | throw | direct (c : C) | destroy | cleanup
  deriving DecidableEq, Repr

/-- One step; `none`: not possible, or the process exits (base/src/Worker.cxx:253-256). -/
def step (s : S) : Act → Option S
  | .submit c => if s.active then some { s with pending := s.pending ++ [c], submitted := s.submitted ++ [c] } else none
  | .event c => if c ∈ s.pending then some (deliver s c) else none
  | .finish r => if s.frames = [] then none else some (finish s r)
  | .throw => match s.frames with
    | [] => none
    | (_, c) :: fs => some { s with frames := fs, broken := s.broken ++ [c] }
  | .direct c => some (process { s with submitted := s.submitted ++ [c], delivered := s.delivered ++ [c] } c false)
  | .destroy => some { s with normal := false }
  | .cleanup => if s.frames = [] then some { cleanup s with active := false } else none

/-- A run. -/
def run : S → List Act → Option S
  | s, [] => some s
  | s, a :: as => match step s a with
    | none => none
    | some s' => run s' as

/-- A new worker with thread. -/
def start : S :=
  { normal := true, active := true, pending := [], postponed := [], frames := [], submitted := [], delivered := [],
    begun := [], replied := [], kept := [], dropped := [], broken := [] }

end Verif.WorkCmd
