/-!
# Model of the parallel analysis of the stream plugin

`stream::RunModule` with `parallel = N > 0`, plugins/stream/src/RunModule.cxx: the main module distributes buffers to `N` modules of the
same class with `parallel = -1`, and sums up their histograms when all of them have seen the end of the data.

Simplified: every call of the loop in `RedistributeBuffers` is one step, so that the other modules, which run in their own threads, take
buffers in between.  The queues between the modules are connected and block when they are full (the queue itself is in
`Verif.LocalTransport`).  The parallel modules are stopped all at once.  A buffer is its size and the numbers of events found in it.  The summation is in `Verif.StreamMerge`.
-/

namespace Verif.StreamRun

/-- Buffer with data: bytes, events counted by the main module, events given to the analysis. -/
structure Buf where
  size : Nat
  events : Nat
  analysed : Nat
  deriving DecidableEq, Repr

inductive Item
  | data (b : Buf)
  | eof
  deriving DecidableEq, Repr

/-- One of the parallel modules with the queue of its input. -/
structure Slave where
  cap : Nat
  queue : List Item := []
  done : List Buf := []
  totalSize : Nat := 0
  totalEvnts : Nat := 0
  running : Bool := true
  deriving DecidableEq, Repr

/-- What the main module is doing: nothing, the loop of `RedistributeBuffers` (called from the timer or not), the second half of the
timer event. -/
inductive Pc
  | idle
  | loop (timer : Bool)
  | tail
  deriving DecidableEq, Repr

structure St where
  inp : List Item := []
  conn : Bool := true
  slaves : List Slave
  pc : Pc := .idle
  stopMode : Int := -1111
  totalSize : Nat := 0
  totalEvnts : Nat := 0
  /-- Waiting `SlaveFinished` commands. -/
  cmds : Nat := 0
  running : Bool := true
  /-- `fDidMerge`, and what the parallel modules had analysed at that moment. -/
  merged : Option (List (List Buf)) := none
  /-- Calls of `Send(indx, buf)`. -/
  sent : List (Nat × Buf) := []
  deriving DecidableEq, Repr

inductive Act
  /-- The transport of the input delivers a buffer, or disconnects. -/
  | arrive (i : Item)
  | disconnect
  /-- `ProcessRecv` is called, the timer fires. -/
  | recv
  | timer
  /-- One call of the loop in `RedistributeBuffers`. -/
  | iter
  /-- Second half of the timer event, `buf` tells whether `TakeBuffer` returns a buffer. -/
  | check (buf : Bool)
  /-- Module `n` takes a buffer. -/
  | work (n : Nat)
  /-- The main module executes `SlaveFinished`. -/
  | finished
  /-- The main module is stopped by the application. -/
  | stop
  deriving DecidableEq, Repr

/-- `NumCanSend`, base/dabc/LocalTransport.h:86-92. -/
def Slave.room (x : Slave) : Nat := x.cap - x.queue.length

def upd (g : Slave → Slave) : Nat → List Slave → List Slave
  | _, [] => []
  | 0, x :: xs => g x :: xs
  | n + 1, x :: xs => x :: upd g n xs

/-- Loop over the outputs, plugins/stream/src/RunModule.cxx:521-526; `n` is the index of the first of the remaining outputs. -/
def pick (indx max min : Nat) : Nat → List Slave → Nat × Nat × Nat
  | _, [] => (indx, max, min)
  | n, x :: xs =>
    let r := if x.room > max then (x.room, n) else (max, indx)
    pick r.2 r.1 (if x.room < min then x.room else min) (n + 1) xs

def Slave.put (i : Item) (x : Slave) : Slave := { x with queue := x.queue ++ [i] }

/-- `SendToAllOutputs`, base/src/Module.cxx:942-971; the buffer is gone afterwards. -/
def sendAll (i : Item) (l : List Slave) : List Slave := l.map (fun x => if x.room > 0 then x.put i else x)

/-- `GenerateEOF`, plugins/stream/src/RunModule.cxx:505-515.  The second call of `SendToAllOutputs` finds an empty reference. -/
def generate (buf : Bool) (s : St) : St :=
  if s.stopMode ≠ -1111 then s
  else { s with slaves := if buf then sendAll .eof s.slaves else s.slaves, stopMode := s.slaves.length }

/-- The loop of `RedistributeBuffers` ends. -/
def leave (s : St) : St := { s with pc := match s.pc with | .loop true => .tail | _ => .idle }

/-- One call of the loop, plugins/stream/src/RunModule.cxx:519-561. -/
def iter (s : St) : St :=
  match s.inp with
  | [] => leave s
  | i :: inp =>
    let r := pick 0 0 10 0 s.slaves
    if r.2.1 = 0 then leave s
    else match i with
      | .eof => if r.2.2 = 0 then leave s else leave (generate true { s with inp := inp })
      | .data b => { s with inp := inp, totalSize := s.totalSize + b.size, totalEvnts := s.totalEvnts + b.events,
                            slaves := upd (Slave.put (.data b)) r.1 s.slaves, sent := s.sent ++ [(r.1, b)] }

/-- Second half of the timer event, plugins/stream/src/RunModule.cxx:590-594. -/
def check (buf : Bool) (s : St) : St :=
  let s' := if s.totalEvnts > 0 ∧ s.conn = false then generate buf s else s
  { s' with pc := .idle }

/-- `ProcessNextBuffer` of a parallel module, plugins/stream/src/RunModule.cxx:470-503; the result tells whether `SlaveFinished` is
submitted. -/
def Slave.next (x : Slave) : Slave × Bool :=
  match x.queue with
  | [] => (x, false)
  | .eof :: q => ({ x with queue := q }, true)
  | .data b :: q => ({ x with queue := q, done := x.done ++ [b], totalSize := x.totalSize + b.size,
                              totalEvnts := x.totalEvnts + b.analysed }, false)

/-- `ProduceMergedHierarchy`, plugins/stream/src/RunModule.cxx:259-325: all parallel modules are stopped, then their histograms taken. -/
def merge (s : St) : St :=
  if s.merged.isSome then s
  else { s with merged := some (s.slaves.map (·.done)), slaves := s.slaves.map (fun x => { x with running := false }) }

/-- `SlaveFinished`, plugins/stream/src/RunModule.cxx:363-369. -/
def finished (s : St) : St :=
  let s := { s with cmds := s.cmds - 1, stopMode := s.stopMode - 1 }
  if s.stopMode = 0 then { merge s with running := false } else s

def step (s : St) : Act → Option St
  | .arrive i => if s.conn then some { s with inp := s.inp ++ [i] } else none
  | .disconnect => if s.conn then some { s with conn := false } else none
  | .recv => if s.pc = .idle ∧ s.running ∧ s.inp ≠ [] then some { s with pc := .loop false } else none
  | .timer => if s.pc = .idle ∧ s.running then some { s with pc := .loop true } else none
  | .iter => match s.pc with
    | .loop _ => some (iter s)
    | _ => none
  | .check buf => if s.pc = .tail then some (check buf s) else none
  | .work n => match s.slaves[n]? with
    | none => none
    | some x =>
      if x.running ∧ x.queue ≠ [] then
        some { s with slaves := upd (fun x => x.next.1) n s.slaves, cmds := if x.next.2 then s.cmds + 1 else s.cmds }
      else none
  | .finished => if s.pc = .idle ∧ s.cmds > 0 then some (finished s) else none
  /- `AfterModuleStop`, plugins/stream/src/RunModule.cxx:413-428. -/
  | .stop => if s.pc = .idle ∧ s.running then some { merge s with running := false } else none

def run (s : St) : List Act → Option St
  | [] => some s
  | a :: as => (step s a).bind (fun s => run s as)

/-- Modules with the given capacities of the queues between them. -/
def init (caps : List Nat) : St := { slaves := caps.map (fun c => { cap := c }) }

end Verif.StreamRun
