/-!
# Model of halting and destroying workers, base/src/Thread.cxx and base/src/Worker.cxx

One thread with its workers.  Workers are numbers, worker 0 is the `ExecWorker` of the thread.  The vector `fWorkers` is the
list `recs`.  All event queues of the thread together are one list, and the next event may be any of its entries: so every
assignment of priorities is included.  Only events of workers are kept, an event has the item number of the worker (16 bit)
and, for the statements only, the worker which fired it.

The calls which are active in the thread are the list `stack`, the newest call first:
`event` - `ProcessEvent` for a worker; `guard` - code below a `RecursionGuard` (`RunCommandInTheThread`, `RunExplicitLoop`);
`raw` - a call of `ProcessTimeout` / `ProcessAddonTimeout` by `CheckTimeouts`, where nothing is counted;
`fin` - the end of `CheckWorkerCanBeHalted` after the worker lost its thread: `DestroyCalledFromOwnThread` (with any code in
it), then the reply of the waiting commands.
Each of them may run the event loop of the thread again.  `CheckWorkerCanBeHalted` itself has two locked parts and the call
of `ClearThreadRef`: other threads may do something between them (`Chk`), the thread itself not.

Simplified: an exception leaves a frame in the same way as its normal end (both run lines 1095-1108); the timeouts
themselves, `fExplicitLoop`, addons and `WorkersSetChanged` are not modelled; the counters of events are unbounded here and
their difference is taken modulo 2^32 as in the code.
-/

namespace Verif.WorkerHalt

/-- A fired event which is not processed yet: `EventId::GetItem` and the worker which fired it. -/
structure Ev where
  item : Nat
  own : Nat
  deriving DecidableEq, Repr

/-- `Thread::WorkerRec`, base/dabc/Thread.h:223-246; `halt`, `destroy`: bits of `doinghalt`. -/
structure Rec where
  work : Option Nat
  recursion : Int
  processed : Nat
  halt : Bool
  destroy : Bool
  cmds : List Nat
  deriving DecidableEq, Repr

/-- `new WorkerRec(work, addon)`. -/
def Rec.new (work : Option Nat) : Rec :=
  { work := work, recursion := 0, processed := 0, halt := false, destroy := false, cmds := [] }

/-- Members of `Worker`: `fWorkerFiredEvents`, `fWorkerActive`, `fWorkerId`, whether `fThread` is this thread. -/
structure WS where
  fired : Nat
  active : Bool
  wid : Nat
  thrd : Bool
  deriving DecidableEq, Repr

inductive Frame where
  | event (id w : Nat)
  | guard (id w : Nat)
  | raw (id w : Nat)
  | fin (w : Nat) (destroy : Bool) (cmds : List Nat)
  deriving DecidableEq, Repr

/-- Progress of `CheckWorkerCanBeHalted`: before line 972, before line 998. -/
inductive Chk where
  | idle
  | decided (id : Nat) (cmd : Option Nat)
  | removed (w : Nat) (destroy : Bool) (cmds : List Nat)
  deriving DecidableEq, Repr

/-- `actHalt`, `actDestroy`, or no new request. -/
inductive Act where
  | none
  | halt
  | destroy
  deriving DecidableEq, Repr

/-- A request on its way: the id which was read from the worker, the action, the command. -/
structure Req where
  id : Nat
  act : Act
  cmd : Option Nat
  deriving DecidableEq, Repr

/-- `adds`: submitted `AddWorker` commands; `reqs`: requests on their way; `done`: commands of executed requests;
`answers`: replies of commands; `destroyed`: workers for which `DestroyCalledFromOwnThread` was called;
`empty`: `WaitEvent` found no event, `ProcessNoneEvent` is called next. -/
structure S where
  recs : List Rec
  ws : Nat → WS
  queue : List Ev
  stack : List Frame
  chk : Chk
  adds : List Nat
  reqs : List Req
  done : List Nat
  answers : List (Nat × Bool)
  destroyed : List Nat
  cleanup : Bool
  empty : Bool

def upd (f : Nat → WS) (w : Nat) (x : WS) : Nat → WS := fun v => if v = w then x else f v

/-- The constructor of the thread, lines 244-268: record 0 is never used, record 1 is the `ExecWorker`. -/
def init : S :=
  { recs := [Rec.new none, Rec.new (some 0)]
    ws := fun w => if w = 0 then { fired := 0, active := true, wid := 1, thrd := true }
                   else { fired := 0, active := false, wid := 0, thrd := false }
    queue := [], stack := [], chk := .idle, adds := [], reqs := [], done := [], answers := [], destroyed := []
    cleanup := false, empty := false }

/-- `fWorkers[id]` if the id exists and has a worker. -/
def S.live (s : S) (id : Nat) : Option (Rec × Nat) :=
  match s.recs[id]? with
  | none => none
  | some r =>
    match r.work with
    | none => none
    | some w => some (r, w)

def S.answer (s : S) (cmd : Option Nat) (res : Bool) : S :=
  match cmd with
  | none => s
  | some c => { s with answers := s.answers ++ [(c, res)] }

/-- `fWorkerFiredEvents - processed` of type `unsigned`, line 950. -/
def balance (fired processed : Nat) : Int := ((fired : Int) - processed) % 4294967296

/-- `doinghalt |= request`, line 938. -/
def Rec.ask (r : Rec) (act : Act) : Rec :=
  match act with
  | .none => r
  | .halt => { r with halt := true }
  | .destroy => { r with destroy := true }

/-- `doinghalt` is not 0. -/
def Rec.doing (r : Rec) : Bool := r.halt || r.destroy

/-- `CheckWorkerCanBeHalted`, lines 928-965. -/
def S.check (s : S) (id : Nat) (act : Act) (cmd : Option Nat) : S :=
  match s.live id with
  | none => s.answer cmd false
  | some (r, w) =>
    if !(r.ask act).doing then s.answer cmd false
    else if (r.ask act).recursion > 0 ∨ balance (s.ws w).fired r.processed ≠ 0 then
      { s with
        recs := s.recs.set id { r.ask act with cmds := (r.ask act).cmds ++ cmd.toList }
        ws := upd s.ws w { s.ws w with active := false } }
    else
      { s with
        recs := s.recs.set id (r.ask act)
        ws := upd s.ws w { s.ws w with active := false }
        chk := .decided id cmd }

/-- Lines 967-983 and 990. -/
def S.remove (s : S) (id : Nat) (cmd : Option Nat) : S :=
  match s.live id with
  | none => s
  | some (r, w) =>
    { s with
      recs := s.recs.set id (Rec.new none)
      ws := upd s.ws w { s.ws w with wid := 0 }
      chk := .removed w r.destroy (r.cmds ++ cmd.toList) }

/-- `ClearThreadRef`, called in line 998 (Worker.cxx:213-236); what follows is the frame `fin`. -/
def S.clear (s : S) (w : Nat) (destroy : Bool) (cmds : List Nat) : S :=
  { s with
    ws := upd s.ws w { s.ws w with active := false, wid := 0, thrd := false }
    chk := .idle
    stack := .fin w destroy cmds :: s.stack
    destroyed := if destroy then s.destroyed ++ [w] else s.destroyed }

/-- `_Fire(EventId(…, fWorkerId, …))` and `fWorkerFiredEvents++`, Worker.h:335-337, Worker.cxx:981-983. -/
def S.fire (s : S) (w : Nat) : S :=
  { s with
    queue := s.queue ++ [{ item := (s.ws w).wid % 65536, own := w }]
    ws := upd s.ws w { s.ws w with fired := (s.ws w).fired + 1 } }

/-- `ProcessEvent`, lines 1058-1084: the first part, until the code of the worker is called. -/
def S.begin (s : S) (e : Ev) : S :=
  if e.item = 0 then s
  else
    match s.live e.item with
    | none => s
    | some (r, w) =>
      { s with
        recs := s.recs.set e.item { r with processed := r.processed + 1, recursion := r.recursion + 1 }
        stack := .event e.item w :: s.stack }

/-- `ChangeRecursion(id, true)`, lines 917-920. -/
def S.enter (s : S) (id : Nat) : S :=
  match s.live id with
  | none => s
  | some (r, _) => { s with recs := s.recs.set id { r with recursion := r.recursion + 1 } }

/-- `ChangeRecursion(id, false)`, lines 917-925. -/
def S.leave (s : S) (id : Nat) : S :=
  match s.live id with
  | none => s
  | some (r, _) =>
    let s := { s with recs := s.recs.set id { r with recursion := r.recursion - 1 } }
    if r.recursion - 1 = 0 ∧ r.doing then s.check id .none none else s

/-- The end of `ProcessEvent`, lines 1086 and 1095-1108. -/
def S.endEvent (s : S) (id : Nat) : S :=
  match s.recs[id]? with
  | none => s
  | some r =>
    let s := { s with recs := s.recs.set id { r with recursion := r.recursion - 1 } }
    if r.doing then s.check id .none none else s

/-- The end of the newest call. -/
def S.pop (s : S) : S :=
  match s.stack with
  | [] => s
  | .event id _ :: t => { s with stack := t }.endEvent id
  | .guard id _ :: t => { s with stack := t }.leave id
  | .raw _ _ :: t => { s with stack := t }
  | .fin _ _ cmds :: t => { s with stack := t, answers := s.answers ++ cmds.map (·, true), cleanup := true }

/-- `while ((new_size>1) && (fWorkers[new_size-1]->work==0))`, lines 374-378. -/
def shrink : List Rec → List Rec
  | [] => []
  | r :: t =>
    match shrink t with
    | [] => if r.work = none then [] else [r]
    | u => r :: u

/-- `ProcessNoneEvent`, lines 360-385. -/
def S.none (s : S) : S :=
  if s.cleanup then
    { s with
      recs := match s.recs with
        | [] => []
        | r :: t => r :: shrink t
      cleanup := false }
  else s

inductive Op where
  /-- Any thread: `FireEvent`, or `Submit` of a command with a normal priority. -/
  | fire (w : Nat)
  /-- Any thread: `Submit` of a command with `priorityMagic`. -/
  | magic (w : Nat)
  /-- Any thread: `AssignToThread` until the command `AddWorker` is submitted (Worker.cxx:326-369). -/
  | assign (w : Nat)
  /-- Any thread: `HaltWorker` / `InvokeWorkerDestroy` reads `fWorkerId` (lines 1237, 1276). -/
  | ask (w : Nat) (act : Act) (cmd : Option Nat)
  /-- Next part of `CheckWorkerCanBeHalted`. -/
  | next
  /-- The thread executes `AddWorker`. -/
  | add (k : Nat)
  /-- The thread executes `HaltWorker` or `InvokeWorkerDestroy`. -/
  | exec (k : Nat)
  /-- The thread takes an event. -/
  | event (k : Nat)
  /-- `RecursionGuard` for a worker. -/
  | guard (w : Nat)
  /-- `CheckTimeouts` calls a worker. -/
  | raw (id : Nat)
  /-- The newest call is finished. -/
  | pop
  /-- `WaitEvent` gets no event. -/
  | wait
  /-- `ProcessNoneEvent`. -/
  | none
  deriving DecidableEq, Repr

/-- Something the thread itself does: not between the parts of `CheckWorkerCanBeHalted`.  Between `WaitEvent` and
`ProcessNoneEvent` the thread does nothing else. -/
def S.own (s : S) (f : S → S) : S :=
  match s.chk with
  | .idle => f { s with empty := false }
  | _ => s

def step (s : S) : Op → S
  | .fire w => if (s.ws w).thrd && (s.ws w).active then s.fire w else s
  | .magic w => if (s.ws w).thrd then s.fire w else s
  | .assign w =>
    if (s.ws w).thrd then s
    else { s with ws := upd s.ws w { fired := 0, active := false, wid := 0, thrd := true }, adds := s.adds ++ [w] }
  | .ask w act cmd =>
    if (s.ws w).thrd then { s with reqs := s.reqs ++ [{ id := (s.ws w).wid, act := act, cmd := cmd }] }
    else s
  | .next =>
    match s.chk with
    | .idle => s
    | .decided id cmd => s.remove id cmd
    | .removed w destroy cmds => s.clear w destroy cmds
  | .add k => s.own fun s =>
    match s.adds[k]? with
    | none => s
    | some w =>
      { s with
        adds := s.adds.eraseIdx k
        recs := s.recs ++ [Rec.new (some w)]
        ws := upd s.ws w { s.ws w with wid := s.recs.length, active := true } }
  | .exec k => s.own fun s =>
    match s.reqs[k]? with
    | none => s
    | some q => { s with reqs := s.reqs.eraseIdx k, done := s.done ++ q.cmd.toList }.check q.id q.act q.cmd
  | .event k => s.own fun s =>
    match s.queue[k]? with
    | none => s
    | some e => { s with queue := s.queue.eraseIdx k }.begin e
  | .guard w => s.own fun s => { s with stack := .guard (s.ws w).wid w :: s.stack }.enter (s.ws w).wid
  | .raw id => s.own fun s =>
    match s.live id with
    | none => s
    | some (_, w) => { s with stack := .raw id w :: s.stack }
  | .pop => s.own S.pop
  | .wait => s.own fun s => { s with empty := s.queue.isEmpty }
  | .none => if s.empty then s.own S.none else s

def run (s : S) (l : List Op) : S := l.foldl step s

end Verif.WorkerHalt
