/-!
# Output transports (`dabc::OutputTransport`, `base/src/DataTransport.cxx:587-921`)

An output transport takes buffers from its input port and writes them with a
`DataOutput` object.  Everything runs in one thread; what the output object and
the device answer during a call is an input of the operation (`Ans`).

Simplified: buffers are numbers; the queue of the port is a list; statistics,
`Write_Restart` and information parameters are left out; `CloseTransport`
(`Transport.cxx:195-199`) is the flag `opened`.
-/

namespace Verif.OutTransport

/-- `enum DataOutputCodes`, `base/dabc/DataIO.h:141-149`; `other` is any value
besides these. -/
inductive Code where
  | ok | skip | again | againTimeOut | callBack | error | close | other
deriving DecidableEq, Repr

/-- A buffer in the queue of the port: data, end of file, end of line. -/
inductive Item where
  | data (b : Nat)
  | eof
  | eol
deriving DecidableEq, Repr

/-- `enum EOutputStates`, `DataTransport.h:150-161`. -/
inductive St where
  | ready | initTimeout | waitCallback | startWriting | waitFinish | finishWriting
  | error | closing | closed | retry
deriving DecidableEq, Repr

/-- `ETransportState`, `base/dabc/Transport.h`. -/
inductive TSt where
  | init | running | stopped | error
deriving DecidableEq, Repr

/-- Everything that happens between the transport and its surrounding: calls on
the output object with their results, call-backs, buffers dropped, timer events;
`quit` stands for a wish from outside to give up the output (device destroyed,
clean-up of the transport). -/
inductive Ev where
  | check (r : Code)
  | write (b : Nat) (r : Code)
  | complete (r : Code)
  | back (r : Code)
  | flush
  | drop (b : Nat)
  | eof
  | retry (r : Bool)
  | init (r : Bool)
  | quit
  | delete
  | timer
deriving DecidableEq, Repr

/-- Fixed settings: is a retry period given (`fRetryPeriod ≥ 0`), loop length of
the port. -/
structure Cfg where
  retry : Bool
  loop : Nat
deriving DecidableEq, Repr

structure S where
  st : St
  out : Bool
  queue : List Item
  stopReq : Bool
  tst : TSt
  run : Bool
  opened : Bool
  pend : Bool
  timer : Bool
  log : List Ev
deriving DecidableEq, Repr

/-- Answers during one call of `ProcessRecv`: was the device destroyed, results
of `Write_Check`, `Write_Buffer`, `Write_Complete`, `Write_Retry`. -/
structure Ans where
  gone : Bool := false
  check : Code := .ok
  write : Code := .ok
  compl : Code := .ok
  retry : Bool := false
deriving DecidableEq, Repr

/-- Constructor, `DataTransport.cxx:577-596`. -/
def new : S :=
  { st := .ready, out := true, queue := [], stopReq := false, tst := .init, run := false,
    opened := true, pend := false, timer := false, log := [] }

/-- `SuitableStateForStartStop`, `DataTransport.h:178-183`. -/
def suitable : St → Bool
  | .ready | .error | .closed => true
  | _ => false

/-- `Transport::StopTransport`, `Transport.cxx:238-247`, with
`Module::DoStop`, `Module.cxx:586-605` (also deactivates the timer). -/
def halt (s : S) : S := if s.run then { s with run := false, timer := false } else s

/-- `ChangeState`, `DataTransport.cxx:636-643`. -/
def change (s : S) (st : St) : S :=
  if s.stopReq && suitable st then halt { s with st := st, stopReq := false }
  else { s with st := st }

def note (s : S) (e : Ev) : S := { s with log := s.log ++ [e] }

/-- `CloseOutput`, `DataTransport.cxx:625-634`. -/
def closeOutput (s : S) : S := if s.out then note { s with out := false } .delete else s

/-- `CloseOutput` on a wish from outside. -/
def quitOutput (s : S) : S := if s.out then closeOutput (note s .quit) else s

/-- `CloseTransport`, `Transport.cxx:195-199`. -/
def closeTransport (s : S) : S := { s with opened := false }

/-- `ShootTimer`, `Module.h:187-196`. -/
def shoot (s : S) : S := { s with timer := true }

/-- The condition at the begin of `CloseOnError`: `true` when the output is to
be closed. -/
def noRetry (c : Cfg) (r : Bool) (s : S) : S × Bool :=
  if c.retry = false then (s, true)
  else if s.out = false then (s, true)
  else (note s (.retry r), !r)

/-- `CloseOnError`, `DataTransport.cxx:692-702`.  There is no `return` after the
output is closed. -/
def closeOnError (c : Cfg) (r : Bool) (s : S) : S :=
  let p := noRetry c r s
  let s := if p.2 then closeTransport (closeOutput (change p.1 .closed)) else p.1
  shoot (change s .retry)

/-- Result of a part of `ProcessRecv`: `none` — go on, `some r` — return. -/
abbrev R := S × Option Bool

def andThen (r : R) (f : S → R) : R :=
  match r with
  | (s, some b) => (s, some b)
  | (s, none) => f s

/-- Lines 744-754. -/
def before (a : Ans) (s : S) : R :=
  let s := if s.out = false then change s .error else s
  if a.gone then (closeTransport (quitOutput (change s .closed)), some false) else (s, none)

/-- Lines 783-810: what is done with the result of `Write_Check`; `b` is the
buffer at the head of the queue. -/
def checkRes (r : Code) (b : Nat) (q : List Item) (s : S) : R :=
  match r with
  | .ok => (change s .startWriting, none)
  | .again => (s, some true)
  | .againTimeOut => (shoot (change s .initTimeout), some false)
  | .callBack => (change s .waitCallback, some false)
  | .skip => (note { s with queue := q } (.drop b), some true)
  | .close => (change s .closing, none)
  | .error => (change s .error, none)
  | .other => (change s .error, none)

/-- Lines 756-811. -/
def readyStage (a : Ans) (s : S) : R :=
  if s.st = .ready then
    match s.queue with
    | .eof :: q => (change (note { s with queue := q } .eof) .closing, none)
    | .eol :: q => (note { s with queue := q } .flush, some true)
    | .data b :: q => checkRes a.check b q (note s (.check a.check))
    | [] => (s, some true)
  else (s, none)

/-- Lines 813-819. -/
def waitStage (s : S) : R :=
  if s.st = .initTimeout ∨ s.st = .waitCallback then (s, some false) else (s, none)

/-- Lines 827-848: what is done with the result of `Write_Buffer`. -/
def writeRes (r : Code) (s : S) : R :=
  match r with
  | .ok => (change s .finishWriting, none)
  | .callBack => (change s .waitFinish, some false)
  | .skip => (change s .ready, some true)
  | .close => (change s .closing, none)
  | _ => (change s .error, none)

/-- Lines 821-849. -/
def startStage (a : Ans) (s : S) : R :=
  if s.st = .startWriting then
    match s.queue with
    | .data b :: q => writeRes a.write (note { s with queue := q } (.write b a.write))
    | _ :: q => (change { s with queue := q } .error, none)
    | [] => (change s .error, none)
  else (s, none)

/-- Lines 851-854. -/
def finishWait (s : S) : R :=
  if s.st = .waitFinish then (s, some false) else (s, none)

/-- Lines 862-877: what is done with the result of `Write_Complete`. -/
def complRes (r : Code) (s : S) : S :=
  match r with
  | .ok => change s .ready
  | .close => change s .closing
  | _ => change s .error

/-- Lines 856-878. -/
def finishStage (a : Ans) (s : S) : R :=
  if s.st = .finishWriting then (complRes a.compl (note s (.complete a.compl)), none) else (s, none)

/-- Lines 880-898. -/
def lastStage (c : Cfg) (a : Ans) (s : S) : R :=
  if s.st = .closing then (closeTransport (closeOutput (change s .closed)), some false)
  else if s.st = .error then (closeOnError c a.retry s, some false)
  else (s, some true)

/-- `ProcessRecv`, `DataTransport.cxx:739-899`. -/
def processRecv (c : Cfg) (a : Ans) (s : S) : R :=
  andThen (before a s) fun s =>
  andThen (readyStage a s) fun s =>
  andThen (waitStage s) fun s =>
  andThen (startStage a s) fun s =>
  andThen (finishWait s) fun s =>
  andThen (finishStage a s) (lastStage c a)

/-- `ProcessInputEvent`, `ModuleAsync.cxx:110-125`. -/
def input (c : Cfg) : Nat → List Ans → S → S
  | cnt, as, s =>
    if s.run && s.opened && !s.queue.isEmpty then
      match processRecv c (as.headD {}) s, cnt with
      | (s, some true), 0 => { s with pend := true }
      | (s, some true), n + 1 => input c n as.tail s
      | (s, _), _ => s
    else s

inductive Op where
  /-- a buffer arrives in the queue of the port -/
  | arrive (i : Item)
  /-- event of the input port -/
  | input (as : List Ans)
  /-- `Write_CallBack`; `r` is the answer of `Write_Retry` -/
  | back (v : Code) (r : Bool) (as : List Ans)
  /-- timer (`Timer::ProcessTimeout`, `ModuleItem.cxx:120-138`, does nothing when
  the module does not run); `r` is the result of `Write_Init` -/
  | timer (r : Bool) (as : List Ans)
  /-- connection activated or deactivated -/
  | start
  | stop
  | cleanup
deriving DecidableEq, Repr

/-- `ProcessEvent`, `DataTransport.cxx:705-737`. -/
def backOp (c : Cfg) (v : Code) (r : Bool) (as : List Ans) (s : S) : S :=
  let s := note s (.back v)
  if v ≠ .ok then closeOnError c r s
  else if s.st = .waitCallback then input c c.loop as (change s .ready)
  else if s.st = .waitFinish then
    match processRecv c (as.headD {}) (change s .finishWriting) with
    | (s, some true) => input c c.loop as.tail s
    | (s, _) => s
  else s

/-- `ProcessTimerEvent`, `DataTransport.cxx:891-906`. -/
def timerOp (c : Cfg) (r : Bool) (as : List Ans) (s : S) : S :=
  let s := note s .timer
  let s := if s.st = .initTimeout then change s .ready else s
  if s.st = .retry then
    if s.out then
      if r then input c c.loop as (change (note s (.init r)) .ready)
      else shoot (note s (.init r))
    else shoot s
  else input c c.loop as s

/-- `ProcessConnectionActivated`, `Transport.cxx:140-172`, with
`StartTransport`, `DataTransport.cxx:646-664`; the start of the module fires an
event when the port has buffers (`Port.cxx:306-318`). -/
def startOp (s : S) : S :=
  if s.tst = .init ∨ s.tst = .stopped then
    let s := if s.run then s else { s with run := true, pend := s.pend || !s.queue.isEmpty }
    if s.out = false then { s with stopReq := false, tst := .error, opened := false }
    else { s with stopReq := false, tst := .running }
  else s

/-- The same with `StopTransport`, `DataTransport.cxx:666-681`. -/
def stopOp (s : S) : S :=
  if s.tst = .running then
    if suitable s.st then { halt { s with stopReq := false } with tst := .stopped }
    else { s with stopReq := true, tst := .stopped }
  else s

/-- One operation; after `CloseTransport` nothing happens any more but the
clean-up (`DataTransport.cxx:684-689`). -/
def step (c : Cfg) (s : S) (o : Op) : S :=
  match o with
  | .cleanup => { quitOutput s with opened := false }
  | o =>
    if s.opened = false then s
    else match o with
      | .arrive i => { s with queue := s.queue ++ [i], pend := s.pend || s.run }
      | .input as => input c c.loop as { s with pend := false }
      | .back v r as => backOp c v r as s
      | .timer r as =>
        if s.timer then
          if s.run then timerOp c r as { s with timer := false } else { s with timer := false }
        else s
      | .start => startOp s
      | .stop => stopOp s
      | .cleanup => s

def steps (c : Cfg) (s : S) (os : List Op) : S := os.foldl (step c) s

end Verif.OutTransport
