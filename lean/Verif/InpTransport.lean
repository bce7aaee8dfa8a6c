/-!
# Input transports (`dabc::InputTransport`, `base/src/DataTransport.cxx:21-573`)

An input transport reads data with a `DataInput` object and sends the filled
buffers over a port.  Everything runs in one thread; what the input object,
the memory pool, the port and the device answer during a call is an input of
the operation (`Ans`).

Simplified:
* buffers are numbered in the order in which they are taken from the pool, a
  buffer is its number and its total size;
* the mode with several buffers inside of the input (`di_NeedMoreBuf`,
  `di_HasEnoughBuf`, `fExtraBufs`), used by no input of the repository, is
  left out: these two codes lead to the flag `outside`;
* `fPoolRef`, `ProcessPoolChanged`, statistics and messages are left out;
* `CloseTransport` (`Transport.cxx:195-199`) disconnects the ports and orders
  the deletion of the transport: flag `opened`.
-/

namespace Verif.InpTransport

/-- `enum DataInputCodes`, `base/dabc/DataIO.h:32-47`. -/
def validSize : Nat := 0xFFFFFFF0
def cRepeat : Nat := 0xFFFFFFF2
def cRepeatTimeOut : Nat := 0xFFFFFFF3
def cEndOfStream : Nat := 0xFFFFFFF4
def cOk : Nat := 0xFFFFFFF5
def cCallBack : Nat := 0xFFFFFFF6
def cError : Nat := 0xFFFFFFF7
def cSkipBuffer : Nat := 0xFFFFFFF8
def cDfltBufSize : Nat := 0xFFFFFFF9
def cNeedMoreBuf : Nat := 0xFFFFFFFA
def cHasEnoughBuf : Nat := 0xFFFFFFFB
def cMoreBufReady : Nat := 0xFFFFFFFC

/-- `enum EInputStates`, `DataTransport.h:54-72` (`inpBegin` is never used). -/
inductive St where
  | init | initTimeout | sizeCallBack | checkSize | needBuffer | waitBuffer
  | checkBuffer | hasBuffer | callBack | completing | complitTimeout | ready
  | error | fin | reconnect | closed
deriving DecidableEq, Repr

/-- `ETransportState`, `base/dabc/Transport.h`. -/
inductive TSt where
  | init | running | stopped | error
deriving DecidableEq, Repr

/-- Everything that happens between the transport and its surrounding:
calls on the input object with their results, call-backs, buffers from the
pool, buffers sent, timer events.  `quit` stands for a wish from outside to
give up the input (command, device destroyed, clean-up of the transport). -/
inductive Ev where
  | size (r : Nat)
  | back (v : Nat)
  | take (b sz : Nat)
  | start (b sz r : Nat)
  | complete (b r : Nat)
  | send (b : Nat)
  | eof
  | quit
  | delete
  | create
  | timer
deriving DecidableEq, Repr

/-- Fixed settings: is there a memory pool, has it a request queue
(`IsAutoPool`), is `fReconnect` given, the loop length of the port,
`fActivateWorkaround`. -/
structure Cfg where
  pools : Bool
  auto : Bool
  recon : Bool
  loop : Nat
  work : Bool
deriving DecidableEq, Repr

structure S where
  st : St
  inp : Bool
  cur : Option (Nat × Nat)
  next : Nat
  stopReq : Bool
  tst : TSt
  run : Bool
  opened : Bool
  pend : Bool
  full : Bool
  timer : Bool
  dead : Bool
  outside : Bool
  nbuf : Nat
  log : List Ev
deriving DecidableEq, Repr

/-- Answers of the surrounding during one call of `ProcessSend`: was the device
destroyed, does `CreateDataInput` succeed, `NumCanSend`, result of `Read_Size`
and an argument of a call-back done inside of it, size of the buffer given by
the pool, results of `Read_Start` (again with call-back) and
`Read_Complete`. -/
structure Ans where
  gone : Bool := false
  made : Bool := true
  room : Nat := 1
  size : Nat := cDfltBufSize
  sizeBack : Option Nat := none
  buf : Option Nat := some 0
  start : Nat := cOk
  startBack : Option Nat := none
  compl : Nat := cOk
deriving DecidableEq, Repr

/-- Constructor, `DataTransport.cxx:21-42`. -/
def new : S :=
  { st := .init, inp := true, cur := none, next := 0, stopReq := false, tst := .init,
    run := false, opened := true, pend := false, full := false, timer := false, dead := false,
    outside := false, nbuf := 0, log := [] }

/-- `SuitableStateForStartStop`, `DataTransport.h:98-104`. -/
def suitable : St → Bool
  | .init | .ready | .error | .closed => true
  | _ => false

/-- `Transport::StopTransport`, `Transport.cxx:238-247`, with
`Module::DoStop`, `Module.cxx:586-605` (also deactivates the timer). -/
def halt (s : S) : S := if s.run then { s with run := false, timer := false } else s

/-- `ChangeState`, `DataTransport.cxx:261-270`. -/
def change (s : S) (st : St) : S :=
  if s.stopReq && suitable st then halt { s with st := st, stopReq := false }
  else { s with st := st }

def note (s : S) (e : Ev) : S := { s with log := s.log ++ [e] }

/-- `CloseInput`, `DataTransport.cxx:140-149`. -/
def closeInput (s : S) : S := if s.inp then note { s with inp := false } .delete else s

/-- `CloseInput` on a wish from outside. -/
def quitInput (s : S) : S := if s.inp then closeInput (note s .quit) else s

/-- `CloseTransport`, `Transport.cxx:195-199`. -/
def closeTransport (s : S) : S := { s with opened := false }

/-- `Read_CallBack` up to line 252, `DataTransport.cxx:219-252`
(without extra buffers). -/
def backState (v : Nat) (s : S) : S :=
  let s := note s (.back v)
  match s.st with
  | .init => { s with dead := true }
  | .sizeCallBack => { s with st := .checkSize, next := v }
  | .callBack => { s with st := .completing }
  | _ => { s with st := .error }

/-- `ActivateOutput`, `ModuleAsync.cxx:127-133`; `room` is `CanSend`. -/
def activate (room : Bool) (s : S) : S :=
  if s.run then (if room && s.opened then { s with pend := true } else { s with full := true })
  else s

/-- A call-back done while the input object is inside of `Read_Size` or
`Read_Start`. -/
def inner (v : Option Nat) (s : S) : S :=
  match v with
  | none => s
  | some v => activate true (backState v s)

/-- Result of a part of `ProcessSend`: `none` — go on, `some r` — return. -/
abbrev R := S × Option Bool

def andThen (r : R) (f : S → R) : R :=
  match r with
  | (s, some b) => (s, some b)
  | (s, none) => f s

/-- Lines 275-316: the checks before anything else. -/
def before (c : Cfg) (a : Ans) (s : S) : R :=
  if s.st = .closed then (s, some false)
  else if c.pools = false then (closeTransport s, some false)
  else if a.gone then (closeTransport (change (quitInput s) .closed), some false)
  else if s.st = .reconnect then
    if s.inp then (closeTransport s, some false)
    else if c.recon = false then (closeTransport s, some false)
    else if a.made = false then ({ s with timer := true }, some false)
    else (change (note { s with inp := true } .create) .init, none)
  else (s, none)

/-- Lines 318-328. -/
def idle (s : S) : R :=
  if s.inp = false then (closeTransport s, some false)
  else if s.st = .sizeCallBack ∨ s.st = .initTimeout ∨ s.st = .complitTimeout then (s, some false)
  else (s, none)

/-- Line 358-383: what is done with the result of `Read_Size`. -/
def sizeRes (r : Nat) (s : S) : R :=
  let s := if r = cCallBack then s else { s with st := .init }
  if r = cRepeat then (s, some true)
  else if r = cRepeatTimeOut then ({ change s .initTimeout with timer := true }, some false)
  else if r = cCallBack then (s, some (decide (s.st ≠ .sizeCallBack)))
  else (change { s with next := r } .checkSize, none)

/-- Lines 336-384. -/
def sizeStage (a : Ans) (s : S) : R :=
  if s.st = .init then
    if s.tst ≠ .running then (s, some false)
    else if a.room = 0 then ({ s with dead := true }, some false)
    else
      sizeRes a.size (inner a.sizeBack (note { s with st := .sizeCallBack, next := 0 } (.size a.size)))
  else (s, none)

/-- Lines 386-413. -/
def sizeCheck (s : S) : R :=
  if s.st = .checkSize then
    if s.next = cCallBack then (change s .error, none)
    else if s.next = cEndOfStream then (change s .fin, none)
    else if s.next = cDfltBufSize then ({ change s .needBuffer with next := 0 }, none)
    else if s.next ≤ validSize then (change s .needBuffer, none)
    else (change s .error, none)
  else (s, none)

/-- The next buffer of the pool becomes `fCurrentBuf`. -/
def take (sz : Nat) (s : S) : S :=
  note { s with cur := some (s.nbuf, sz), nbuf := s.nbuf + 1 } (.take s.nbuf sz)

/-- Lines 417-435. -/
def bufferStage (c : Cfg) (a : Ans) (s : S) : R :=
  if s.st = .needBuffer then
    match a.buf with
    | some sz => (change (take sz s) .checkBuffer, none)
    | none =>
      if c.auto then (change { s with cur := none } .waitBuffer, some false)
      else ({ s with cur := none, timer := true }, some false)
  else (s, none)

/-- `GetTotalSize` of `fCurrentBuf`. -/
def curSize (s : S) : Nat :=
  match s.cur with
  | some (_, sz) => sz
  | none => 0

/-- `SetTotalSize` of `fCurrentBuf`. -/
def cut (n : Nat) (s : S) : S := { s with cur := s.cur.map fun p => (p.1, n) }

/-- Lines 437-449. -/
def bufferCheck (s : S) : R :=
  if s.st = .checkBuffer then
    if curSize s < s.next then (change s .error, none)
    else if 0 < s.next then (change (cut s.next s) .hasBuffer, none)
    else (change s .hasBuffer, none)
  else (s, none)

/-- Lines 464-486: what is done with the result of `Read_Start`. -/
def startRes (r : Nat) (s : S) : R :=
  if r = cOk then (change s .completing, none)
  else if r = cNeedMoreBuf ∨ r = cHasEnoughBuf then ({ s with outside := true }, some false)
  else if r = cCallBack then (s, some (decide (s.st ≠ .callBack)))
  else (change s .error, none)

/-- Number of `fCurrentBuf` for the log. -/
def curId (s : S) : Nat :=
  match s.cur with
  | some (b, _) => b
  | none => 0

/-- Lines 451-487. -/
def startStage (a : Ans) (s : S) : R :=
  if s.st = .hasBuffer then
    startRes a.start (inner a.startBack (note { s with st := .callBack } (.start (curId s) (curSize s) a.start)))
  else (s, none)

/-- Lines 490-493. -/
def waitStage (s : S) : R :=
  if s.st = .callBack then (s, some false) else (s, none)

/-- `Send` of the current buffer. -/
def sendCur (s : S) : S :=
  match s.cur with
  | some (b, _) => note { s with cur := none } (.send b)
  | none => s

/-- Lines 514-545: what is done with the result of `Read_Complete`. -/
def complRes (r : Nat) (s : S) : R :=
  if r = cOk then (change s .ready, none)
  else if r = cMoreBufReady then (sendCur s, some true)
  else if r = cSkipBuffer then (change { s with cur := none } .init, none)
  else if r = cEndOfStream then (change { s with cur := none } .fin, none)
  else if r = cRepeat then (s, some true)
  else if r = cRepeatTimeOut then ({ change s .complitTimeout with timer := true }, some false)
  else (change s .error, none)

/-- Lines 495-546. -/
def complStage (a : Ans) (s : S) : R :=
  if s.st = .completing then
    match s.cur with
    | none => (s, some false)
    | some (b, _) => complRes a.compl (note s (.complete b a.compl))
  else (s, none)

/-- Lines 548-556. -/
def readyStage (a : Ans) (s : S) : R :=
  if s.st = .ready then
    if a.room = 0 then ({ s with dead := true }, some false)
    else (change { sendCur s with cur := none } .init, none)
  else (s, none)

/-- Lines 558-576. -/
def endStage (a : Ans) (s : S) : R :=
  if s.st = .error ∨ s.st = .fin then
    let s := { closeInput s with next := 0, cur := none }
    if a.room = 0 then ({ s with dead := true }, some false)
    else (change (note s .eof) .closed, none)
  else (s, none)

/-- Lines 578-583. -/
def lastStage (s : S) : R :=
  if s.st = .closed then (closeTransport s, some false) else (s, some true)

/-- `ProcessSend`, `DataTransport.cxx:272-584`. -/
def processSend (c : Cfg) (a : Ans) (s : S) : R :=
  andThen (before c a s) fun s =>
  andThen (idle s) fun s =>
  andThen (sizeStage a s) fun s =>
  andThen (sizeCheck s) fun s =>
  andThen (bufferStage c a s) fun s =>
  andThen (bufferCheck s) fun s =>
  andThen (startStage a s) fun s =>
  andThen (waitStage s) fun s =>
  andThen (complStage a s) fun s =>
  andThen (readyStage a s) fun s =>
  andThen (endStage a s) lastStage

/-- `ProcessOutputEvent`, `ModuleAsync.cxx:135-150`: the next answers belong to
the next turns of the loop; when they are used up (or `room = 0`) `CanSend`
says no. -/
def output (c : Cfg) : Nat → List Ans → S → S
  | _, [], s => if s.run then { s with full := true } else s
  | cnt, a :: as, s =>
    if s.dead then s
    else if s.run && s.opened then
      if a.room = 0 then { s with full := true }
      else
        match processSend c a s, cnt with
        | (s, some true), 0 => { s with pend := true }
        | (s, some true), n + 1 => output c n as s
        | (s, _), _ => s
    else s

inductive Op where
  /-- event of the output port -/
  | output (as : List Ans)
  /-- the port has room again: it fires an event (see `LocalTransport`) -/
  | space
  /-- event of the memory pool with a buffer of the given size -/
  | pool (sz : Nat) (as : List Ans)
  | timer (as : List Ans)
  /-- `Read_CallBack` from outside of the methods of the input -/
  | back (v : Nat) (room : Bool) (as : List Ans)
  /-- command `DataInputFailed` or `DataInputClosed` -/
  | close
  /-- connection activated or deactivated -/
  | start
  | stop
  | cleanup
deriving DecidableEq, Repr

/-- `ProcessTimerEvent` before the loop, `DataTransport.cxx:168-176`. -/
def wake (s : S) : S :=
  let s := if s.st = .initTimeout then change s .init else s
  if s.st = .complitTimeout then change s .completing else s

/-- `ExecuteCommand`, `DataTransport.cxx:179-199`. -/
def closeCmd (c : Cfg) (s : S) : S :=
  let s := if s.st ≠ .closed then change (quitInput s) .closed else s
  if c.recon = false then closeTransport s
  else { change s .reconnect with timer := true }

/-- `ProcessConnectionActivated`, `Transport.cxx:140-172`, with
`StartTransport`, `DataTransport.cxx:77-103`. -/
def startOp (s : S) : S :=
  if s.tst = .init ∨ s.tst = .stopped then
    if s.inp = false then { s with run := true, tst := .error, opened := false }
    else { s with run := true, stopReq := false, pend := true, tst := .running }
  else s

/-- The same with `StopTransport`, `DataTransport.cxx:105-121`. -/
def stopOp (s : S) : S :=
  if s.tst = .running then
    if suitable s.st then { halt { s with stopReq := false } with tst := .stopped }
    else { s with stopReq := true, tst := .stopped }
  else s

/-- `TransportCleanup`, `DataTransport.cxx:152-165`. -/
def cleanupOp (s : S) : S :=
  let s := if s.st ≠ .closed then { quitInput s with st := .closed } else s
  { s with cur := none, opened := false }

/-- One operation.  Once the process has ended (`dead`) nothing happens any
more, after `CloseTransport` only the clean-up. -/
def step (c : Cfg) (s : S) (o : Op) : S :=
  if s.dead then s
  else match o with
    | .cleanup => cleanupOp s
    | o =>
      if s.opened = false then s
      else match o with
        | .output as => output c c.loop as { s with pend := false }
        | .space => { s with full := false, pend := true }
        | .pool sz as =>
          if s.run && decide (s.st = .waitBuffer) then output c c.loop as (change (take sz s) .checkBuffer)
          else s
        | .timer as =>
          if s.timer then
            if s.run then output c c.loop as (wake (note { s with timer := false } .timer))
            else { s with timer := false }
          else s
        | .back v room as =>
          if s.inp = false then s
          else if c.work then
            let s := backState v s
            if s.dead then s else output c c.loop as s
          else
            let s := backState v s
            if s.dead then s else activate room s
        | .close => closeCmd c s
        | .start => startOp s
        | .stop => stopOp s
        | .cleanup => s

def steps (c : Cfg) (s : S) (os : List Op) : S := os.foldl (step c) s

end Verif.InpTransport
