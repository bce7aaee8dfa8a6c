/-!
# Reading events with a handle

`mbs::ReadoutModule` and `mbs::ReadoutHandle`, plugins/mbs/src/api.cxx:21-213, `hadaq::ReadoutModule` and
`hadaq::ReadoutHandle`, plugins/hadaq/src/api.cxx:18-87.

The user calls `NextEvent`, which takes the next event of the current buffer or asks the module in its thread for the next
buffer with the command "NextBuffer".  Simplified: events are given as lists (C33, C39 and C32 treat the iterators); time is
a natural number; timeouts and ages which are not positive are `none`; commands are delivered as in C102.
-/

namespace Verif.Readout

/-- An MBS event or a HADES event; `raw`: an MBS event which contains exactly one HADES event (plugins/hadaq/src/api.cxx:77-86,
always used for the event inside). -/
structure Ev where
  id : Nat
  raw : Bool
  deriving DecidableEq, Repr

inductive Buf where
  | eof
  | mbs (l : List Ev)
  | had (l : List Ev)
  | other
  deriving DecidableEq, Repr

/-- What a call returned: the event, when, time of the buffer (`fCurBufTm`), when the call began, and the parameter `maxage`. -/
structure Ret where
  ev : Option Ev
  at_ : Nat
  tm : Option Nat
  called : Nat
  maxage : Option Nat
  deriving DecidableEq, Repr

/-- The user: outside of `NextEvent`; command "NextBuffer" submitted, not yet executed (`dl`: its timeout); waiting; the answer is
there. -/
inductive User where
  | idle
  | sent (dl : Option Nat) (maxage : Option Nat)
  | waiting (maxage : Option Nat)
  | got (res : Bool) (maxage : Option Nat)
  deriving DecidableEq, Repr

structure S where
  /-- `hadaq::ReadoutHandle`? -/
  h : Bool
  /-- capacity of the input queue -/
  cap : Nat
  now : Nat := 0
  queue : List Buf := []
  /-- input events not yet processed -/
  sig : Nat := 0
  /-- `fCmd` with its "maxage" -/
  cmd : Option (Option Nat) := none
  /-- `fIter`, `fIter2`: what `NextEvent` will give -/
  iter : List Ev := []
  iter2 : List Ev := []
  /-- `fIter2.evnt()` -/
  cur2 : Option Ev := none
  /-- `fCurBufTm`, `fLastNotFullTm`, null is `none` -/
  curTm : Option Nat := none
  lastNF : Option Nat := none
  /-- the timer -/
  due : Option Nat := none
  user : User := .idle
  /-- when the last call of `NextEvent` began, and its timeout -/
  since : Nat := 0
  tmo : Option Nat := none
  /-- commands which the user gave up before they were executed -/
  stale : List (Option Nat × Option Nat) := []
  log : List Ret := []
  /-- all buffers which came -/
  arrived : List Buf := []
  /-- the module changed an iterator while the user was not waiting for it -/
  racy : Bool := false
  deriving DecidableEq, Repr

/-- `GetEventInTime`, plugins/mbs/src/api.cxx:127-131. -/
def inTime (maxage : Option Nat) (s : S) : Bool :=
  match maxage, s.curTm with
  | some m, some t => decide (s.now ≤ t + m)
  | _, _ => true

/-- `return` of `NextEvent`. -/
def ret (e : Option Ev) (maxage : Option Nat) (s : S) : S :=
  { s with user := .idle, log := s.log ++ [⟨e, s.now, s.curTm, s.since, maxage⟩] }

/-- `hadaq::ReadoutHandle::GetEvent` after an MBS event, plugins/hadaq/src/api.cxx:69-87. -/
def getEvent (e : Ev) (s : S) : Option Ev :=
  if s.h then
    match s.cur2 with
    | some x => some x
    | none => if e.raw then some e else none
  else some e

/-- `fCmd.Reply(res)`: the user goes on when it waits for this command. -/
def reply (res : Bool) (s : S) : S :=
  { s with cmd := none, user := match s.user with | .waiting m => .got res m | u => u }

/-- Take a buffer, plugins/mbs/src/api.cxx:77-93; with `clean` only the last one or the end of data. -/
def drain (clean : Bool) : List Buf → Option (Buf × List Buf)
  | [] => none
  | .eof :: q => some (.eof, q)
  | b :: q => if clean ∧ q ≠ [] then drain clean q else some (b, q)

/-- An iterator is changed. -/
def touch (s : S) : S := { s with racy := s.racy || (match s.user with | .waiting _ => false | _ => true) }

/-- plugins/mbs/src/api.cxx:78-110 with `AcceptBuffer`, plugins/mbs/mbs/api.h:60, plugins/hadaq/src/api.cxx:24-30. -/
def accept (b : Buf) (s : S) : S :=
  match b with
  | .eof => reply false s
  | .mbs l => reply true { touch s with iter := l }
  | .had l => if s.h then reply true { touch s with iter2 := l, cur2 := l.head? } else reply false s
  | .other => if s.h then reply false { touch s with iter2 := [], cur2 := none } else reply false s

/-- `cleanqueue`, plugins/mbs/src/api.cxx:69-75. -/
def cleanq (maxage : Option Nat) (s : S) : Bool :=
  match maxage with
  | none => false
  | some m => decide (s.cap ≤ s.queue.length) &&
      (match s.lastNF with | none => true | some t => decide (t + 2 * m < s.now))

/-- `ProcessData`, plugins/mbs/src/api.cxx:58-111. -/
def processData (s : S) : S :=
  match s.cmd with
  | none => s
  | some maxage =>
    let c := cleanq maxage s
    let s : S := { s with lastNF := if c then some s.now else s.lastNF }
    match drain c s.queue with
    | none => reply false s
    | some (b, q) => accept b { s with queue := q, curTm := some s.now }

/-- The command was stored in `fCmd`, plugins/mbs/src/api.cxx:45-50. -/
def take (dl : Option Nat) (s : S) : S :=
  match dl with
  | none => processData s
  | some d => if s.queue ≠ [] ∨ d ≤ s.now then processData s else { s with due := some d }

/-- `ExecuteCommand`, plugins/mbs/src/api.cxx:38-56; the user waits for the answer. -/
def exec (dl maxage : Option Nat) (s : S) : S :=
  if s.cmd ≠ none then { s with user := .got false maxage }
  else take dl { s with cmd := some maxage, user := .waiting maxage }

/-- `NextEvent` after `Execute`, plugins/mbs/src/api.cxx:203-208, plugins/hadaq/src/api.cxx:58-66. -/
def finish (res : Bool) (maxage : Option Nat) (s : S) : S :=
  match res, s.iter with
  | true, e :: l => ret (getEvent e s) maxage { s with iter := l }
  | _, _ =>
    if s.h then
      match s.iter2 with
      | e :: l => ret (some e) maxage { s with iter2 := l, cur2 := some e }
      | [] => ret none maxage { s with cur2 := none }
    else ret none maxage s

/-- `mbs::ReadoutHandle::NextEvent` until `Execute`, plugins/mbs/src/api.cxx:190-203. -/
def callMbs (dl maxage : Option Nat) (s : S) : S :=
  if inTime maxage s then
    match s.iter with
    | e :: l => ret (getEvent e s) maxage { s with iter := l }
    | [] => { s with user := .sent dl maxage }
  else { s with user := .sent dl maxage }

/-- `hadaq::ReadoutHandle::NextEvent` until there, plugins/hadaq/src/api.cxx:47-58. -/
def call (dl maxage : Option Nat) (s : S) : S :=
  if s.h ∧ inTime maxage s then
    match s.iter2 with
    | e :: l => ret (some e) maxage { s with iter2 := l, cur2 := some e }
    | [] => callMbs dl maxage { s with cur2 := none }
  else callMbs dl maxage s

inductive Act where
  | tick (d : Nat)
  /-- a buffer comes; its input event may be later -/
  | arrive (b : Buf)
  | input
  | timer
  /-- `NextEvent(tmout, maxage)` -/
  | call (tmout maxage : Option Nat)
  | exec
  /-- the timeout of `Execute` -/
  | giveUp
  /-- a command given up before is executed now -/
  | late
  | finish
  deriving DecidableEq, Repr

/-- `none`: not possible in this state. -/
def step (s : S) (a : Act) : Option S :=
  match a with
  | .tick d => some { s with now := s.now + d }
  | .arrive b => some { s with queue := s.queue ++ [b], arrived := s.arrived ++ [b], sig := s.sig + 1 }
  | .input =>
    if 0 < s.sig then
      some (processData { s with sig := s.sig - 1, lastNF := if s.queue.length < s.cap then some s.now else s.lastNF })
    else none
  | .timer =>
    match s.due with
    | some d => if d < s.now then some (processData { s with due := none }) else none
    | none => none
  | .call tmout maxage => if s.user = .idle then some (call (tmout.map (s.now + ·)) maxage { s with since := s.now, tmo := tmout }) else none
  | .exec =>
    match s.user with
    | .sent dl m => if s.stale = [] then some (exec dl m s) else none
    | _ => none
  | .giveUp =>
    match s.user with
    | .sent dl m => some { s with user := .got false m, stale := s.stale ++ [(dl, m)] }
    | .waiting m => some { s with user := .got false m }
    | _ => none
  | .late =>
    match s.stale with
    | [] => none
    | (dl, m) :: l =>
      if s.cmd ≠ none then some { s with stale := l } else some (take dl { s with cmd := some m, stale := l })
  | .finish =>
    match s.user with
    | .got r m => some (finish r m s)
    | _ => none

def run (s : S) : List Act → Option S
  | [] => some s
  | a :: as => (step s a).bind fun t => run t as

def new (h : Bool) (cap : Nat) : S := { h := h, cap := cap }

/-- The names of the module in `DoConnect`, plugins/mbs/src/api.cxx:149-153, and in `MonitorHandle::Connect`, 225-229: the number in
the name which is used; `none`: not found in `fuel` turns.  `used`: there is a module with this number. -/
def chooseName (used : Nat → Bool) : Nat → Option Nat
  | 0 => none
  | fuel + 1 =>
    let cnt := 0
    if used cnt then chooseName used fuel else some cnt

end Verif.Readout
