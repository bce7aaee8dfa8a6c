import Verif.SlowData
/-!
# Producers of events with slow control records

`ezca::EpicsInput` (plugins/ezca/src/EpicsInput.cxx), `mbs::MonitorSlowControl` (plugins/mbs/src/MonitorSlowControl.cxx) and the
record of `fesa::Monitor` (plugins/fesa/src/Monitor.cxx).

Simplified: answers of the EPICS library, the buffer which the pool delivers and whether outputs can take a buffer are inputs of
a call.  Times are natural numbers.  The time stored in a record is left out.  `Write` of a record into sufficient place succeeds (C109).
-/

namespace Verif.SlowSend
open Verif.Bytes Verif.SlowData

/-! ## Input from EPICS -/

/-- Which records are configured and whether a command receiver is, plugins/ezca/src/EpicsInput.cxx:65-67. -/
structure Cfg where
  flagRec : Bool
  idRec : Bool
  receiver : Bool

/-- `fLastFlagValue`, `fEventNumber`, `fCounter`, plugins/ezca/ezca/EpicsInput.h:48-54. -/
structure E where
  last : Int := 0
  number : Int := 0
  counter : Nat := 0
  deriving DecidableEq, Repr

/-- What reading of the flag record and of the event number record gives; `none` is an error. -/
structure Poll where
  flag : Option Int := none
  id : Option Int := none
  deriving DecidableEq, Repr

inductive Res where
  | repeatTimeOut
  | dfltBufSize
  deriving DecidableEq, Repr

/-- Reading of the event number, plugins/ezca/src/EpicsInput.cxx:146-160. -/
def readNumber (c : Cfg) (p : Poll) (s : E) : Res × E :=
  if c.idRec then
    match p.id with
    | none => (.repeatTimeOut, s)
    | some v => (.dfltBufSize, { s with number := v })
  else (.dfltBufSize, { s with number := s.counter })

/-- `Read_Size`, plugins/ezca/src/EpicsInput.cxx:97-161, with the flags of the submitted commands. -/
def readSize (c : Cfg) (p : Poll) (s : E) : Res × E × List Int :=
  if c.flagRec then
    match p.flag with
    | none => (.repeatTimeOut, s, [])
    | some f =>
      if f = s.last then (.repeatTimeOut, s, [])
      else
        let r := readNumber c p { s with last := f }
        (r.1, r.2, if c.receiver then [f] else [])
  else if s.last ≠ 0 then (.repeatTimeOut, { s with last := 0 }, [])
  else
    let r := readNumber c p { s with last := 1 }
    (r.1, r.2, [])

/-- One round of the input transport, base/src/DataTransport.cxx:338-545: `Read_Size` and, unless it has to be repeated, `Read_Complete`,
plugins/ezca/src/EpicsInput.cxx:164-245, with the number of the produced event. -/
def poll (c : Cfg) (p : Poll) (s : E) : E × List Int × Option Nat :=
  let r := readSize c p s
  match r.1 with
  | .repeatTimeOut => (r.2.1, r.2.2, none)
  | .dfltBufSize => ({ r.2.1 with counter := r.2.1.counter + 1 }, r.2.2, some (r.2.1.number % 2 ^ 32).toNat)

/-- Rounds: submitted flags and what each round produced. -/
def polls (c : Cfg) : List Poll → E → List Int × List (Option Nat)
  | [], _ => ([], [])
  | p :: ps, s =>
    let r := poll c p s
    let t := polls c ps r.1
    (r.2.1 ++ t.1, r.2.2 :: t.2)

/-- The loop over the reported codes, plugins/ezca/src/EpicsInput.cxx:195-206; `true` stands for `EZCA_OK`.  `none` is a write outside of
the vector. -/
def report : List Bool → Nat → List Bool → List Bool → Option (List Bool × List Bool)
  | [], _, ls, ds => some (ls, ds)
  | c :: cs, i, ls, ds =>
    if i < ls.length then report cs (i + 1) (ls.set i c) ds
    else if i - ls.length < ds.length then report cs (i + 1) ls (ds.set (i - ls.length) c)
    else none

/-- `AddLong` of values which were read, plugins/ezca/src/EpicsInput.cxx:216-217. -/
def addLongs : List Bool → List (List Byte) → List (BitVec 64) → R → R
  | b :: bs, n :: ns, v :: vs, r => addLongs bs ns vs (if b then addLong n v false r else r)
  | _, _, _, r => r

/-- `AddDouble` of values which were read, plugins/ezca/src/EpicsInput.cxx:219-220. -/
def addDoubles : List Bool → List (List Byte) → List (BitVec 64) → R → R
  | b :: bs, n :: ns, v :: vs, r => addDoubles bs ns vs (if b then addDouble n v false r else r)
  | _, _, _, r => r

/-- The record built by `Read_Complete`, plugins/ezca/src/EpicsInput.cxx:172-220.  `codes` is `none` when the group was read without error;
the values are those stored when the group ends. -/
def collect (lns : List (List Byte)) (lvs : List (BitVec 64)) (dns : List (List Byte)) (dvs : List (BitVec 64))
    (codes : Option (List Bool)) : Option R :=
  let ls := List.replicate lns.length true
  let ds := List.replicate dns.length true
  match (match codes with | none => some (ls, ds) | some cs => report cs 0 ls ds) with
  | none => none
  | some (ls, ds) => some (addDoubles ds dns dvs (addLongs ls lns lvs {}))

/-! ## Monitors -/

/-- The buffer of the iterator: its size, the filled size and the events. -/
structure Buf where
  cap : Nat
  used : Nat := 0
  evs : List (Nat × R) := []
  deriving DecidableEq, Repr

/-- `fIter`, `fEventNumber`, `fLastSendTime` and the buffers which were sent with the time, plugins/mbs/mbs/MonitorSlowControl.h:38-46. -/
structure M where
  buf : Option Buf := none
  number : Nat := 0
  last : Nat := 0
  sent : List (Nat × Buf) := []
  deriving DecidableEq, Repr

/-- The surroundings of one call: the answers of `CanSendToAllOutputs` and the times at its two places, the size of the buffer from the pool. -/
structure Env where
  can1 : Bool
  t1 : Nat
  pool : Option Nat
  can2 : Bool
  t2 : Nat
  deriving DecidableEq, Repr

inductive Out where
  | blocked
  | noBuffer
  | tooLarge
  | written
  deriving DecidableEq, Repr

/-- `IsAnyEvent`, plugins/mbs/mbs/Iterator.h:116. -/
def anyEvent (m : M) : Bool := match m.buf with | none => false | some b => b.used != 0

/-- `IsPlaceForEvent` with a subevent header, plugins/mbs/src/Iterator.cxx:298-301. -/
def place (n : Nat) (m : M) : Bool := match m.buf with | none => false | some b => decide (16 + n + 12 ≤ b.cap - b.used)

/-- `Close`, `SendToAllOutputs` and `GetNow`, plugins/mbs/src/MonitorSlowControl.cxx:67-70 and 102-105. -/
def send (t : Nat) (m : M) : M :=
  match m.buf with
  | none => m
  | some b => { m with buf := none, last := t, sent := m.sent ++ [(t, b)] }

/-- `Reset`, plugins/mbs/src/Iterator.cxx:219-235. -/
def reset (cap : Nat) (m : M) : M := { m with buf := if cap < 16 + 12 then none else some { cap := cap } }

/-- Event with one subevent, plugins/mbs/src/MonitorSlowControl.cxx:84-99. -/
def write (r : R) (m : M) : M :=
  let k := (m.number + 1) % 2 ^ 32
  match m.buf with
  | none => m
  | some b => { m with number := k, buf := some { b with used := b.used + (16 + 12 + rawSize r), evs := b.evs ++ [(k, { r with id := k })] } }

/-- `SendDataToOutputs` from the second check on, plugins/mbs/src/MonitorSlowControl.cxx:80-106. -/
def finish (flush : Nat) (r : R) (e : Env) (m : M) : Out × M :=
  if place (rawSize r) m then
    let m := write r m
    (.written, if e.t2 > m.last + flush ∧ e.can2 then send e.t2 m else m)
  else (.tooLarge, m)

/-- Getting of a buffer and the rest, plugins/mbs/src/MonitorSlowControl.cxx:73-106. -/
def fill (flush : Nat) (r : R) (e : Env) (m : M) : Out × M :=
  match m.buf with
  | some _ => finish flush r e m
  | none =>
    match e.pool with
    | none => (.noBuffer, m)
    | some c => finish flush r e (reset c m)

/-- `SendDataToOutputs`, plugins/mbs/src/MonitorSlowControl.cxx:58-107, with the record which the monitor has. -/
def tick (flush : Nat) (r : R) (e : Env) (m : M) : Out × M :=
  if anyEvent m && !place (rawSize r) m then
    if e.can1 then fill flush r e (send e.t1 m) else (.blocked, m)
  else fill flush r e m

/-- Calls with the outcome of each. -/
def ticks (flush : Nat) : List (R × Env) → M → List Out × M
  | [], m => ([], m)
  | x :: xs, m =>
    let r := tick flush x.1 x.2 m
    let t := ticks flush xs r.2
    (r.1 :: t.1, t.2)

/-! ## The record of the FESA monitor -/

structure F where
  cur : R := {}
  block : Bool := false
  mon : M := {}
  deriving DecidableEq, Repr

inductive FOp where
  /-- a field of a service was reported, `ReportServiceChanged`, plugins/fesa/src/Monitor.cxx:214-309 -/
  | long (name : List Byte) (v : BitVec 64)
  | double (name : List Byte) (v : BitVec 64)
  /-- the timer -/
  | timer (e : Env)
  deriving DecidableEq, Repr

/-- `GetRecRawSize` and `WriteRecRawData` of `fesa::Monitor`, plugins/fesa/src/Monitor.cxx:342-357, around
plugins/mbs/src/MonitorSlowControl.cxx:58-107. -/
def fstep (flush : Nat) (s : F) : FOp → F
  | .long n v => if s.block then s else { s with cur := addLong n v true s.cur }
  | .double n v => if s.block then s else { s with cur := addDouble n v true s.cur }
  | .timer e =>
    let t := tick flush s.cur e s.mon
    match t.1 with
    | .written => { cur := {}, block := false, mon := t.2 }
    | _ => { s with block := true, mon := t.2 }

def frun (flush : Nat) (ops : List FOp) (s : F) : F := ops.foldl (fstep flush) s

end Verif.SlowSend
