import Verif.Bytes

/-!
# Writing of HLD files: `hadaq::HldOutput`

`plugins/hadaq/src/HldOutput.cxx:34-424`, `plugins/hadaq/src/HldFile.cxx:31-137` (files opened for
writing), `plugins/hadaq/src/HadaqTypeDefs.cxx:63-68`, `base/src/DataIO.cxx:277-294`.

What is simplified:

* The content of a file is a list of pieces: the start and stop records and what is given to
  `WriteBuffer` (`HldFile.lean` has the bytes of records, C29).  A write which fails leaves nothing.
* The name of a file is its run number; with option `plain` there is one name for all files.  The
  text made of the run number (`FormatFilename`) has a resolution of one second, like the numbers.
  Prefixes, the disk demon and other file systems (`rfio`, `ltsm`) are not modelled.
* A buffer with events has the events which `ReadIterator` finds in it, each with its padded bytes,
  and, independently, the segments with the bytes (C31, C32: iterating over well-formed buffers).
* A buffer with subevents has one segment with complete subevents.
* The clock and failures of the disk are inputs.
-/

namespace Verif.HldOut

open Verif.Bytes

/-- An event with its padding. -/
structure Ev where
  run : Nat
  bytes : List Byte
  deriving DecidableEq, Repr

inductive Buf
  /-- `mbt_HadaqEvents`: events and segments -/
  | events (evs : List Ev) (segs : List (List Byte))
  /-- `mbt_HadaqSubevents`: padded subevents -/
  | subevents (subs : List (List Byte))
  /-- `mbt_HadaqStopRun` -/
  | stopRun
  /-- `mbt_EOF` -/
  | eof
  /-- any other type, or no buffer -/
  | other
  deriving DecidableEq, Repr

/-- A part of a file. -/
inductive Piece
  | start (run : Nat)
  | stop (run : Nat)
  | data (l : List Byte)
  /-- header of an event: number, run and size -/
  | head (num run size : Nat)
  deriving DecidableEq, Repr

/-- Number of bytes. -/
def Piece.len : Piece → Nat
  | .data l => l.length
  | _ => 32

structure Out where
  /-- `fRunSlave` -/
  slave : Bool := false
  /-- `fPlainName` -/
  plain : Bool := false
  /-- `fSizeLimitMB` in bytes, 0 for no limit -/
  limit : Nat := 0
  /-- `fRunNumber` -/
  run : Nat := 0
  /-- `fLastRunNumber` -/
  last : Nat := 0
  /-- `fEventNumber` -/
  evnum : Nat := 0
  /-- the open file: its name and `HldFile::fRunNumber` -/
  file : Option (Option Nat × Nat) := none
  /-- `fCurrentFileSize` -/
  size : Nat := 0
  /-- `fTotalFileSize` -/
  total : Nat := 0
  /-- files on disk in the order in which they were opened -/
  disk : List (Option Nat × List Piece) := []
  /-- number of writes which will succeed -/
  room : Option Nat := none
  /-- `fopen` succeeds -/
  canOpen : Bool := true
  deriving DecidableEq, Repr

inductive Ret
  | ok | error | close
  deriving DecidableEq, Repr

/-- Append to the file with name `n`. -/
def addTo (n : Option Nat) (p : Piece) (d : List (Option Nat × List Piece)) : List (Option Nat × List Piece) :=
  d.map fun f => if f.1 = n then (n, f.2 ++ [p]) else f

/-- `HldFile::WriteBuffer` (`HldFile.cxx:126-137`). -/
def Out.put (s : Out) (p : Piece) : Out × Bool :=
  match s.file with
  | none => (s, false)
  | some f =>
    if p.len = 0 then (s, false)
    else
      match s.room with
      | some 0 => ({ s with file := none }, false)
      | some (k + 1) => ({ s with room := some k, disk := addTo f.1 p s.disk }, true)
      | none => ({ s with disk := addTo f.1 p s.disk }, true)

/-- `CloseFile` (`HldOutput.cxx:197-206`) with `HldFile::Close` (`HldFile.cxx:107-122`). -/
def Out.closeFile (s : Out) : Out :=
  match s.file with
  | none => { s with size := 0 }
  | some f => { (s.put (.stop f.2)).1 with file := none, size := 0 }

/-- `HldFile::OpenWrite` (`HldFile.cxx:31-62`). -/
def Out.openWrite (s : Out) (n : Option Nat) (run : Nat) : Out × Bool :=
  if s.canOpen then
    ({ s with disk := (s.disk.filter fun f => f.1 ≠ n) ++ [(n, [])], file := some (n, run) } : Out).put (.start run)
  else (s, false)

/-- `StartNewFile` (`HldOutput.cxx:101-186`); `clock` is the value of `CreateRunId`. -/
def Out.startNewFile (s : Out) (clock : Nat) : Out × Bool :=
  let s := s.closeFile
  if s.run = 0 ∧ s.slave then (s, false)
  else
    let s := if s.run = 0 then { s with run := clock } else s
    match s.openWrite (if s.plain then none else some s.run) s.run with
    | (s, true) => ({ s with last := s.run }, true)
    | (s, false) => (s, false)

/-- `Write_Init` (`HldOutput.cxx:86-98`). -/
def Out.init (s : Out) (clock : Nat) : Out × Bool :=
  if s.slave then ({ s with run := 0 }, true) else s.startNewFile clock

/-- `Write_Retry` (`HldOutput.cxx:188-195`). -/
def Out.retry (s : Out) : Out :=
  let s := s.closeFile
  if s.slave then s else { s with run := 0 }

/-- `Write_Restart` (`HldOutput.cxx:208-221`) without `only_prefix`. -/
def Out.restart (s : Out) (clock : Nat) : Out :=
  if s.file.isSome then (({ s.closeFile with run := 0 } : Out).startNewFile clock).1 else s

/-- The loop over the event headers (`HldOutput.cxx:262-279`): the next run number, if there is one,
and the size of the events before. -/
def scan (run : Nat) : List Ev → Nat → Option Nat × Nat
  | [], p => (none, p)
  | e :: l, p => if e.run = run then scan run l (p + e.bytes.length) else (some e.run, p)

/-- Flush the events of the old run (`HldOutput.cxx:290-306`). -/
def Out.flush (s : Out) : List (List Byte) → Nat → Out × Bool
  | [], _ => (s, true)
  | g :: l, p =>
    if p = 0 then (s, true)
    else
      match s.put (.data (g.take p)) with
      | (s, false) => (s, false)
      | (s, true) => s.flush l (p - (g.take p).length)

/-- Write the segments behind `cursor` (`HldOutput.cxx:371-405`); also the number of bytes. -/
def Out.segments (s : Out) : List (List Byte) → Nat → Nat → Out × Bool × Nat
  | [], _, w => (s, true, w)
  | g :: l, c, w =>
    if g.length ≤ c then s.segments l (c - g.length) w
    else
      match s.put (.data (g.drop c)) with
      | (s, false) => (s, false, w)
      | (s, true) => s.segments l 0 (w + (g.drop c).length)

/-- `AccountBuffer` (`DataIO.cxx:286-292`). -/
def Out.account (s : Out) (n : Nat) : Out := { s with size := s.size + n, total := s.total + n }

/-- `CheckBufferForNextFile` (`DataIO.cxx:277-283`). -/
def Out.full (s : Out) (n : Nat) : Bool := decide (0 < s.limit ∧ s.limit < s.size + n)

/-- The subevents (`HldOutput.cxx:341-367`): `NextSubeventsBlock` gives one block, of which one
subevent is taken. -/
def Out.subevents (s : Out) : List (List Byte) → Out × Ret
  | [] => (s.account 0, .ok)
  | x :: _ =>
    let num := s.evnum
    let s := { s with evnum := s.evnum + 1 }
    match s.put (.head num s.run (x.length + 32)) with
    | (s, false) => (s, .error)
    | (s, true) =>
      match s.put (.data x) with
      | (s, false) => (s, .error)
      | (s, true) => (s.account (32 + x.length), .ok)

/-- The part of `Write_Buffer` which writes (`HldOutput.cxx:336-424`). -/
def Out.content (s : Out) (cursor : Nat) : Buf → Out × Ret
  | .events _ segs =>
    match s.segments segs cursor 0 with
    | (s, false, _) => (s, .error)
    | (s, true, w) => (s.account w, .ok)
  | .subevents l => s.subevents l
  | _ => (s.account 0, .ok)

/-- Start a new file and write (`HldOutput.cxx:316-424`). -/
def Out.newFile (s : Out) (clock cursor : Nat) (b : Buf) : Out × Ret :=
  if s.slave ∧ s.run = 0 then (s.closeFile, .ok)
  else if s.last ≠ 0 ∧ s.last = s.run then (s, .ok)
  else
    match s.startNewFile clock with
    | (s, false) => (s, .error)
    | (s, true) => if s.file.isNone then (s, .error) else s.content cursor b

/-- No new file is needed (`HldOutput.cxx:336-424`). -/
def Out.go (s : Out) (b : Buf) : Out × Ret :=
  if s.file.isNone then (s, .error) else s.content 0 b

/-- Number of bytes in the buffer. -/
def Buf.size : Buf → Nat
  | .events _ segs => segs.flatten.length
  | .subevents l => l.flatten.length
  | _ => 0

/-- The events which `ReadIterator` finds. -/
def Buf.evs : Buf → List Ev
  | .events evs _ => evs
  | _ => []

def Buf.segs : Buf → List (List Byte)
  | .events _ segs => segs
  | .subevents l => [l.flatten]
  | _ => []

/-- `Write_Buffer` (`HldOutput.cxx:236-424`). -/
def Out.buffer (s : Out) (b : Buf) (clock : Nat) : Out × Ret :=
  match b with
  | .other => (s, .error)
  | .eof => (s.closeFile, .close)
  | .stopRun => ({ s with run := 0 } : Out).newFile clock 0 b
  | _ =>
    if s.slave then
      match scan s.run b.evs 0 with
      | (none, _) => if s.run = 0 then (s, .ok) else s.go b
      | (some r, p) =>
        let s := { s with run := r }
        let (s, ok) := if s.file.isSome then s.flush b.segs p else (s, true)
        if ok then s.newFile clock p b else (s, .error)
    else if s.full b.size then ({ s with run := 0 } : Out).newFile clock 0 b
    else s.go b

inductive Op
  | init (clock : Nat)
  | buffer (b : Buf) (clock : Nat)
  | retry
  | restart (clock : Nat)
  /-- destructor -/
  | close
  /-- the disk changes -/
  | disk (room : Option Nat) (canOpen : Bool)
  deriving Repr

def Out.step (s : Out) : Op → Out × Option Ret
  | .init c => ((s.init c).1, none)
  | .buffer b c => let r := s.buffer b c; (r.1, some r.2)
  | .retry => (s.retry, none)
  | .restart c => (s.restart c, none)
  | .close => (s.closeFile, none)
  | .disk r b => ({ s with room := r, canOpen := b }, none)

/-- A run with the answers to the buffers. -/
def Out.runs (s : Out) : List Op → Out × List Ret
  | [] => (s, [])
  | o :: l =>
    let r := s.step o
    let t := r.1.runs l
    (t.1, r.2.toList ++ t.2)

end Verif.HldOut
