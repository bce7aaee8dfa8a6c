import Verif.File
import Verif.HadTu

/-!
# Model of HLD files, plugins/hadaq/src/HldFile.cxx and plugins/hadaq/src/HldInput.cxx

The memory given to `ReadBuffer` is the list `mem` of all bytes which may be accessed behind the pointer: it may be longer
than the size given in the call, and its old content matters because the code looks at it.  `none` stands for an access
outside of the memory.  A loop which returns to the same state is the result `hang`.  Not modelled: file names and options,
other file interfaces, the messages, the `loop` option.
-/

namespace Verif.HldFile

open Verif.Bytes Verif.File Verif.Pointer Verif.HadTu

/-- Header at offset `o` of the memory. -/
def hdr (o : Nat) : Ptr := { segm := 0, off := o, raw := 0, full := 0, attached := true }

/-- `EvtId_runStart`, `EvtId_runStop`, defines.h:121-122. -/
def runStart : Word := 0x00010002
def runStop : Word := 0x00010003

/-! ## Writing -/

/-- `RawEvent evnt; evnt.Init(0, run, id)`, HldFile.cxx:51-52 and 113-114, defines.h:453, 472-478. -/
def record (id run date time : Word) : Option (List Byte) :=
  (initHeader [List.replicate 32 0] (hdr 0) id date time).bind fun mem =>
  (setField mem (hdr 0) 12 0).bind fun mem =>
  (setField mem (hdr 0) 24 run).bind fun mem =>
  (putWord mem (hdr 0) 28 0).map List.flatten

/-- `HldFile` opened for writing: `isWriting()`, the file, `fRunNumber`. -/
structure Writer where
  opened : Bool
  file : WFile
  run : Word
  deriving DecidableEq

/-- `WriteBuffer`, HldFile.cxx:126-137. -/
def writeBuffer (w : Writer) (l : List Byte) : Bool × Writer :=
  if !w.opened || l.length = 0 then (false, w)
  else
    match fwrite w.file l with
    | (true, f) => (true, { w with file := f })
    | (false, f) => (false, { w with opened := false, file := f })

/-- `OpenWrite`, HldFile.cxx:31-62, with a disk that takes `room` more bytes; `date` and `time` come from the clock. -/
def openWrite (run date time : Word) (room : Nat) : Option (Bool × Writer) :=
  (record runStart run date time).map fun l =>
    match writeBuffer { opened := true, file := { data := [], room := room }, run := 0 } l with
    | (true, w) => (true, { w with run := run })
    | (false, w) => (false, { w with opened := false })

/-- `Close`, HldFile.cxx:107-122: the content of the file afterwards. -/
def close (w : Writer) (date time : Word) : Option (List Byte) :=
  if w.opened then (record runStop w.run date time).map fun l => (writeBuffer w l).2.file.data
  else some w.file.data

/-! ## Reading -/

/-- `HldFile` opened for reading: the file (`none` when closed), `fRunNumber`, `fEOF`. -/
structure Reader where
  fd : Option RFile
  run : Word
  eof : Bool
  deriving DecidableEq

/-- The end of a `ReadBuffer` call: `return true` with `*sz`, `return false`, or an endless loop. -/
inductive Res where
  | good (sz : Nat)
  | fail
  | hang
  deriving DecidableEq

/-- The end of the loop over the events, HldFile.cxx:190-222, with `checkedsz`: a stop record was found, the next event is not
complete, all was checked, or the loop makes no progress. -/
inductive Walk where
  | stop (checked : Nat)
  | back (checked : Nat)
  | done (checked : Nat)
  | hang
  deriving DecidableEq

/-- `restsize`, HldFile.cxx:194-195. -/
def restSize (mem : Mem) (readsz checked : Nat) : Option Nat :=
  if readsz - checked ≥ 8 then getPadded mem (hdr checked) else some (readsz - checked)

/-- The test for the stop record, HldFile.cxx:199. -/
def isStop (mem : Mem) (checked restsize : Nat) : Option Bool :=
  if restsize = 32 then (getField mem (hdr checked) 8).map fun id => decide (id = runStop) else some false

/-- The loop over the events, HldFile.cxx:190-222; `onlyevent` is false here. -/
def walk (mem : Mem) (readsz checked : Nat) : Option Walk :=
  if checked < readsz then
    match restSize mem readsz checked with
    | none => none
    | some restsize =>
      match isStop mem checked restsize with
      | none => none
      | some true => some (.stop checked)
      | some false =>
        if checked + restsize > readsz then some (.back checked)
        else
          match getPadded mem (hdr checked) with
          | none => none
          | some 0 => some .hang
          | some (n + 1) => walk mem readsz (checked + (n + 1))
  else some (.done checked)
termination_by readsz - checked
decreasing_by omega

/-- The end of `ReadBuffer` after the loop, HldFile.cxx:203-232. -/
def finish (r : Reader) (f : RFile) (readsz maxsz : Nat) : Walk → Res × Reader
  | .hang => (.hang, r)
  | .stop c => (if c > 0 then .good (c % 2 ^ 32) else .fail, { r with fd := some f, eof := true })
  | .back c => (if c > 0 then .good (c % 2 ^ 32) else .fail,
      { r with fd := some (seekBack f (readsz - c)), eof := r.eof || decide (readsz < maxsz) })
  | .done c => (if c > 0 then .good (c % 2 ^ 32) else .fail,
      { r with fd := some f, eof := r.eof || decide (readsz < maxsz ∧ c = readsz) })

/-- `ReadBuffer(ptr, &sz)`, HldFile.cxx:139-155 and 188-233, with `*sz = maxsz`. -/
def readBuffer (r : Reader) (mem : List Byte) (maxsz : Nat) : Option (Res × List Byte × Reader) :=
  match r.fd with
  | none => some (.fail, mem, r)
  | some f =>
    if maxsz < 8 then some (.fail, mem, r)
    else
      let (got, f) := fread f maxsz
      if got.length > mem.length then none
      else
        let mem := got ++ mem.drop got.length
        if got.length < 8 then some (.fail, mem, { r with fd := some f, eof := true })
        else (walk [mem] got.length 0).map fun w => ((finish r f got.length maxsz w).1, mem, (finish r f got.length maxsz w).2)

/-- `a - b` of `size_t`. -/
def sub64 (a b : Nat) : Nat := (a + 2 ^ 64 - b) % 2 ^ 64

/-- `ReadBuffer(ptr, &sz, true)`, HldFile.cxx:139-185, reading one event. -/
def readEvent (r : Reader) (mem : List Byte) (maxsz : Nat) : Option (Res × List Byte × Reader) :=
  match r.fd with
  | none => some (.fail, mem, r)
  | some f =>
    if maxsz < 8 then some (.fail, mem, r)
    else
      let (got, f) := fread f 8
      if got.length > mem.length then none
      else
        let mem := got ++ mem.drop got.length
        if got.length < 8 then some (.fail, mem, { r with fd := some f, eof := true })
        else
          match getPadded [mem] (hdr 0) with
          | none => none
          | some size =>
            if size > maxsz then some (.fail, mem, { r with fd := some f })
            else
              let (more, f) := fread f (sub64 size 8)
              if 8 + more.length > mem.length then none
              else
                let mem := mem.take 8 ++ more ++ mem.drop (8 + more.length)
                if more.length ≠ sub64 size 8 then some (.fail, mem, { r with fd := some f, eof := true })
                else
                  match isStop [mem] 0 size with
                  | none => none
                  | some true => some (.fail, mem, { r with fd := some f, eof := true })
                  | some false => some (.good size, mem, { r with fd := some f })

/-- `OpenRead`, HldFile.cxx:64-105; false in the first component when the file cannot be used. -/
def openRead (data : List Byte) : Option (Bool × Reader) :=
  match readEvent { fd := some (fopenRead data), run := 0, eof := true } (List.replicate 32 0) 32 with
  | none => none
  | some (.good size, mem, r) =>
    match getField [mem] (hdr 0) 8, getField [mem] (hdr 0) 24 with
    | some id, some run =>
      if size ≠ 32 ∨ id ≠ runStart then some (false, { r with fd := none }) else some (true, { r with run := run, eof := false })
    | _, _ => none
  | some (_, _, r) => some (false, { r with fd := none })

/-! ## The input -/

/-- `HldInput`: the file and the files still in `fFilesList`. -/
structure Input where
  file : Reader
  more : List (List Byte)
  deriving DecidableEq

/-- `OpenNextFile`, HldInput.cxx:46-60: `CloseFile` resets the file. -/
def openNext (s : Input) : Option (Bool × Input) :=
  match s.more with
  | [] => some (false, { file := { fd := none, run := 0, eof := true }, more := [] })
  | data :: more =>
    (openRead data).map fun (ok, r) => (ok, { file := r, more := more })

/-- `Read_Init`, HldInput.cxx:39-44. -/
def readInit (files : List (List Byte)) : Option (Bool × Input) :=
  openNext { file := { fd := none, run := 0, eof := true }, more := files }

/-- What the caller of an input sees of one turn: a buffer with this content, `di_SkipBuffer`, `di_EndOfStream`, `di_Error`, an
endless loop, or an exception. -/
inductive Turn where
  | data (l : List Byte)
  | skip
  | ended
  | error
  | hang
  | thrown
  deriving DecidableEq

/-- `Read_Size`, HldInput.cxx:70-78: `none` in the second component for `di_DfltBufSize`. -/
def readSize (s : Input) : Option (Option Turn × Input) :=
  if s.file.fd = none then some (some .error, s)
  else if s.file.eof then
    (openNext s).map fun (ok, s) => (if ok then none else some .ended, s)
  else some (none, s)

/-- `Read_Complete`, HldInput.cxx:80-102, with a buffer whose first segment has the content `mem`, of which `size` bytes are used
(`fReduce`; a multiple of 4).  `SetTotalSize` throws when the size is more than the buffer has, Buffer.cxx:108-110; the buffer is taken
to have all of `mem`. -/
def readComplete (s : Input) (mem : List Byte) (size : Nat) : Option (Turn × Input) :=
  if s.file.eof then some (.error, s)
  else
    (readBuffer s.file mem (size / 4 * 4)).map fun (res, mem, r) =>
      match res with
      | .good sz => (if sz > mem.length then .thrown else .data (mem.take sz), { s with file := r })
      | .fail => if r.eof then (.skip, { s with file := r }) else (.error, { s with file := { fd := none, run := 0, eof := true } })
      | .hang => (.hang, { s with file := r })

/-- `Read_Size` and, when it asks for a buffer, `Read_Complete`. -/
def turn (s : Input) (mem : List Byte) (size : Nat) : Option (Turn × Input) :=
  (readSize s).bind fun (t, s) =>
    match t with
    | some t => some (t, s)
    | none => readComplete s mem size

end Verif.HldFile
