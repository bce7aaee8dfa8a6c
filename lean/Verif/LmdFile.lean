import Verif.File

/-!
# Model of LMD files, plugins/mbs/mbs/LmdFile.h, plugins/mbs/mbs/LmdTypeDefs.h, plugins/mbs/src/LmdInput.cxx and LmdOutput.cxx

The memory given to `ReadBuffer` is the list `mem` of all bytes which may be accessed behind the pointer.  `none` stands for
an access outside of the memory.  A loop which returns to the same state is the result `hang`.  The machine is
little-endian.  Not modelled: file names and options, other file interfaces, the messages, the `loop` option, `ReadBuffer` of a
file which was never opened (`LmdInput` does not do it; it would use a null pointer).
-/

namespace Verif.LmdFile

open Verif.Bytes Verif.File

/-- The word at offset `o`. -/
def word (mem : List Byte) (o : Nat) : Option Nat :=
  if o + 4 ≤ mem.length then some (dec ((mem.drop o).take 4)) else none

/-- `FullSize()` of a header with this `iWords`, in `uint32_t`, LmdTypeDefs.h:54. -/
def fullSize (words : Nat) : Nat := (8 + words * 2) % 2 ^ 32

/-- `SetFullSize(sz)`: `iWords`, in `uint32_t`, LmdTypeDefs.h:55. -/
def wordsOf (sz : Nat) : Nat := (sz + 2 ^ 32 - 8) % 2 ^ 32 / 2

/-- `iType` of a type pair, LmdTypeDefs.h:62. -/
def typePair (typ sub : Nat) : Nat := typ % 2 ^ 16 + sub % 2 ^ 16 * 2 ^ 16

/-- `FileHeader` as filled by `OpenWriting`, LmdFile.h:116-128, LmdTypeDefs.h:72-83. -/
def fileHeader : List Byte :=
  enc 4 (wordsOf 0xfffffff0) ++ enc 4 (typePair 0x65 1) ++ enc 8 0 ++ enc 4 0xffffffff ++ enc 4 8 ++ enc 4 0 ++ enc 4 0 ++
  enc 4 1 ++ enc 4 0 ++ enc 4 0 ++ enc 4 0

/-! ## Writing -/

/-- `LmdFile` opened for writing: `isWriting()` and the file. -/
structure Writer where
  opened : Bool
  file : WFile
  deriving DecidableEq

/-- `OpenWriting`, LmdFile.h:99-139, with a disk that takes `room` more bytes. -/
def openWriting (room : Nat) : Bool × Writer :=
  match fwrite { data := [], room := room } fileHeader with
  | (ok, f) => (ok, { opened := ok, file := f })

/-- `WriteBuffer`, LmdFile.h:150-161. -/
def writeBuffer (w : Writer) (l : List Byte) : Bool × Writer :=
  if !w.opened || l.length = 0 then (false, w)
  else
    match fwrite w.file l with
    | (ok, f) => (ok, { opened := ok, file := f })

/-- Writing of buffers, one after the other, until one fails: the number of accepted buffers. -/
def writeAll (w : Writer) : List (List Byte) → Nat × Writer
  | [] => (0, w)
  | l :: ls =>
    match writeBuffer w l with
    | (true, w) => match writeAll w ls with | (n, w) => (n + 1, w)
    | (false, w) => (0, w)

/-! ## Reading -/

/-- The end of the loop in `ReadBuffer` with `checkedsz`: broken off with a step back in the file, or all was checked, or the loop
makes no progress. -/
inductive Walk where
  | back (checked : Nat)
  | done (checked : Nat)
  | hang
  deriving DecidableEq

/-- The loop over the events, LmdFile.h:186-196. -/
def walk (mem : List Byte) (onlyevent : Bool) (readsz checked : Nat) : Option Walk :=
  if checked < readsz then
    match word mem checked with
    | none => none
    | some w =>
      if checked + fullSize w > readsz ∨ (onlyevent ∧ checked > 0) then some (.back checked)
      else if fullSize w = 0 then some .hang
      else walk mem onlyevent readsz (checked + fullSize w)
  else some (.done checked)
termination_by readsz - checked
decreasing_by omega

/-- The end of a `ReadBuffer` call: `*sz`, where 0 is `return false`, or an endless loop. -/
inductive Res where
  | size (sz : Nat)
  | hang
  deriving DecidableEq

/-- The end of `ReadBuffer`, LmdFile.h:188-201. -/
def finish (f : RFile) (readsz : Nat) : Walk → Res × RFile
  | .hang => (.hang, f)
  | .back c => (.size c, seekBack f (readsz - c))
  | .done c => (.size c, f)

/-- `ReadBuffer(ptr, &sz, onlyevent)`, LmdFile.h:165-202, with `*sz = maxsz`: the result is true when the size is not 0.  (A size below 8 is
not changed by the function; `LmdInput` calls it with a multiple of 8.) -/
def readBuffer (f : RFile) (mem : List Byte) (maxsz : Nat) (onlyevent : Bool) : Option (Res × List Byte × RFile) :=
  if maxsz < 8 then some (.size 0, mem, f)
  else
    let (got, f) := fread f maxsz
    if got.length > mem.length then none
    else
      let mem := got ++ mem.drop got.length
      if got.length = 0 then some (.size 0, mem, f)
      else (walk mem onlyevent got.length 0).map fun w => ((finish f got.length w).1, mem, (finish f got.length w).2)

/-- `OpenReading`, LmdFile.h:46-97. -/
def openReading (data : List Byte) : Option RFile :=
  let (got, f) := fread (fopenRead data) 48
  if got.length = 48 ∧ dec ((got.drop 32).take 4) = 1 ∧ dec ((got.drop 4).take 4) = typePair 0x65 1 ∧
      fullSize (dec (got.take 4)) = 0xfffffff0 ∧ dec ((got.drop 20).take 4) = 8 then some f
  else none

/-! ## The input -/

/-- `LmdInput`: the file when `isReading()`, and the files still in `fFilesList`. -/
structure Input where
  file : Option RFile
  more : List (List Byte)
  deriving DecidableEq

/-- `OpenNextFile`, LmdInput.cxx:49-63, with `TakeNextFileName`. -/
def openNext (s : Input) : Bool × Input :=
  match s.more with
  | [] => (false, { file := none, more := [] })
  | data :: more =>
    match openReading data with
    | none => (false, { file := none, more := more })
    | some f => (true, { file := some f, more := more })

/-- `Read_Init`, LmdInput.cxx:42-47. -/
def readInit (files : List (List Byte)) : Bool × Input := openNext { file := none, more := files }

/-- What the caller of an input sees of one turn: a buffer with this content, `di_EndOfStream`, `di_Error`, an endless loop, or an
exception. -/
inductive Turn where
  | data (l : List Byte)
  | ended
  | error
  | hang
  | thrown
  deriving DecidableEq

/-- `Read_Complete`, LmdInput.cxx:83-113, with a buffer whose first segment has the content `mem`, of which `size` bytes are used
(`fReduce`).  `SetTotalSize` throws when the size is more than the buffer has, Buffer.cxx:108-110; the buffer is taken
to have all of `mem`. -/
def readComplete (s : Input) (mem : List Byte) (size : Nat) : Option (Turn × Input) :=
  match s.file with
  | none => some (.error, s)
  | some f =>
    (readBuffer f mem (size / 8 * 8) false).map fun (res, mem, f) =>
      match res with
      | .hang => (.hang, { s with file := some f })
      | .size 0 =>
        match openNext { s with file := some f } with
        | (false, s) => (.ended, s)
        | (true, s) => (.error, s)
      | .size (n + 1) => (if n + 1 > mem.length then .thrown else .data (mem.take (n + 1)), { s with file := some f })

/-- `Read_Size`, LmdInput.cxx:73-81, and, when it asks for a buffer, `Read_Complete`. -/
def turn (s : Input) (mem : List Byte) (size : Nat) : Option (Turn × Input) :=
  match s.file with
  | some _ => readComplete s mem size
  | none =>
    match openNext s with
    | (false, s) => some (.ended, s)
    | (true, s) => readComplete s mem size

end Verif.LmdFile
