import Verif.File

/-!
# Model of binary files, base/dabc/BinaryFile.h and base/src/BinaryFileIO.cxx

`BinaryFile` is split in a reader and a writer.  A header of a file or of a buffer are two `uint64_t` in the byte
order of the machine (little-endian).  Not modelled: the file names (a file is its content, the list of files of an
input is the list of their contents), other file interfaces than the C library, the `loop` option, the messages.
-/

namespace Verif.BinaryFile

open Verif.Bytes Verif.File

/-- A buffer: type and bytes. -/
structure Data where
  typ : Nat
  bytes : List Byte
  deriving DecidableEq

/-- `fFileHdr` with `magic = BinaryFileMagicValue` and `version = 2`, BinaryFile.h:149-155, 172, 234-235. -/
def fileHeader : List Byte := enc 8 1237 ++ enc 8 2

/-- `BinaryFileBufHeader`, BinaryFile.h:160-166. -/
def bufHeader (size typ : Nat) : List Byte := enc 8 size ++ enc 8 typ

/-! ## Writing -/

/-- `BinaryFile` opened for writing: `isWriting()`, the file, `fBufHdr.datalength`. -/
structure Writer where
  opened : Bool
  file : WFile
  datalength : Nat
  deriving DecidableEq

/-- `OpenWriting`, BinaryFile.h:217-249, with a disk that takes `room` more bytes. -/
def openWriting (room : Nat) : Bool × Writer :=
  match fwrite { data := [], room := room } fileHeader with
  | (true, f) => (true, { opened := true, file := f, datalength := 0 })
  | (false, f) => (false, { opened := false, file := f, datalength := 0 })

/-- `WriteBufHeader`, BinaryFile.h:258-280. -/
def writeBufHeader (w : Writer) (size typ : Nat) : Bool × Writer :=
  if !w.opened || size = 0 then (false, w)
  else if w.datalength ≠ 0 then (false, { w with opened := false })
  else
    match fwrite w.file (bufHeader size typ) with
    | (true, f) => (true, { w with file := f, datalength := size })
    | (false, f) => (false, { opened := false, file := f, datalength := size })

/-- `WriteBufPayload`, BinaryFile.h:282-301. -/
def writeBufPayload (w : Writer) (l : List Byte) : Bool × Writer :=
  if !w.opened || l.length = 0 then (false, w)
  else if w.datalength < l.length then (false, { w with opened := false })
  else
    match fwrite w.file l with
    | (true, f) => (true, { w with file := f, datalength := w.datalength - l.length })
    | (false, f) => (false, { opened := false, file := f, datalength := w.datalength - l.length })

/-- The loop over the segments in `Write_Buffer`, BinaryFileIO.cxx:165-166. -/
def writeSegments (w : Writer) : List (List Byte) → Bool × Writer
  | [] => (true, w)
  | l :: segs =>
    match writeBufPayload w l with
    | (true, w) => writeSegments w segs
    | (false, w) => (false, w)

/-- `BinaryFileOutput` with the members of `FileOutput` it uses, DataIO.h:283-300.  `closed` are the files written before. -/
structure Output where
  w : Writer
  closed : List (List Byte)
  limitMB : Nat
  current : Nat
  totalSize : Nat
  totalBufs : Nat
  deriving DecidableEq

/-- All files on the disk, oldest first. -/
def Output.files (o : Output) : List (List Byte) := o.closed ++ [o.w.file.data]

/-- `Write_Init`, BinaryFileIO.cxx:112-119, with `StartNewFile` for the first file.  A negative `maxsize` is the same as 0. -/
def writeInit (limitMB room : Nat) : Bool × Output :=
  match openWriting room with
  | (ok, w) => (ok, { w := w, closed := [], limitMB := limitMB, current := 0, totalSize := 0, totalBufs := 0 })

/-- `StartNewFile`, BinaryFileIO.cxx:121-135, `CloseFile`, 138-145, and `ProduceNewFileName`, DataIO.cxx:268-272.  The disk keeps its room. -/
def startNewFile (o : Output) : Bool × Output :=
  match openWriting o.w.file.room with
  | (ok, w) => (ok, { o with w := w, closed := o.closed ++ [o.w.file.data], current := 0 })

/-- `CheckBufferForNextFile`, DataIO.cxx:275-281.  The comparison is done with `double`, which is exact for file sizes below `2^53`. -/
def checkNext (o : Output) (sz : Nat) : Bool :=
  if o.limitMB > 0 then decide (o.current + sz > o.limitMB * (1024 * 1024)) else false

/-- The last part of `Write_Buffer`, BinaryFileIO.cxx:163-170, with `AccountBuffer`, DataIO.cxx:284-290. -/
def writeData (o : Output) (typ : Nat) (segs : List (List Byte)) : Bool × Output :=
  match writeBufHeader o.w segs.flatten.length typ with
  | (false, w) => (false, { o with w := w })
  | (true, w) =>
    match writeSegments w segs with
    | (false, w) => (false, { o with w := w })
    | (true, w) =>
      (true, { o with w := w, current := o.current + segs.flatten.length, totalSize := o.totalSize + segs.flatten.length,
                      totalBufs := o.totalBufs + 1 })

/-- `Write_Buffer`, BinaryFileIO.cxx:148-171, of a buffer with these segments; true for `do_Ok`, false for `do_Error`. -/
def writeBuffer (o : Output) (typ : Nat) (segs : List (List Byte)) : Bool × Output :=
  if !o.w.opened then (false, o)
  else if checkNext o segs.flatten.length then
    match startNewFile o with
    | (false, o) => (false, o)
    | (true, o) => writeData o typ segs
  else writeData o typ segs

/-! ## Reading -/

/-- `BinaryFile` opened for reading: the file (`none` when closed) and `fBufHdr`. -/
structure Reader where
  fd : Option RFile
  datalength : Nat
  deriving DecidableEq

/-- `OpenReading`, BinaryFile.h:186-215. -/
def openReading (data : List Byte) : Option Reader :=
  let (got, f) := fread (fopenRead data) 16
  if got.length = 16 ∧ dec (got.take 8) = 1237 then some { fd := some f, datalength := 0 } else none

/-- `ReadBufHeader`, BinaryFile.h:311-331: size and type. -/
def readBufHeader (r : Reader) : Option (Nat × Nat) × Reader :=
  match r.fd with
  | none => (none, r)
  | some f =>
    if r.datalength ≠ 0 then (none, { r with fd := none })
    else
      let (got, f) := fread f 16
      if got.length = 16 then
        (some (dec (got.take 8), dec (got.drop 8)), { fd := some f, datalength := dec (got.take 8) })
      else (none, { r with fd := none })

/-- `ReadBufPayload`, BinaryFile.h:333-352. -/
def readBufPayload (r : Reader) (sz : Nat) : Option (List Byte) × Reader :=
  match r.fd with
  | none => (none, r)
  | some f =>
    if sz = 0 then (none, r)
    else if r.datalength < sz then (none, { r with fd := none })
    else
      let (got, f) := fread f sz
      if got.length = sz then (some got, { fd := some f, datalength := r.datalength - sz })
      else (none, { fd := none, datalength := r.datalength - sz })

/-- Return codes of the `Read_` methods, DataIO.h:33-46. -/
def diValidSize : Nat := 0xFFFFFFF0
def diEndOfStream : Nat := 0xFFFFFFF4
def diOk : Nat := 0xFFFFFFF5
def diError : Nat := 0xFFFFFFF7
def diDfltBufSize : Nat := 0xFFFFFFF9

/-- `BinaryFileInput`: the file, `fCurrentBufSize`, `fCurrentBufType`, and the files still in `fFilesList`. -/
structure Input where
  file : Reader
  size : Nat
  typ : Nat
  more : List (List Byte)
  deriving DecidableEq

/-- `Read_Init`, BinaryFileIO.cxx:31-36, with `OpenNextFile`, 38-52, for the files with these contents. -/
def readInit : List (List Byte) → Option Input
  | [] => none
  | data :: more => (openReading data).map fun r => { file := r, size := 0, typ := 0, more := more }

/-- `Read_Size`, BinaryFileIO.cxx:62-77; the result is `unsigned`. -/
def readSize (s : Input) : Nat × Input :=
  match s.file.fd with
  | none => (diError, s)
  | some f =>
    if f.eof then (diEndOfStream, { s with size := 0, typ := 0 })
    else
      match readBufHeader s.file with
      | (none, r) => (diError, { s with file := r, size := 0, typ := 0 })
      | (some (size, typ), r) => (size % 2 ^ 32, { s with file := r, size := size, typ := typ })

/-- `Read_Complete`, BinaryFileIO.cxx:79-98, with a buffer that has segments of these sizes: the return code, and for
`di_Ok` the content of the buffer.  `SetTypeId` takes an `unsigned`. -/
def readComplete (s : Input) (segs : List Nat) : Nat × Option Data × Input :=
  if s.file.fd = none then (diError, none, s)
  else if segs.sum < s.size then (diError, none, s)
  else if segs.length ≠ 1 then (diError, none, s)
  else
    match readBufPayload s.file s.size with
    | (none, r) => (diError, none, { s with file := r })
    | (some l, r) => (diOk, some { typ := s.typ % 2 ^ 32, bytes := l }, { s with file := r })

/-- `DataInput::ReadBuffer`, DataIO.cxx:21-46, which takes the buffer with `malloc`; `none` is the null buffer. -/
def readBuffer (s : Input) : Option Data × Input :=
  let (sz, s) := readSize s
  let sz := if sz = diDfltBufSize then 0x10000 else sz
  if sz > diValidSize then (none, s)
  else
    match readComplete s [sz] with
    | (_, d, s) => (d, s)

/-- The results of `n` calls of `ReadBuffer`. -/
def reads : Nat → Input → List (Option Data)
  | 0, _ => []
  | n + 1, s =>
    match readBuffer s with
    | (d, s) => d :: reads n s

end Verif.BinaryFile
