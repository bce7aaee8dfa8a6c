import Verif.Bytes

/-!
# Model of the file access of `dabc::FileInterface`, base/dabc/BinaryFile.h:33-56

Only the standard implementation with the C library is modelled.  A file opened for reading is its content, the
position and the end-of-file mark of the C library.  A file opened for writing grows at its end; the disk takes
`room` more bytes, a write that does not fit stores what fits and fails.  Buffering inside of the C library is
not modelled: after a crash any number of the last bytes may be missing.
-/

namespace Verif.File

open Verif.Bytes

/-- A `FILE*` opened with mode "r". -/
structure RFile where
  data : List Byte
  pos : Nat
  eof : Bool
  deriving DecidableEq

/-- `fopen(fname, "r")` of a file with this content, BinaryFile.h:40. -/
def fopenRead (data : List Byte) : RFile := { data := data, pos := 0, eof := false }

/-- `fread(ptr, 1, n, f)`, BinaryFile.h:47: the bytes which were read.  The end-of-file mark is set when fewer bytes than
wanted were there. -/
def fread (f : RFile) (n : Nat) : List Byte × RFile :=
  let got := (f.data.drop f.pos).take n
  (got, { f with pos := f.pos + got.length, eof := f.eof || decide (got.length < n) })

/-- `fseek(f, -k, true)`, BinaryFile.h:56: clears the end-of-file mark; fails when `k` is larger than the position. -/
def seekBack (f : RFile) (k : Nat) : RFile :=
  if k ≤ f.pos then { f with pos := f.pos - k, eof := false } else f

/-- A `FILE*` opened with mode "w". -/
structure WFile where
  data : List Byte
  room : Nat
  deriving DecidableEq

/-- `fwrite(ptr, sz, 1, f) == 1`, BinaryFile.h:44. -/
def fwrite (f : WFile) (l : List Byte) : Bool × WFile :=
  if l.length ≤ f.room then (true, { data := f.data ++ l, room := f.room - l.length })
  else (false, { data := f.data ++ l.take f.room, room := 0 })

end Verif.File
