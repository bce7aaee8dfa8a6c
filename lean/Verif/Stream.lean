import Verif.Bytes

/-!
# Model of the binary streams `dabc::iostream`, `sizestream` and `memstream`

base/dabc/Record.h:40-158 and base/src/Record.cxx:23-146.  The results of the single `write` and `read`
calls are not looked at by the callers, except where a flag is returned here.  Strings are lists of
bytes without null byte (C strings).  Reading functions return `none` when the C++ code would go on with
uninitialised variables or read outside of the memory.
-/

namespace Verif.Stream
open Verif.Bytes

/-- An output stream: `memstream` with the bytes written so far and `fRemains`, or `sizestream` with `fLength`. -/
inductive OStr where
  | mem (out : List Byte) (room : Nat)
  | size (len : Nat)

/-- `is_real()`, base/dabc/Record.h:58 and 117. -/
def OStr.isReal : OStr → Bool
  | .mem _ _ => true
  | .size _ => false

/-- `size()`, base/dabc/Record.h:116 and 145. -/
def OStr.pos : OStr → Nat
  | .mem out _ => out.length
  | .size len => len

/-- `maxstoresize()`, base/dabc/Record.h:117 and 146. -/
def OStr.maxStore : OStr → Nat
  | .mem _ room => room
  | .size _ => 0xffffffff

/-- `write(src, len)`, base/dabc/Record.h:123 and base/src/Record.cxx:122-129. -/
def OStr.write : OStr → List Byte → OStr
  | .mem out room, b => if b.length > room then .mem out room else .mem (out ++ b) (room - b.length)
  | .size len, b => .size (len + b.length)

/-- `write_uint32` / `write_uint64`, base/dabc/Record.h:78-82. -/
def OStr.u32 (s : OStr) (v : Nat) : OStr := s.write (enc 4 v)
def OStr.u64 (s : OStr) (v : Nat) : OStr := s.write (enc 8 v)

/-- Padding loop of `verify_size`, base/src/Record.cxx:57-63. -/
def OStr.pad (s : OStr) (actual sz : Nat) : OStr :=
  if actual < sz then
    let portion := if sz - actual > 8 then 8 else sz - actual
    (s.write (List.replicate portion 0)).pad (actual + portion) sz
  else s
termination_by sz - actual
decreasing_by split <;> omega

/-- `verify_size(pos, sz)` of an output stream, base/src/Record.cxx:33-65. -/
def OStr.verify (s : OStr) (pos sz : Nat) : OStr × Bool :=
  let actual := s.pos - pos
  if actual = sz then (s, true)
  else if pos % 8 ≠ 0 then (s, false)
  else if s.isReal = false then
    (if s.pos % 8 > 0 then s.write (List.replicate (8 - s.pos % 8) 0) else s, true)
  else if sz % 8 ≠ 0 then (s, false)
  else if actual > sz then (s, false)
  else (s.pad actual sz, true)

/-- Rounding loop of `str_storesize`, base/src/Record.cxx:72. -/
def roundUp8 (n : Nat) : Nat := if n % 8 = 0 then n else n + (8 - n % 8)

/-- `str_storesize(str)`, base/src/Record.cxx:68-74. -/
def strStoreSize (str : List Byte) : Nat := roundUp8 (4 + (str.length + 1))

/-- `write_str(str)`, base/src/Record.cxx:76-92. -/
def OStr.writeStr (s : OStr) (str : List Byte) : OStr × Bool :=
  let sz := strStoreSize str
  if sz > s.maxStore then (s, false)
  else ((s.u32 (sz / 8)).write (str ++ [0])).verify s.pos sz

/-- An input `memstream`: bytes not yet read and number of bytes read. -/
structure IStr where
  data : List Byte
  pos : Nat
  deriving DecidableEq

/-- `read(tgt, len)`, base/src/Record.cxx:131-138. -/
def IStr.read (s : IStr) (len : Nat) : Option (List Byte × IStr) :=
  if len > s.data.length then none else some (s.data.take len, ⟨s.data.drop len, s.pos + len⟩)

/-- `shift(len)`, base/src/Record.cxx:114-120. -/
def IStr.shift (s : IStr) (len : Nat) : Option IStr :=
  if len > s.data.length then none else some ⟨s.data.drop len, s.pos + len⟩

def IStr.u32 (s : IStr) : Option (Nat × IStr) := (s.read 4).map fun r => (dec r.1, r.2)
def IStr.u64 (s : IStr) : Option (Nat × IStr) := (s.read 8).map fun r => (dec r.1, r.2)

/-- `verify_size(pos, sz)` of an input stream, base/src/Record.cxx:33-65. -/
def IStr.verify (s : IStr) (pos sz : Nat) : IStr × Bool :=
  let actual := s.pos - pos
  if actual = sz then (s, true)
  else if pos % 8 ≠ 0 then (s, false)
  else if sz % 8 ≠ 0 then (s, false)
  else if actual > sz then (s, false)
  else match s.shift (sz - actual) with
    | some s => (s, true)
    | none => (s, false)

/-- The C string at the begin of `b`; `none`: no terminating null byte. -/
def cstr (b : List Byte) : Option (List Byte) :=
  if 0 ∈ b then some (b.takeWhile (· ≠ 0)) else none

/-- `read_str(str)`, base/src/Record.cxx:94-110: string, stream, result.  Note that the check in line 102
compares the full size with the bytes remaining after the 4 bytes of the size were read. -/
def IStr.readStr (s : IStr) : Option (List Byte × IStr × Bool) :=
  (s.u32).bind fun (storesz, t) =>
    let sz := storesz * 8
    if sz > t.data.length then some ([], t, false)
    else (cstr t.data).map fun str =>
      let r := t.verify s.pos sz
      (str, r.1, r.2)

/-- `skip_object()`, base/src/Record.cxx:23-30. -/
def IStr.skipObject (s : IStr) : Option IStr :=
  (s.u32).bind fun (storesz, t) => t.shift ((storesz * 8 + 2 ^ 64 - 4) % 2 ^ 64)

end Verif.Stream
