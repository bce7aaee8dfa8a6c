import Verif.HadTu

/-! # Specification of the HADAQ headers: numbers made of bytes in the byte order of the header -/

namespace Verif.HadTu

open Verif.Bytes Verif.Pointer

/-- At least `n` bytes of the segment are behind the pointer. -/
def Fits (mem : Mem) (p : Ptr) (n : Nat) : Prop := ∃ s, mem[p.segm]? = some s ∧ p.off + n ≤ s.length

/-- Byte `j` of segment `i`. -/
def byteAt (mem : Mem) (i j : Nat) : Option Byte := mem[i]?.bind fun s => s[j]?

/-- The `n` bytes found `k` bytes behind the pointer. -/
def bytesAt (mem : Mem) (p : Ptr) (k n : Nat) : List Byte :=
  ((mem[p.segm]?.getD []).drop (p.off + k)).take n

/-- Number written with its most (`big`) or least significant byte first. -/
def number (big : Bool) (l : List Byte) : Nat := if big then dec l.reverse else dec l

/-- The last byte of the decoding word (defines.h:37: it is zero in the byte order of the machine) tells the byte
order of the header. -/
def bigEndian (mem : Mem) (p : Ptr) : Bool := decide (byteAt mem p.segm (p.off + 7) ≠ some 0)

/-- A decoding word as described in defines.h:34-40: the most significant byte is zero, the least significant byte is
not zero. -/
def GoodDecoding (d : Word) : Prop := d.toNat < 2 ^ 24 ∧ d.toNat % 256 ≠ 0

end Verif.HadTu
