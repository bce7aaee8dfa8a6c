import Verif.Pointer

/-! # Specification of pointers: an offset in the flat content -/

namespace Verif.Pointer

/-- Offset in the flat content a pointer stands for. -/
def pos (sizes : List Nat) (p : Ptr) : Nat := (sizes.take p.segm).sum + p.off

/-- `p` is a pointer on the buffer that reaches up to the end of the buffer (no limit was set with
`setfullsize`): its raw size is the rest of the segment and its full size the rest of the buffer. -/
structure OnBuffer (sizes : List Nat) (p : Ptr) : Prop where
  small : sizes.sum < 2 ^ 32
  rest : pos sizes p + p.full = sizes.sum
  inb : p.segm < sizes.length
  seg : p.off + p.raw = segSize sizes p.segm ∨ (p.raw = 0 ∧ p.full = 0)

/-- No empty segments. -/
def NoEmpty (sizes : List Nat) : Prop := ∀ s ∈ sizes, 0 < s

end Verif.Pointer
