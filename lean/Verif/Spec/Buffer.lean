import Verif.Buffer

/-! # Specification of buffer editing: operations on the flat content -/

namespace Verif.Buffer
variable {α : Type}

/-- Bytes of one segment, when block `id` of the pool holds `mem id`. -/
def Seg.bytes (mem : Nat → List α) (s : Seg) : List α := ((mem s.id).drop s.off).take s.len

/-- Flat content of a buffer. -/
def content (mem : Nat → List α) (segs : List Seg) : List α := segs.flatMap (Seg.bytes mem)

/-- All segments lie inside of their memory blocks. -/
def InBlocks (mem : Nat → List α) (segs : List Seg) : Prop := ∀ s ∈ segs, s.off + s.len ≤ (mem s.id).length

end Verif.Buffer
