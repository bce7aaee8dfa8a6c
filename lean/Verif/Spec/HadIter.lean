import Verif.HadIter
import Verif.Spec.HadTu

/-! # Specification of the HADAQ iterators: places in the content of a buffer with one segment -/

namespace Verif.HadIter

open Verif.Bytes Verif.Pointer Verif.HadTu

/-- Size field of the header at offset `o` of the content, in the byte order of that header. -/
def sizeAt (s : List Byte) (o : Nat) : Nat := number (decide (s[o + 7]? ≠ some 0)) ((s.drop o).take 4)

/-- The pointer is reset, or everything it covers is inside of `n` bytes of memory. -/
def Inside (n : Nat) (p : Ptr) : Prop :=
  p = Ptr.null ∨ (p.attached = true ∧ p.segm = 0 ∧ p.raw = p.full ∧ p.off + p.full ≤ n)

/-- Calls on a read iterator. -/
inductive Call where
  | hadTu
  | event
  | block
  | subEvent
  | eventPointer
  deriving DecidableEq

/-- A call, giving the new state. -/
def Call.run (mem : Mem) (r : Reader) : Call → Option (Reader × Bool)
  | .hadTu => nextHadTu mem r
  | .event => nextEvent mem r
  | .block => nextSubeventsBlock mem r
  | .subEvent => nextSubEvent mem r
  | .eventPointer => (assignEventPointer mem r).map fun q => (r, q.2)

/-- Subevents are asked for only after a block of subevents was looked for, the pointer on the event only after an event
or transport unit was. -/
def Call.Allowed (r : Reader) : Call → Prop
  | .subEvent => r.first = false ∨ r.typ = .subevents
  | .eventPointer => r.first = false ∧ r.typ ≠ .subevents
  | _ => True

/-- States reached from `Reset` by allowed calls. -/
inductive Reached (mem : Mem) (typ : BufType) : Reader → Prop where
  | reset : Reached mem typ (reset mem typ).1
  | call {r r' : Reader} {b : Bool} (c : Call) : Reached mem typ r → c.Allowed r → c.run mem r = some (r', b) → Reached mem typ r'

/-- Size of the header of a block. -/
def headSize : BufType → Nat
  | .events => 32
  | .unit => 8
  | _ => 0

/-- Offset behind the current block: the padded size given in its header, but not more than what is in the buffer. -/
def blockEnd (s : List Byte) (r : Reader) : Nat :=
  match r.typ with
  | .events | .unit => r.ev.off + min (padded (sizeAt s r.ev.off)) r.ev.full
  | _ => r.ev.off + r.ev.full

end Verif.HadIter
