import Verif.LmdFile

/-! # Specification of LMD files -/

namespace Verif.LmdFile

open Verif.Bytes

/-- The bytes of an event as they have to be in a file: a multiple of 4 bytes, with the number of 16-bit words behind the first 8 bytes
in the first word. -/
def Event (e : List Byte) : Prop :=
  e.length % 4 = 0 ∧ 8 ≤ e.length ∧ e.length < 2 ^ 32 ∧ e.length = 8 + 2 * dec (e.take 4)

instance (e : List Byte) : Decidable (Event e) := inferInstanceAs (Decidable (_ ∧ _ ∧ _ ∧ _))

/-- A file: the file header, events, and perhaps a piece of one more event, when the file was not written to its end.  The piece may end
at any byte, but when the event's length is a multiple of 512 only at a multiple of 4.  `most` bounds the size of the events. -/
structure Content (most : Nat) (data : List Byte) (evs : List (List Byte)) : Prop where
  good : ∀ e ∈ evs, Event e ∧ e.length ≤ most
  parts : ∃ last piece, data = fileHeader ++ (evs.flatten ++ piece) ∧ Event last ∧ last.length ≤ most ∧ piece <+: last ∧ piece.length < last.length ∧
    (piece.length % 4 = 0 ∨ last.length % 512 ≠ 0)

/-- A buffer provided for reading, with the number of bytes which are used of it: these hold the largest event. -/
def Provided (most : Nat) (c : List Byte × Nat) : Prop :=
  most ≤ c.2 / 8 * 8 ∧ 8 ≤ c.2 ∧ c.2 ≤ c.1.length

instance (most : Nat) (c : List Byte × Nat) : Decidable (Provided most c) := inferInstanceAs (Decidable (_ ∧ _ ∧ _))

/-- The turns of an input, until it reports its end or an error or hangs. -/
def turns : List (List Byte × Nat) → Input → Option (List Turn)
  | [], _ => some []
  | c :: calls, s =>
    match turn s c.1 c.2 with
    | none => none
    | some (.data l, s) => (turns calls s).map (.data l :: ·)
    | some (t, _) => some [t]

/-- The content of the delivered buffers. -/
def chunks : List Turn → List (List Byte)
  | [] => []
  | .data l :: ts => l :: chunks ts
  | _ :: ts => chunks ts

end Verif.LmdFile
