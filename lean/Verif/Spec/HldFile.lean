import Verif.HldFile
import Verif.Spec.HadIter

/-! # Specification of HLD files -/

namespace Verif.HldFile

open Verif.Bytes Verif.HadTu Verif.HadIter

/-- The bytes of an event as they have to be in a file: the size field, rounded up to 8, is the length.  An event has at least one
subevent, so that it is longer than the 32 bytes of its header; only the start and the stop record have just a header. -/
def Event (e : List Byte) : Prop :=
  e.length % 8 = 0 ∧ 32 < e.length ∧ padded (sizeAt e 0) = e.length

instance (e : List Byte) : Decidable (Event e) := inferInstanceAs (Decidable (_ ∧ _ ∧ _))

/-- A start or stop record: 32 bytes, size 32, with this id. -/
def IsRecord (id : Nat) (e : List Byte) : Prop :=
  e.length = 32 ∧ padded (sizeAt e 0) = 32 ∧ number (decide (e[7]? ≠ some 0)) ((e.drop 8).take 4) = id

instance (id : Nat) (e : List Byte) : Decidable (IsRecord id e) := inferInstanceAs (Decidable (_ ∧ _ ∧ _))

/-- A file: the start record, events, and the end.  The file is complete with a stop record, behind which anything may follow;
or it was cut after a multiple of 8 bytes, so that only a piece (or nothing) of the last event or of the stop record is there.
`most` bounds the size of the events. -/
inductive Content (most : Nat) : List Byte → List (List Byte) → Prop
  | complete {start stop after : List Byte} {evs : List (List Byte)} (h1 : IsRecord 0x10002 start) (h2 : IsRecord 0x10003 stop)
      (h : ∀ e ∈ evs, Event e ∧ e.length ≤ most) : Content most (start ++ (evs.flatten ++ (stop ++ after))) evs
  | cut {start last piece : List Byte} {evs : List (List Byte)} (h1 : IsRecord 0x10002 start) (h : ∀ e ∈ evs, Event e ∧ e.length ≤ most)
      (h2 : Event last ∨ IsRecord 0x10003 last) (hm : last.length ≤ most) (hp : piece <+: last) (hl : piece.length < last.length)
      (h8 : piece.length % 8 = 0) : Content most (start ++ (evs.flatten ++ piece)) evs

/-- A buffer provided for reading, with the number of bytes which are used of it: they hold the largest event and are a multiple
of 8; at least 4 more bytes of memory follow. -/
def Provided (most : Nat) (c : List Byte × Nat) : Prop :=
  most ≤ c.2 ∧ 32 ≤ c.2 ∧ c.2 < 2 ^ 32 ∧ c.2 % 8 = 0 ∧ c.2 + 4 ≤ c.1.length

instance (most : Nat) (c : List Byte × Nat) : Decidable (Provided most c) := inferInstanceAs (Decidable (_ ∧ _ ∧ _ ∧ _ ∧ _))

/-- The turns of an input, until it reports its end, an error or hangs. -/
def turns : List (List Byte × Nat) → Input → Option (List Turn)
  | [], _ => some []
  | c :: calls, s =>
    match turn s c.1 c.2 with
    | none => none
    | some (.data l, s) => (turns calls s).map (.data l :: ·)
    | some (.skip, s) => (turns calls s).map (.skip :: ·)
    | some (t, _) => some [t]

/-- The content of the delivered buffers. -/
def chunks : List Turn → List (List Byte)
  | [] => []
  | .data l :: ts => l :: chunks ts
  | _ :: ts => chunks ts

end Verif.HldFile
