import Verif.BinaryFile

/-! # Specification of binary files -/

namespace Verif.BinaryFile

open Verif.Bytes

/-- A buffer given to the output: its type and its segments. -/
structure Buf where
  typ : Nat
  segs : List (List Byte)
  deriving DecidableEq

/-- What the buffer contains. -/
def Buf.data (b : Buf) : Data := { typ := b.typ, bytes := b.segs.flatten }

/-- A buffer as it is in the program: the type is an `unsigned`, no segment is empty, the size is a size which an
input may ask for (at most `0xFFFFFFF0`). -/
def Buf.Valid (b : Buf) : Prop :=
  b.typ < 2 ^ 32 ∧ b.segs ≠ [] ∧ (∀ l ∈ b.segs, l ≠ []) ∧ b.segs.flatten.length ≤ 0xFFFFFFF0

instance (b : Buf) : Decidable b.Valid := inferInstanceAs (Decidable (_ ∧ _ ∧ _ ∧ _))

/-- The calls of `Write_Buffer` for a list of buffers: which were answered with `do_Ok`, and the output afterwards. -/
def writes (o : Output) : List Buf → List Bool × Output
  | [] => ([], o)
  | b :: bufs =>
    match writeBuffer o b.typ b.segs with
    | (ok, o) => ((ok :: (writes o bufs).1), (writes o bufs).2)

/-- The buffers answered with `do_Ok`. -/
def accepted : List Bool → List Buf → List Data
  | ok :: res, b :: bufs => if ok then b.data :: accepted res bufs else accepted res bufs
  | _, _ => []

/-- The buffers which are complete in the first `k` bytes behind the file header: each takes 16 bytes and its size. -/
def complete : Nat → List Data → List Data
  | _, [] => []
  | k, d :: l => if 16 + d.bytes.length ≤ k then d :: complete (k - (16 + d.bytes.length)) l else []

/-- Number of bytes in the buffers. -/
def payload (l : List Data) : Nat := (l.map fun d => d.bytes.length).sum

/-- The results of opening a file with this content and of `n` calls of `ReadBuffer`; the file of a failed opening
delivers nothing. -/
def readFile (n : Nat) (data : List Byte) : List (Option Data) :=
  match readInit [data] with
  | none => List.replicate n none
  | some s => reads n s

/-- What `n` calls have to return for a file with these buffers: each one once, then nothing. -/
def delivery (n : Nat) (l : List Data) : List (Option Data) :=
  (l.map some ++ List.replicate n none).take n

/-- The buffers which a reader gets from a file, by calling `ReadBuffer` more often than buffers can be in the file. -/
def contents (data : List Byte) : List Data := (readFile data.length data).filterMap id

end Verif.BinaryFile
