import Verif.HldOut

/-! # Specification of the writing of HLD files -/

namespace Verif.HldOut

open Verif.Bytes

/-- The content of a file with a name. -/
def look (d : List (Option Nat × List Piece)) (n : Option Nat) : Option (List Piece) :=
  (d.find? fun f => f.1 = n).map (·.2)

/-- The data of a file, without records. -/
def fileData : List Piece → List Byte
  | [] => []
  | .data l :: t => l ++ fileData t
  | _ :: t => fileData t

/-- Pieces between the start and the stop record. -/
def Inner (ps : List Piece) : Prop := ∀ p ∈ ps, (∃ l, p = .data l) ∨ ∃ a b c, p = .head a b c

/-- A file of run `r` which was begun: start record and content. -/
def Begun (r : Nat) (ps : List Piece) : Prop := ∃ body, Inner body ∧ ps = .start r :: body

/-- A complete file of run `r`. -/
def Whole (r : Nat) (ps : List Piece) : Prop := ∃ body, Inner body ∧ ps = .start r :: (body ++ [.stop r])

/-- Name of the file of run `r`. -/
def nameOf (plain : Bool) (r : Nat) : Option Nat := if plain then none else some r

/-- What a file can look like: empty when already its start record could not be written, begun or complete. -/
def Shape (plain : Bool) (f : Option Nat × List Piece) : Prop :=
  f.2 = [] ∨ ∃ r, f.1 = nameOf plain r ∧ (Begun r f.2 ∨ Whole r f.2)

/-- The bytes of events. -/
def evBytes (l : List Ev) : List Byte := (l.map (·.bytes)).flatten

/-- The events of run `r`. -/
def ofRun (r : Nat) (l : List Ev) : List Ev := l.filter fun e => e.run = r

/-- The run of the last event, 0 without events. -/
def current (l : List Ev) : Nat := (l.getLast?.map (·.run)).getD 0

/-- A buffer with complete events, in segments which are not empty. -/
def GoodEvents (b : Buf) (evs : List Ev) : Prop :=
  ∃ segs, b = .events evs segs ∧ segs.flatten = evBytes evs ∧ ∀ g ∈ segs, g ≠ []

/-- In a buffer behind the events `E` the run changes at most once: some events of the current run, then
events of one run. -/
def OneChange (E evs : List Ev) : Prop :=
  ∃ a b r, evs = a ++ b ∧ (∀ e ∈ a, e.run = current E) ∧ ∀ e ∈ b, e.run = r

/-- No run comes back: events of one run, other than 0, follow each other. -/
def NoReturn (E : List Ev) : Prop :=
  ∀ x y z e1 e2, E = x ++ e1 :: (y ++ e2 :: z) → e1.run = e2.run → e1.run ≠ 0 → ∀ e ∈ y, e.run = e1.run

/-- The events of a run given in buffers, each with the time and with at most one change of the run. -/
inductive Stream : List Ev → List (Buf × Nat) → Prop
  | nil : Stream [] []
  | snoc {E evs : List Ev} {bs : List (Buf × Nat)} {b : Buf} (c : Nat) (h : Stream E bs) (hb : GoodEvents b evs) (hc : OneChange E evs) :
      Stream (E ++ evs) (bs ++ [(b, c)])

/-- The bytes of a buffer. -/
def bufBytes : Buf → List Byte
  | .events _ segs => segs.flatten
  | .subevents l => l.flatten
  | _ => []

/-- The bytes of buffers. -/
def allBytes (l : List (Buf × Nat)) : List Byte := (l.map fun b => bufBytes b.1).flatten

/-- Buffers with events and the time in seconds when each is written: time does not run backwards from `c`. -/
def Timed (c : Nat) (l : List (Buf × Nat)) : Prop :=
  (∀ b ∈ l, (∃ evs segs, b.1 = .events evs segs) ∧ c ≤ b.2) ∧ l.Pairwise fun a b => a.2 ≤ b.2

/-- In no second come more than `limit` bytes. -/
def Slow (limit : Nat) (l : List (Buf × Nat)) : Prop :=
  ∀ t, (allBytes (l.filter fun b => b.2 = t)).length ≤ limit

/-- Write buffers, each at its time. -/
def writes (l : List (Buf × Nat)) : List Op := l.map fun b => .buffer b.1 b.2

/-- Operations without failures of the disk. -/
def NoFault (ops : List Op) : Prop := ∀ o ∈ ops, ∀ r b, o ≠ .disk r b

/-- Operations on an output in slave mode during run `r`: buffers with events of this run, and new attempts. -/
def DuringRun (r : Nat) (ops : List Op) : Prop :=
  ∀ o ∈ ops, (∃ evs segs c, o = .buffer (.events evs segs) c ∧ evs ≠ [] ∧ ∀ e ∈ evs, e.run = r) ∨ o = .retry ∨ (∃ c, o = .init c) ∨
    ∃ k b, o = .disk k b

end Verif.HldOut
