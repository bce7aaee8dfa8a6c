import Verif.MbsNet

/-! Specification of events which are cut into pieces by an MBS server. -/

namespace Verif.MbsNet.Spec

open Verif.Bytes

/-- An event: the type in its header and everything behind the first eight bytes. -/
abbrev Event := Nat × Data

/-- An event or a piece of one as it stands in a buffer. -/
def piece (e : Event) : Data := enc 4 (e.2.length / 2) ++ enc 4 e.1 ++ e.2

def pieces (l : List Event) : Data := (l.map piece).flatten

/-- A buffer of the server: events, and if the last one goes on in the next buffer; behind the events the rest of the buffer. -/
structure Packed where
  evs : List Event
  more : Bool
  fill : Data

/-- The first piece goes on with the open event. -/
def join : Option Event → List Event → List Event
  | none, l => l
  | some _, [] => []
  | some (t, d), (_, d') :: l => (t, d ++ d') :: l

/-- Complete events of the buffers, and the one which is open at the end. -/
def assemble : Option Event → List Packed → List Event × Option Event
  | o, [] => ([], o)
  | o, b :: l =>
    let all := join o b.evs
    let r := assemble (if b.more then all.getLast? else none) l
    ((if b.more then all.dropLast else all) ++ r.1, r.2)

/-- The 48 bytes before the data (type 10, subtype 1): size of the buffer, words in use, and the flags which tell that the first piece
goes on with an event and that the last event goes on. -/
def header (size used : Nat) (begins ends : Bool) : Data :=
  enc 4 (size / 2) ++ (enc 4 0x1000a ++ (enc 4 (used / 2 + (if begins then 65536 else 0) + (if ends then 16777216 else 0)) ++ (enc 4 0 ++ (enc 4 0 ++
    (enc 4 0 ++ (enc 4 0 ++ (enc 4 0 ++ (enc 4 1 ++ (enc 4 0 ++ (enc 4 0 ++ enc 4 0))))))))))

/-- Data of a computer with another order of bytes. -/
def wire (sw : Bool) (l : Data) : Data := if sw then swap l else l

/-- The record which a server sends first. -/
def greeting (max buffers streams : Nat) : Data := enc 4 1 ++ (enc 4 max ++ (enc 4 buffers ++ enc 4 streams))

/-- Bytes of the buffers. -/
def stream (sw : Bool) : Option Event → List Packed → Data
  | _, [] => []
  | o, b :: l =>
    wire sw (header (pieces b.evs ++ b.fill).length (pieces b.evs).length o.isSome b.more) ++ (wire sw (pieces b.evs ++ b.fill) ++
      stream sw (if b.more then (join o b.evs).getLast? else none) l)

/-- Buffers as a server makes them, with pieces which are not too short, for a receiver with buffers of `size` bytes. -/
def Good (sw : Bool) (max size : Nat) : Option Event → List Packed → Prop
  | _, [] => True
  | o, b :: l =>
    b.evs ≠ [] ∧ (∀ e ∈ b.evs, e.2.length % 2 = 0) ∧ (∀ e ∈ join o b.evs, 8 ≤ e.2.length) ∧ (pieces b.evs).length ≤ 65534 ∧
      (sw = true → (pieces b.evs).length % 4 = 0) ∧ b.fill.length % 2 = 0 ∧ (pieces b.evs ++ b.fill).length ≤ max ∧
      (pieces b.evs ++ b.fill).length + (o.map piece).elim 0 List.length ≤ size ∧
      Good sw max size (if b.more then (join o b.evs).getLast? else none) l

/-- What the receiver does for each buffer. -/
def perBuffer (mem : Data) : List Op := [.readSize, .recv, .readStart mem, .recv, .readComplete]

end Verif.MbsNet.Spec
