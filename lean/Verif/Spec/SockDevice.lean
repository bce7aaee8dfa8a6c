import Verif.SockDevice

/-!
# What is expected of the socket device

Terms of the outside: how often a command came, was answered or still waits; how much time went
by according to the timer.
-/

namespace Verif.SockDevice.Spec

open Verif.SockDevice

/-- How often the command `c` came. -/
def came (c : Nat) : List Op → Nat
  | [] => 0
  | .request _ _ _ cmd _ :: l => (if cmd = c then 1 else 0) + came c l
  | _ :: l => came c l

/-- How often the command `c` was answered. -/
def answered (s : Dev) (c : Nat) : Nat := s.replies.countP fun r => r.1 == c

/-- How often the command `c` was answered with the result `true`. -/
def confirmed (s : Dev) (c : Nat) : Nat := s.replies.countP fun r => r.1 == c && r.2

/-- How often the command `c` waits in a record. -/
def waits (s : Dev) (c : Nat) : Nat := s.recs.countP fun r => r.2.cmd == c

/-- How many transports were made for the command `c`. -/
def transports (s : Dev) (c : Nat) : Nat := s.made.countP fun m => m.cmd == c

/-- `new` gives only addresses where no object lives. -/
def Alloc : Dev → List Op → Prop
  | _, [] => True
  | s, o :: l =>
    (match o with
      | .request _ _ addr _ true => ∀ r ∈ s.recs, r.1 ≠ addr
      | _ => True) ∧ Alloc (s.step o) l

/-- The sum of all intervals of the timer. -/
def elapsed : List Op → Int
  | [] => 0
  | .timeout d :: l => d + elapsed l
  | _ :: l => elapsed l

/-- The timer never runs backwards. -/
def Forward (ops : List Op) : Prop := ∀ d, Op.timeout d ∈ ops → 0 ≤ d

/-- The addresses of all records. -/
def addresses : List Op → List Nat
  | [] => []
  | .request _ _ addr _ _ :: l => addr :: addresses l
  | _ :: l => addresses l

/-- A message which contains a complete request: a terminated connection id. -/
def Terminated (msg : List Bytes.Byte) : Prop := (0 : Bytes.Byte) ∈ msg.drop 4

/-- A message which asks for the connection `id`. -/
def AsksFor (msg : List Bytes.Byte) (id : Id) : Prop :=
  ∃ rest, msg.drop 4 = id ++ 0 :: rest ∧ (0 : Bytes.Byte) ∉ id ∧
    Bytes.dec (msg.take 4) = 175404571

/-- The bytes of a text of ASCII characters. -/
def text (t : String) : List Bytes.Byte := t.toList.map fun c => BitVec.ofNat 8 c.toNat

end Verif.SockDevice.Spec
