import Verif.Multiplexer

/-!
# What is expected of the multiplexer
-/

namespace Verif.Multiplexer.Spec

open Verif.Multiplexer

/-- What an operation brings to the inputs (`n` of them). -/
def arrival (n : Nat) : Op → List (Nat × Nat)
  | .arrive p b => if p < n then [(p, b)] else []
  | .silent p b => if p < n then [(p, b)] else []
  | _ => []

/-- All buffers which arrived, with their input, in the order of arrival. -/
def arrivals (n : Nat) (os : List Op) : List (Nat × Nat) := (os.map (arrival n)).flatten

/-- The buffers of input `p`. -/
def only (p : Nat) (l : List (Nat × Nat)) : List Nat := (l.filter fun x => x.1 == p).map (·.2)

/-- The looks of an operation. -/
def looks : Op → Option (Nat → Look)
  | .inEvent l => some l
  | .outEvent l => some l
  | _ => none

/-- Output `n` is connected all the time and a place in its queue does not
vanish. -/
def Steady (n : Nat) (o : Op) : Prop :=
  ∀ l, looks o = some l → ∀ k, (l k).conn n = true ∧ ((l k).can n = true → (l k).again n = true)

/-- The module is not stopped and no buffer comes before the connection. -/
def Calm : Op → Prop
  | .silent _ _ => False
  | .stop => False
  | _ => True

end Verif.Multiplexer.Spec
