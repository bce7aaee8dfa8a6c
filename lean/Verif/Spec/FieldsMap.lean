import Verif.FieldsMap

/-! # What is expected of fields maps -/

namespace Verif.Record
open Verif.Bytes Verif.Stream

/-- The same value for `==`: zeros of both signs are the same double. -/
def Same (a b : Val) : Prop := a = b ∨ ∃ u w, a = .double u ∧ b = .double w ∧ isZero u = true ∧ isZero w = true

/-- Same presence and same value. -/
def SameOpt : Option Val → Option Val → Prop
  | none, none => True
  | some a, some b => Same a b
  | _, _ => False

/-- Values which can be produced by the setters: 0 or 1 in a bool, no empty arrays of numbers, known kind. -/
def Plain : Val → Prop
  | .bool w => w = 0 ∨ w = 1
  | .arrint l | .arruint l | .arrdouble l => l ≠ []
  | .other _ => False
  | _ => True

/-- Value of a field. -/
def value (m : FMap) (n : Name) : Option Val := (find m n).map Field.val

end Verif.Record
