import Verif.ConnObject

/-!
# What a connection object has to keep
-/

namespace Verif.ConnObj.Spec

open ConnMgr (St)

/-- The state by the calls alone. -/
def stateAfter : St → List Op → St
  | s, [] => s
  | s, .change t f :: ops =>
    stateAfter (if t = .pending ∧ f = false then (if s = .init then .pending else s) else t) ops
  | s, _ :: ops => stateAfter s ops

/-- Names which name the default field. -/
def names (k n : String) : Prop := n = k ∨ (n = "" ∧ k = "state")

instance (k n : String) : Decidable (names k n) := inferInstanceAs (Decidable (_ ∨ _))

/-- The value of a configuration field by the calls alone: the last value which was set in state init, or with
permission. -/
def valueAfter (k : String) : St → Option String → List Op → Option String
  | _, v, [] => v
  | s, v, .set n w :: ops => valueAfter k s (if s = .init ∧ names k n then some w else v) ops
  | s, v, .forced n w :: ops => valueAfter k s (if names k n then some w else v) ops
  | s, v, .change t f :: ops => valueAfter k (stateAfter s [.change t f]) v ops

/-- Permissions given by a section. -/
def permits : Prim → Nat
  | .field .. => 0
  | .allow .. => 1
  | .begin .. => 1

/-- Number of fields which were changed although the object was not in state init. -/
def lateChanges : Obj → List Prim → Nat
  | _, [] => 0
  | o, p :: ps =>
    (match p with
      | .field n v => if o.state ≠ .init ∧ (setField o n v).1 then 1 else 0
      | _ => 0) + lateChanges (prim o p) ps

end Verif.ConnObj.Spec
