import Verif.Depend
/-!
# What is expected from dependencies between objects
-/

namespace Verif.Depend

/-- Pairs registered by a call. -/
def regs : Op → List (Nat × Nat)
  | .register a b false => [(a, b)]
  | .register a b true => [(a, b), (b, a)]
  | _ => []

/-- Pairs for which a call asks to remove one registration. -/
def unregs : Op → List (Nat × Nat)
  | .unregister a b false => [(a, b)]
  | .unregister a b true => [(a, b), (b, a)]
  | _ => []

/-- Objects whose destruction a call requests. -/
def kills : Op → List Nat
  | .destroy o => [o]
  | _ => []

/-- `s` is told that `t` is destroyed. -/
def Tells (s t : Nat) (a : Act) : Prop := a = .command s t ∨ a = .call s t

instance (s t : Nat) : DecidablePred (Tells s t) := fun a => by unfold Tells; infer_instance

/-- How often `s` was told about `t`. -/
def toldCount (s t : Nat) (l : List Act) : Nat := l.countP (fun a => Tells s t a)

def IsDestroy : Act → Prop
  | .destroy _ => True
  | _ => False

/-- Objects destroyed according to a log. -/
def destroyed : List Act → List Nat
  | [] => []
  | .destroy o :: l => o :: destroyed l
  | _ :: l => destroyed l

/-- The manager works on the destroy queue. -/
def Processes : Op → Prop
  | .event _ => True
  | .halt _ => True
  | _ => False

end Verif.Depend
