import Verif.Events

/-! Specification vocabulary for C20-C21. -/

namespace Verif.Events
variable {E : Type}

/-- Effective priority of an event fired with argument `nq` (negative means the lowest one). -/
def prio (n : Nat) (nq : Int) : Int := if nq < 0 then (n : Int) - 1 else nq

/-- Events fired with priority `j` in a schedule, in order. -/
def fired (n j : Nat) : List (Op E) → List E
  | [] => []
  | .fire e nq :: ops => if prio n nq = j then e :: fired n j ops else fired n j ops
  | .fetch :: ops => fired n j ops

/-- Events of priority `j` among the results of fetches, in order. -/
def delivered (j : Nat) : List (Option (Nat × E)) → List E
  | [] => []
  | none :: os => delivered j os
  | some (i, e) :: os => if i = j then e :: delivered j os else delivered j os

/-- Number of fetches in a schedule. -/
def fetches : List (Op E) → Nat
  | [] => 0
  | .fire _ _ :: ops => fetches ops
  | .fetch :: ops => fetches ops + 1

/-- Events of priority `j` that wait in the queues. -/
def waiting (qs : List (EvQ E)) (j : Nat) : List E := (qs[j]?.map EvQ.items).getD []

end Verif.Events
