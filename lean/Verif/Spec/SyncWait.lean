import Verif.SyncWait

/-! Specification for C96: how a port of a running module gets connected; steps without stop of the module. -/

namespace Verif.SyncWait.Spec
open Verif.LocalTransport Verif.SyncWait
variable {β : Type}

/-- The port is connected with signalling kind `k` while the module already runs. -/
def Connected (k : Kind) (ops : List (Op β)) : Prop :=
  ∃ a b, ops = a ++ .assignInp k :: (b ++ [.setConnected true]) ∧ (∀ op ∈ a, inpSide op = false) ∧ (∀ op ∈ b, inpSide op = false)

/-- The step does not stop the module. -/
def noStop : Act β → Bool
  | .loop .stop | .work .stop => false
  | _ => true

/-- The step is no further call and no connect or disconnect event. -/
def quiet : Act β → Bool
  | .call _ _ | .loop .gone | .loop .conn => false
  | _ => true

end Verif.SyncWait.Spec
