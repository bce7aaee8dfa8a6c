import Verif.ParEvents

/-!
# What the delivery of parameter events has to give
-/

namespace Verif.ParEvents.Spec

/-- An event is on its way to the receivers. -/
def Pending (s : S) (r : Nat × Ev) : Prop := r ∈ s.todo ∨ r ∈ s.pushing ∨ r ∈ s.queue ∨ s.cur = some r

/-- What a receiver was told last about a parameter. -/
def lastTold (sent : List Sent) (addr par : Nat) : Option Nat :=
  ((sent.filter (fun x => decide (x.addr = addr) && decide (x.par = par))).map (·.value)).getLast?

/-- A receiver which can be told about the parameter: subscribed, matching and not overloaded. -/
def Open (s : S) (addr par : Nat) : Prop :=
  ∃ r ∈ s.recvs, r.addr = addr ∧ s.hit r.mask par = true ∧ r.queue ≤ 1000

/-- The operation does not find the receiver closed. -/
def Accepted (addr : Nat) : Op → Prop
  | .deliver can => can addr = true
  | _ => True

/-- The receiver is open during all of the operations. -/
def OpenDuring (addr par : Nat) : S → List Op → Prop
  | s, [] => Open s addr par
  | s, op :: ops => Open s addr par ∧ Accepted addr op ∧ OpenDuring addr par (step s op) ops

/-- A new list element gets an address for which no command is under way. -/
def FreshAddr : S → List Op → Prop
  | _, [] => True
  | s, op :: ops => (match op with
      | .subscribe a .. => a ∉ s.flying
      | _ => True) ∧ FreshAddr (step s op) ops

/-- The operation touches the settings of a parameter. -/
def Settles (par : Nat) : Op → Prop
  | .configure p _ => p = par
  | .create p _ => p = par
  | .destroy p => p = par
  | _ => False

/-- The operation ends the subscription of a worker with the mask. -/
def Ends (who mask : Nat) : Op → Prop
  | .unsubscribe w m => w = who ∧ m = mask
  | .gone w => w = who
  | _ => False

end Verif.ParEvents.Spec
