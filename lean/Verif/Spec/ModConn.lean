import Verif.ModConn

/-!
# Specification of run state and connections of a module

Written over what is observed: the operations and the effects.
-/

namespace Verif.ModConn.Spec
open Verif.ModConn

/-- Order of the calls: `Life on l on'` tells that a module which is running (`on`) or not can do the calls
`l` and is running or not (`on'`) afterwards.  A start is `BeforeModuleStart` followed by the start of all
items, a stop is the stop of all items followed by `AfterModuleStop`; data events come only in between. -/
inductive Life : Bool → List Eff → Bool → Prop where
  | nil (b) : Life b [] b
  | start {l b} : Life true l b → Life false (.before :: .itemsOn :: l) b
  | stop {l b} : Life false l b → Life true (.itemsOff :: .after :: l) b
  | data {l b} (i) : Life true l b → Life true (.data i :: l) b
  | other {a l b} (e) : (match e with | .connect _ | .disconnect _ | .attempt _ | .closed _ | .exitApp => true | _ => false) = true →
      Life a l b → Life a (e :: l) b

/-- The connect and disconnect notifications of a list of calls. -/
def told (l : List Eff) : List Eff := l.filter fun e => match e with | .connect _ | .disconnect _ => true | _ => false

/-- The notifications which operations on `n` ports call for. -/
def due (n : Nat) : List Op → List Eff
  | [] => []
  | .evConnect i :: os => if i < n then .connect i :: due n os else due n os
  | .evDisconnect i :: os => if i < n then .disconnect i :: due n os else due n os
  | .disconnectPort i :: os => if i < n then .disconnect i :: due n os else due n os
  | _ :: os => due n os

/-- Number of attempts to connect port `i` again. -/
def attempts (i : Nat) (l : List Eff) : Nat := l.count (.attempt i)

/-- Number of disconnect events of port `i`. -/
def losses (i : Nat) (os : List Op) : Nat := os.count (.evDisconnect i)

/-- The operations do not configure the reconnection of port `i`. -/
def Keeps (i : Nat) (os : List Op) : Prop := ∀ pos num, Op.configure i pos num ∉ os

/-- The module still has something to do: an input or an output is connected or will be connected again. -/
def Busy (s : St) : Prop := ∃ p ∈ s.ports, p.pool = false ∧ (p.connected = true ∨ p.doing = true)

/-- Operations which do not close a connection and do not end the reconnection of a port in failure. -/
def gentle : Op → Bool
  | .connTimer _ ok conn => ok && conn
  | .lost _ | .disconnectPort _ | .configure _ _ _ => false
  | .evDisconnect _ => false
  | _ => true

end Verif.ModConn.Spec
