import Verif.SocketNet

namespace Verif.SocketNet
open Verif.Bytes

/-- What the other side should get. -/
def payload : Msg → Rx
  | .ack n => .ack n
  | .null => .buf 0 []
  | .buf typ segs => .buf typ segs.flatten

/-- Size of the receive buffer which is needed. -/
def need : Msg → Nat
  | .buf _ segs => segs.flatten.length
  | _ => 0

/-- Acknowledge packets, and buffers which are too large for inline data and have no empty segments. -/
def Large : Msg → Prop
  | .ack n => n < 2 ^ 32
  | .null => False
  | .buf typ segs => typ < 2 ^ 32 ∧ 32 < segs.flatten.length ∧ segs.flatten.length < 2 ^ 32 ∧ ∀ x ∈ segs, x ≠ []

/-- Messages submitted, receive buffers posted by the operations. -/
def OpsOk (need' : Nat) (ops : List Op) : Prop :=
  ∀ o ∈ ops, match o with
    | .submit m junk => Large m ∧ junk.length = 32 ∧ need m ≤ need'
    | .post b => b ≠ [] ∧ (∀ n ∈ b, 0 < n) ∧ need' ≤ b.sum
    | _ => True

end Verif.SocketNet
