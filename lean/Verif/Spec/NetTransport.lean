import Verif.NetTransport

/-!
# What a flow controlled network connection promises

Only the packets on the wire, the histories and the receive operations which the network holds are mentioned here.
-/

namespace Verif.NetTr

/-- Buffers in a list of packets. -/
def datas : List Pkt → List Nat
  | [] => []
  | .data b :: l => b :: datas l
  | .ack _ :: l => datas l

/-- Number of acknowledge packets. -/
def acks : List Pkt → Nat
  | [] => 0
  | .data _ :: l => acks l
  | .ack _ :: l => acks l + 1

/-- Sends which the acknowledge packets allow. -/
def credits : List Pkt → Nat
  | [] => 0
  | .data _ :: l => credits l
  | .ack n :: l => credits l + n

/-- Flow control from `a` to `b`: every buffer under way has a receive operation which waits for it. -/
def Controlled (s : Sys) : Prop := (datas s.a.wire).length ≤ s.b.netRecv.length

/-- The queues to the modules are not longer than the queues of the ports of the modules (`TransportQueue` is not used to
make them longer). -/
def Fits (c : Cfg) : Prop := c.portCap ≤ c.outCap ∧ (c.isInp = true → c.oqCap ≤ c.inCap)

/-- Nothing is under way: all packets arrived, all sends are finished, the module of `b` has taken its buffers, and `b` waits
with all receive operations which it can have. -/
def Quiet (cb : Cfg) (s : Sys) : Prop :=
  s.a.wire = [] ∧ s.b.wire = [] ∧ s.b.netSend = [] ∧ s.b.outq = [] ∧ s.b.netRecv.length = cb.oqCap

end Verif.NetTr
