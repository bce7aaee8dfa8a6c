import Verif.Udp
import Verif.Spec.HadIter
import Verif.Spec.HadWrite

/-! # Specification of the UDP receiver: what is done with every datagram -/

namespace Verif.Udp

open Verif.Bytes Verif.HadTu Verif.HadIter

/-- The datagram is a transport unit, filled up to a multiple of 8 bytes, followed by a copy of its first 32 bytes. -/
def Intact (d : List Byte) : Prop := d.length = up8 (sizeAt d 0) + 32 ∧ d.drop (up8 (sizeAt d 0)) = d.take 32

instance (d : List Byte) : Decidable (Intact d) := inferInstanceAs (Decidable (_ ∧ _))

/-- The transport unit of the datagram, filled up. -/
def payload (d : List Byte) : List Byte := d.take (up8 (sizeAt d 0))

/-- The size in the header of the datagram is not at the very end of the range of 32-bit numbers. -/
def Sane (d : List Byte) : Prop := 8 ≤ d.length → up8 (sizeAt d 0) + 32 < 2 ^ 32

/-- What became of a datagram. -/
inductive Mark where
  /-- placed in an output buffer -/
  | accepted
  /-- thrown away because it is damaged -/
  | damaged
  /-- thrown away because there is no buffer for it -/
  | skipped
  /-- thrown away to simulate losses -/
  | lost
  /-- taken without any notice -/
  | unseen
  deriving DecidableEq

/-- Datagrams with the given mark. -/
def having (m : Mark) (A : List (Mark × List Byte)) : List (List Byte) := (A.filter fun x => decide (x.1 = m)).map Prod.snd

/-- Number of bytes of datagrams. -/
def size (l : List (List Byte)) : Nat := (l.map List.length).sum

/-- Content of the buffers already given to the output, of those waiting for it, and of the one being filled. -/
def output (st : St) : List Byte :=
  st.sent.flatten ++ ((st.pool.take st.ready).map fun b => (st.mem b).take (st.total b)).flatten ++
    (match st.tgt with | none => [] | some t => (st.mem t.1).take t.2)

/-- Marks fit to the datagrams and to the counters and to the output of the receiver. -/
structure Ledger (st : St) (A : List (Mark × List Byte)) : Prop where
  accepted : ∀ d ∈ having .accepted A, Intact d
  damaged : ∀ d ∈ having .damaged A, ¬ Intact d
  skipped : ∀ d ∈ having .skipped A, Intact d
  unseen : ∀ d ∈ having .unseen A, d = []
  packets : st.recvPacket = (having .accepted A).length
  bytes : st.recvBytes = size (having .accepted A)
  discarded : st.discPacket = (having .damaged A).length + (having .skipped A).length
  discardedBytes : st.discBytes = size (having .damaged A) + size (having .skipped A)
  losses : st.lostPacket = (having .lost A).length
  output : output st = ((having .accepted A).map payload).flatten

/-- Datagrams which arrive during operations, cut to the size the receiver asks for. -/
def arrivals (c : Cfg) (ops : List Op) : List (List Byte) :=
  ops.filterMap fun o => match o with | .arrive d => some (d.take c.mtu) | _ => none

/-- Values the constructor and users can give: the size of packets is an `int`, the test for `fReduce` (at least 0.1) is never true for
an empty buffer. -/
structure Cfg.Ok (c : Cfg) : Prop where
  mtu : 8 ≤ c.mtu ∧ c.mtu < 2 ^ 31
  reduce : ∀ n, c.reduce 0 n = false

end Verif.Udp
