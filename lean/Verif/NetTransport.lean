/-!
# Model of `dabc::NetworkTransport`, base/src/NetworkTransport.cxx, base/dabc/NetworkTransport.h

One `Node` is one transport together with the two queues to its module and the two queues of the network interface
(`dabc::SocketNetworkInetrface`, base/src/SocketTransport.cxx).  A buffer is a number (its content), `0` the null buffer.
`wire` are the packets which were given to the network with `SubmitSend` and did not yet arrive at the other side; the
network keeps their order (the bytes of a packet are the subject of `Verif.SocketNet`).  `none` stands for the end of the
program: `exit(543)`, `exit(333)`, `exit(3)` of `LocalTransport::Send`, or `exit(432)` which follows when the number of a
record which could not be allocated is given to the network.

Simplifications: counters are natural numbers (no wrap at 2^32); the queues to the module are in their default mode
(blocking while connected); receive buffers have no identity, the memory pool answers with the number of buffers it can
give; nothing happens after the transport is closed (`isTransportError`); the queues of the network interface are not
limited (`C27_records_partial` shows that the limits which the code sets are sufficient).
-/

namespace Verif.NetTr

/-- `ENetworkOperTypes`, base/dabc/NetworkTransport.h:76-80. -/
inductive Kind where
  | data  -- netot_Send
  | recv  -- netot_Recv
  | ack   -- netot_HdrSend
  deriving DecidableEq, Repr

/-- `NetIORec`, base/dabc/NetworkTransport.h:56-65, without the pointers on the header. -/
structure Rec where
  used : Bool
  kind : Kind
  extras : Nat
  buf : Nat
  deriving DecidableEq, Repr

/-- What one `SubmitSend` sends. -/
inductive Pkt where
  | data (b : Nat)
  | ack (n : Nat)
  deriving DecidableEq, Repr

/-- Parameters of the transport: directions, `fUseAckn`, `fInputQueueCapacity`, `fOutputQueueCapacity`, and the capacity of
the queues between transport and module: `portCap` (module to transport), `oqCap` (transport to module). -/
structure Cfg where
  isInp : Bool
  isOut : Bool
  ackn : Bool
  inCap : Nat
  outCap : Nat
  portCap : Nat
  oqCap : Nat
  deriving DecidableEq, Repr

/-- Constructors of `Transport` (base/src/Transport.cxx:53-84) and `NetworkTransport` (base/src/NetworkTransport.cxx:50-63),
queues of `LocalTransport::ConnectPorts` (base/src/LocalTransport.cxx:383-384).  `inp`, `out` are the `QueueCapacity()` of the
ports of the module, `trInp`, `trOut` the configured values of `TransportQueue`. -/
def mkCfg (inp out : Option Nat) (ackn : Bool) (trInp trOut : Nat) : Cfg :=
  let inCap := inp.getD 0
  { isInp := inp.isSome, isOut := out.isSome, ackn := ackn
    inCap := if ackn && inCap < 2 then 2 else inCap
    outCap := out.getD 0
    portCap := match out with
      | none => 0
      | some q => max trOut q
    oqCap := match inp with
      | none => 0
      | some q => max trInp q }

/-- Capacity of `fAcknSendQueue`, base/src/NetworkTransport.cxx:100-101. -/
def Cfg.sendCap (c : Cfg) : Nat := if c.isInp && c.ackn then c.outCap else 0

structure Node where
  recs : List Rec
  counter : Nat
  outSize : Nat
  allowed : Nat
  sendQ : List Nat
  busy : Bool
  inSize : Nat
  first : Bool
  ready : Nat
  netSend : List Nat
  netRecv : List Nat
  port : List Nat
  outq : List Nat
  wire : List Pkt
  deriving DecidableEq, Repr

/-- Constructor, base/src/NetworkTransport.cxx:21-40, 79-98. -/
def Node.init (c : Cfg) : Node :=
  { recs := List.replicate (c.inCap + c.outCap + 1) ⟨false, .recv, 0, 0⟩
    counter := 0, outSize := 0, allowed := 0, sendQ := [], busy := false, inSize := 0, first := true, ready := 0
    netSend := [], netRecv := [], port := [], outq := [], wire := [] }

def usedAt (recs : List Rec) (i : Nat) : Bool :=
  match recs[i]? with
  | some r => r.used
  | none => true

/-- Loop of `TakeRec`, base/src/NetworkTransport.cxx:149-171: number of the record, or `none`, and the new `fRecsCounter`. -/
def takeLoop (recs : List Rec) : Nat → Nat → Option Nat × Nat
  | 0, counter => (none, counter)
  | cnt + 1, counter =>
    let next := (counter + 1) % recs.length
    if usedAt recs counter then takeLoop recs cnt next
    else (some counter, next)

/-- `TakeRec`, lines 146-168. -/
def takeRec (w : Node) (kind : Kind) (extras buf : Nat) : Option (Nat × Node) :=
  match takeLoop w.recs w.recs.length w.counter with
  | (none, _) => none
  | (some id, counter) => some (id, { w with recs := w.recs.set id ⟨true, kind, extras, buf⟩, counter := counter })

/-- `ReleaseRec`, lines 170-179 (the buffer is empty). -/
def releaseRec (w : Node) (id : Nat) : Node :=
  match w.recs[id]? with
  | none => w
  | some r => { w with recs := w.recs.set id { r with used := false, buf := 0 } }

/-- `PackHeader`, lines 182-215: what is sent for a record. -/
def packet (r : Rec) : Pkt :=
  match r.kind with
  | .ack => .ack r.extras
  | _ => .data r.buf

/-- `fNet->SubmitSend(recid)`, base/src/SocketTransport.cxx:68-74. -/
def submitSend (w : Node) (id : Nat) : Node :=
  match w.recs[id]? with
  | none => w
  | some r => { w with netSend := w.netSend ++ [id], wire := w.wire ++ [packet r] }

/-- `CheckAcknReadyCounter`, base/src/NetworkTransport.cxx:282-318. -/
def checkAck (c : Cfg) (w : Node) (newitems : Nat) : Option Node :=
  if !c.ackn || !c.isInp then some w
  else
    let w := { w with ready := w.ready + newitems }
    if w.busy then some w
    else
      let lim := if w.first then c.inCap else c.inCap / 2
      let lim := if lim < 1 then 1 else lim
      if w.ready < lim then some w
      else
        match takeRec { w with busy := true, ready := w.ready - lim, first := false } .ack lim 0 with
        | none => none
        | some (id, w) => some (submitSend w id)

/-- Loop of `FillRecvQueue`, lines 252-275.  First number: how often the condition of the loop still holds; second: buffers
which can be used for receiving. -/
def fillLoop (c : Cfg) : Nat → Nat → Node → Nat → Option (Node × Nat)
  | 0, _, w, newitems => some (w, newitems)
  | f + 1, bufs, w, newitems =>
    if c.isInp && bufs == 0 then some (w, newitems)
    else
      match takeRec w .recv 0 0 with
      | none => none
      | some (id, w) =>
        fillLoop c f (bufs - 1) { w with inSize := w.inSize + 1, netRecv := w.netRecv ++ [id] } (newitems + 1)

/-- `FillRecvQueue`, lines 218-280; `NumCanSend()` is base/dabc/LocalTransport.h:86-92. -/
def fill (c : Cfg) (w : Node) (bufs : Nat) : Option Node :=
  let limit := if c.isInp then c.oqCap - w.outq.length else c.inCap
  match fillLoop c (limit - w.inSize) bufs w 0 with
  | none => none
  | some (w, newitems) => checkAck c w newitems

/-- `SubmitAllowedSendOperations`, lines 320-327: loop over the content of `fAcknSendQueue`. -/
def submitLoop : List Nat → Node → Node
  | [], w => { w with sendQ := [] }
  | id :: q, w =>
    if w.allowed = 0 then { w with sendQ := id :: q }
    else submitLoop q (submitSend { w with allowed := w.allowed - 1 } id)

def submitAllowed (w : Node) : Node := submitLoop w.sendQ w

/-- One round of the loop of `ProcessInputEvent`, lines 436-455, for the buffer `b`. -/
def inputOne (c : Cfg) (w : Node) (b : Nat) : Option Node :=
  match takeRec w .data 0 b with
  | none => none
  | some (id, w) =>
    let w := { w with outSize := w.outSize + 1 }
    if 0 < c.sendCap then
      -- Queue::Push, base/dabc/Queue.h:215-224: nothing is stored when the queue is full
      if w.sendQ.length < c.sendCap then some { w with sendQ := w.sendQ ++ [id] } else some w
    else some (submitSend w id)

def inputLoop (c : Cfg) : List Nat → Node → Option Node
  | [], w => some w
  | b :: l, w =>
    match inputOne c w b with
    | none => none
    | some w => inputLoop c l w

/-- `ProcessInputEvent`, lines 432-458. -/
def processInput (c : Cfg) (w : Node) : Option Node :=
  (inputLoop c (w.port.drop w.outSize) w).map submitAllowed

/-- `ProcessSendCompl`, lines 329-362, for the record which the network has finished, base/src/SocketTransport.cxx:95-118. -/
def sendCompl (c : Cfg) (w : Node) : Option Node :=
  match w.netSend with
  | [] => some w
  | id :: q =>
    let w := { w with netSend := q }
    match w.recs[id]? with
    | none => none
    | some r =>
      match r.kind with
      | .data =>
        match w.port with
        | [] => none
        | _ :: port => some (releaseRec { w with outSize := w.outSize - 1, port := port } id)
      | .ack => checkAck c (releaseRec { w with busy := false } id) 0
      | .recv => some (releaseRec w id)

/-- `ProcessRecvCompl`, lines 364-420, when packet `p` arrives; `bufs` are the free buffers of the memory pool. -/
def recvCompl (c : Cfg) (w : Node) (p : Pkt) (bufs : Nat) : Option Node :=
  match w.netRecv with
  | [] => some w
  | id :: q =>
    let w := { w with netRecv := q }
    match p with
    | .ack n =>
      let w := submitAllowed { w with allowed := w.allowed + n }
      let w := releaseRec { w with inSize := w.inSize - 1 } id
      fill c w (bufs + 1)
    | .data b =>
      let w := releaseRec { w with inSize := w.inSize - 1 } id
      if c.isInp && w.outq.length < c.oqCap then some { w with outq := w.outq ++ [b] } else none

/-- What can happen at one side: the module puts a buffer in the queue, the transport gets the event of its input port, or
one of the events which call `FillRecvQueue` (start, output port, pool, timer; the number are the free buffers of the pool),
the module takes a buffer, the network finishes a send, or receives a packet. -/
inductive Op where
  | put (b : Nat)
  | input
  | fill (bufs : Nat)
  | take
  | sendDone
  | recv (bufs : Nat)
  deriving DecidableEq, Repr

/-- Two connected transports.  The histories are not part of the program: buffers put by the modules, packets
received, buffers taken by the modules. -/
structure Sys where
  a : Node
  b : Node
  putA : List Nat
  putB : List Nat
  gotA : List Pkt
  gotB : List Pkt
  takA : List Nat
  takB : List Nat
  deriving DecidableEq, Repr

def Sys.swap (s : Sys) : Sys :=
  { a := s.b, b := s.a, putA := s.putB, putB := s.putA, gotA := s.gotB, gotB := s.gotA,
    takA := s.takB, takB := s.takA }

def Sys.init (ca cb : Cfg) : Sys :=
  { a := Node.init ca, b := Node.init cb, putA := [], putB := [], gotA := [], gotB := [], takA := [], takB := [] }

/-- One operation at side `a`.  Operations which are not possible change nothing. -/
def stepA (ca : Cfg) (s : Sys) : Op → Option Sys
  | .put x =>
    if s.a.port.length < ca.portCap then
      some { s with a := { s.a with port := s.a.port ++ [x] }, putA := s.putA ++ [x] }
    else some s
  | .input => (processInput ca s.a).map fun w => { s with a := w }
  | .fill bufs => (fill ca s.a bufs).map fun w => { s with a := w }
  | .take =>
    some { s with a := { s.a with outq := s.a.outq.tail }, takA := s.takA ++ s.a.outq.head?.toList }
  | .sendDone => (sendCompl ca s.a).map fun w => { s with a := w }
  | .recv bufs =>
    match s.b.wire with
    | [] => some s
    | p :: l =>
      if s.a.netRecv = [] then some s
      else
        (recvCompl ca s.a p bufs).map fun w => { s with a := w, b := { s.b with wire := l }, gotA := s.gotA ++ [p] }

/-- Operation at side `a` (`true`) or `b`. -/
def step (ca cb : Cfg) (s : Sys) (o : Bool × Op) : Option Sys :=
  match o.1 with
  | true => stepA ca s o.2
  | false => (stepA cb s.swap o.2).map Sys.swap

def run (ca cb : Cfg) : List (Bool × Op) → Sys → Option Sys
  | [], s => some s
  | o :: l, s =>
    match step ca cb s o with
    | none => none
    | some s => run ca cb l s

end Verif.NetTr
