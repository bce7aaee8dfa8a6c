/-!
# Model of `mbs::ServerTransport`  (plugins/mbs/src/ServerTransport.cxx:297-521)

The server gives the buffers of its input to the transports of its clients, one
output port ("slot") for each.  The queue between a slot and the transport of a
client is `LocalTransport` (C24), the transport itself is the subject of C64 and
C79.  Every event which the module processes is one operation, calls of
`SendNextBuffer` too: loops over it (`ModuleAsync.cxx:108-160`) are sequences of
such operations.  Queues between a slot and a client block when they are
connected and drop the oldest buffer otherwise (`LocalTransport.cxx:349-446`,
default of `blocking`).

Left out: the server is running all the time, connections to other nodes which
the input port may have, statistics and debug output.
-/

namespace Verif.MbsServer

/-- A buffer with data or with type `mbt_EOF`. -/
inductive Item
  | data (n : Nat)
  | eof
deriving DecidableEq, Repr

/-- The queue of a slot: what is in it and the client whose transport is on the other side. -/
structure Link where
  items : List Item
  cli : Option Nat
deriving DecidableEq, Repr

/-- Events of the ports of the clients: `evntConnStop` and `evntPortDisconnect`. -/
inductive Ev
  | stop (n : Nat)
  | gone (n : Nat)
deriving DecidableEq, Repr

/-- `slots` are the output ports with their queues (`none`: a port without queue), `cap` is the capacity of these queues, `icap` of
the input.  `orphans` are queues which only the transport of a client has, `evs` the events to be processed.  `got` are the buffers
which a client took from its queue.  For the theorems only: all buffers which came to the input, those which were taken from it and
how many were taken when a client came. -/
structure S where
  blocking : Bool
  deliverAll : Bool
  limit : Nat
  icap : Nat
  cap : Nat
  inp : List Item := []
  slots : List (Option Link) := []
  orphans : List (Nat × List Item) := []
  evs : List Ev := []
  closing : Nat := 0
  next : Nat := 0
  got : Nat → List Item := fun _ => []
  came : List Item := []
  taken : List Item := []
  born : Nat → Nat := fun _ => 0

/-- Options of the url, `ServerTransport.cxx:327-335`: blocking and deliver all. -/
def options (transport nonblock blocking deliverall : Bool) : Bool × Bool :=
  (if nonblock then false else if blocking then true else transport, transport || deliverall)

/-- `IsOutputConnected`, `LocalTransport.h:79-83`. -/
def connected : Option Link → Bool
  | some l => l.cli.isSome
  | none => false

/-- `CanSend`, `LocalTransport.h:86-99, 142-144`. -/
def canSend (cap : Nat) : Option Link → Bool
  | some l => if l.items.length < cap then true else l.cli.isNone
  | none => true

/-- `Send`, `LocalTransport.cxx:57-139`; a port without queue drops the buffer (`LocalTransport.h:146`). -/
def put (cap : Nat) (b : Item) : Option Link → Option Link
  | some l => some { l with items := (if l.items.length < cap then l.items else l.items.drop 1) ++ [b] }
  | none => none

/-- `CanSendToAllOutputs(true)`, `Module.cxx:932-940`. -/
def allCan (s : S) : Bool := s.slots.all fun l => !connected l || canSend s.cap l

/-- `SendToAllOutputs`, `Module.cxx:942-973`. -/
def sendAll (cap : Nat) (b : Item) (slots : List (Option Link)) : List (Option Link) :=
  slots.map fun l => if canSend cap l then put cap b l else l

/-- What remains with the client when the port of the server is disconnected. -/
def orphan : Option Link → List (Nat × List Item)
  | some l => match l.cli with
    | some k => [(k, l.items)]
    | none => []
  | none => []

/-- `CloseTransport`, `Transport.cxx:172-176`: all ports are disconnected. -/
def close (s : S) : S :=
  { s with inp := [], slots := s.slots.map fun _ => none, orphans := s.orphans ++ (s.slots.map orphan).flatten, closing := 2 }

/-- `SendNextBuffer`, `ServerTransport.cxx:437-485`. -/
def sendNext (s : S) : S :=
  match s.inp with
  | [] => s
  | b :: rest =>
    if s.slots = [] ∧ s.blocking then s
    else if !allCan s && (s.deliverAll || decide (s.inp.length < s.icap)) then s
    else
      let s := { s with inp := rest, slots := sendAll s.cap b s.slots, taken := s.taken ++ [b] }
      if b = .eof then
        if s.slots = [] ∨ !s.blocking then close s else { s with closing := 1 }
      else s

/-- `Port::Disconnect` for a slot, `Port.h:118`, `LocalTransport.cxx:273-318`. -/
def cut (s : S) (n : Nat) : S :=
  match s.slots[n]? with
  | some l => { s with slots := s.slots.set n none, orphans := s.orphans ++ orphan l }
  | none => s

/-- `ProcessConnectionActivated` for a client which stopped, `ServerTransport.cxx:488-521`. -/
def onStop (s : S) (n : Nat) : S :=
  let s := cut s n
  if s.closing = 1 ∧ ¬ s.slots.any connected then close s else s

/-- The command `SocketConnect`, `ServerTransport.cxx:356-411`, with `LocalTransport::ConnectPorts` (`LocalTransport.cxx:349-464`): the
queue which a port still has is used again. -/
def connect (s : S) (fdOk iterOk : Bool) : S :=
  if !fdOk then s
  else if s.limit > 0 ∧ s.limit ≤ s.slots.countP connected then s
  else if !iterOk then s
  else
    let k := s.next
    let s := { s with next := k + 1, born := fun j => if j = k then s.taken.length else s.born j }
    let i := s.slots.findIdx fun l => !connected l
    match s.slots[i]? with
    | some (some l) => { s with slots := s.slots.set i (some { l with cli := some k }) }
    | some none => { s with slots := s.slots.set i (some ⟨[], some k⟩) }
    | none => { s with slots := s.slots ++ [some ⟨[], some k⟩] }

/-- The client has this queue. -/
def has (k : Nat) : Option Link → Bool
  | some l => l.cli == some k
  | none => false

/-- The transport of client `k` takes a buffer from its queue. -/
def take (s : S) (k : Nat) : S :=
  match s.slots.findIdx? (has k) with
  | some n =>
    match s.slots[n]? with
    | some (some ⟨b :: rest, c⟩) =>
      { s with slots := s.slots.set n (some ⟨rest, c⟩), got := fun j => if j = k then s.got j ++ [b] else s.got j }
    | _ => s
  | none =>
    match s.orphans.find? fun p => p.1 == k with
    | some (_, b :: rest) =>
      { s with
        orphans := s.orphans.map fun p => if p.1 = k then (k, rest) else p
        got := fun j => if j = k then s.got j ++ [b] else s.got j }
    | _ => s

/-- The transport of client `k` disconnects its port (`CloseTransport`), or gives up what it has alone. -/
def leave (s : S) (k : Nat) : S :=
  match s.slots.findIdx? (has k) with
  | some n =>
    match s.slots[n]? with
    | some (some l) => { s with slots := s.slots.set n (some { l with cli := none }), evs := s.evs ++ [.gone n] }
    | _ => s
  | none => { s with orphans := s.orphans.filter fun p => p.1 ≠ k }

/-- The transport of client `k` is destroyed: it stops while it is connected (`Module.cxx:536-552`, `Port.cxx:138-147`). -/
def destroy (s : S) (k : Nat) : S :=
  match s.slots.findIdx? (has k) with
  | some n => leave { s with evs := s.evs ++ [.stop n] } k
  | none => leave s k

inductive Op
  | arrive (b : Item)
  | turn
  | connect (fdOk iterOk : Bool)
  | take (k : Nat)
  | leave (k : Nat)
  | destroy (k : Nat)
  /-- The next event of the clients is processed (`Module.cxx:847-923`); when a port is disconnected it is released, as
  `fAutoStop` is set and no reconnection is configured. -/
  | event

def step (s : S) : Op → S
  | .arrive b => if s.closing ≠ 2 ∧ s.inp.length < s.icap then { s with inp := s.inp ++ [b], came := s.came ++ [b] } else s
  | .turn => if s.closing = 2 then s else sendNext s
  | .connect f i => if s.closing = 2 then s else connect s f i
  | .take k => take s k
  | .leave k => leave s k
  | .destroy k => destroy s k
  | .event =>
    if s.closing = 2 then s
    else match s.evs with
      | [] => s
      | .stop n :: r => onStop { s with evs := r } n
      | .gone n :: r => cut { s with evs := r } n

def run (s : S) (ops : List Op) : S := ops.foldl step s

/-- A new server. -/
def new (blocking deliverAll : Bool) (limit icap cap : Nat) : S := { blocking, deliverAll, limit, icap, cap }

end Verif.MbsServer
