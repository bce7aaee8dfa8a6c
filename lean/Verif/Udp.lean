import Verif.HadTu

/-!
# Model of the UDP receiver, plugins/hadaq/src/UdpTransport.cxx

`hadaq::NewAddon` (ReadUdp, CloseBuffer) and `hadaq::NewTransport` (AssignNewBuffer, BufferReady, ProcessSend, ProcessBuffer,
FlushBuffer). `none` stands for memory accesses outside of a buffer.

* Datagrams which arrived and were not read are kept in `net`; `recv` takes the first one and cuts it to `fMTU` bytes. Other
  errors of `recv` end the call like `EAGAIN` does (nobody looks at the result of `ReadUdp`).
* Buffers have names; `mem` is the content of the first segment (the receiver uses only this one), `total` the size given with
  `SetTotalSize`. Buffers in the queue of the pool connection are in `pool`.
* `room` is the number of buffers the output accepts; `CanSend(0)` tells whether it is positive.
* Counters (`uint64_t`) are natural numbers. `fReduce` is seen as a test on the filled size and the size of the buffer, the random
  new value of `fLostCnt` is any function of the number of packets dropped before.
* Debug output and time measurements are left out.
-/

namespace Verif.Udp

open Verif.Bytes Verif.Pointer Verif.HadTu

structure Cfg where
  /-- `fMTU` -/
  mtu : Nat
  /-- `fMaxLoopCnt` -/
  maxLoop : Nat
  /-- `fTgtPtr.consumed_size() > fReduce` with the distance to the begin and the size of the buffer -/
  reduce : Nat → Nat → Bool
  /-- new value of `fLostCnt` (line 164, 165) -/
  lost : Nat → Int

structure St where
  mem : Nat → List Byte
  total : Nat → Nat
  /-- name of the next buffer -/
  fresh : Nat
  pool : List Nat
  /-- `fNumReadyBufs` -/
  ready : Nat
  /-- `fBufAssigned` -/
  assigned : Bool
  /-- `fTgtPtr`: buffer and offset -/
  tgt : Option (Nat × Nat)
  /-- `fMtuBuffer` -/
  scratch : List Byte
  running : Bool
  /-- `CloseTransport` was called -/
  closed : Bool
  skipCnt : Nat
  lostCnt : Int
  sendCnt : Nat
  lastSendCnt : Nat
  net : List (List Byte)
  room : Nat
  sent : List (List Byte)
  recvPacket : Nat
  recvBytes : Nat
  discPacket : Nat
  disc32 : Nat
  discBytes : Nat
  lostPacket : Nat
  artSkip : Nat
  produced : Nat

/-- `fTgtPtr.rawsize()`. -/
def rawsize (st : St) (t : Nat × Nat) : Nat := (st.mem t.1).length - t.2

/-- `fTgtPtr.null()`, base/dabc/Pointer.h:147. -/
def noTgt (st : St) : Bool :=
  match st.tgt with
  | none => true
  | some t => decide (rawsize st t = 0)

/-- Change one place of a function. -/
def put (f : Nat → α) (k : Nat) (v : α) : Nat → α := fun j => if j = k then v else f j

/-- `NewAddon::CloseBuffer`, UdpTransport.cxx:92-105. -/
def closeBuffer (st : St) : St × Bool :=
  match st.tgt with
  | none => (st, false)
  | some (b, off) =>
    if noTgt st then (st, false)
    else if off = 0 then (st, false)
    else ({ st with total := put st.total b off, tgt := none, sendCnt := st.sendCnt + 1, produced := st.produced + 1 }, true)

/-- `NewTransport::ProcessSend`, UdpTransport.cxx:390-399: what is sent are the first `total` bytes of the first buffer in the queue. -/
def processSend (st : St) : St × Bool :=
  let st :=
    if st.ready > 0 then
      match st.pool with
      | [] => { st with ready := st.ready - 1, room := st.room - 1 }
      | b :: rest =>
        { st with pool := rest, ready := st.ready - 1, room := st.room - 1, sent := st.sent ++ [(st.mem b).take (st.total b)] }
    else st
  (st, decide (st.ready > 0))

/-- `while (CanSend(0)) if (!ProcessSend(0)) break;`, UdpTransport.cxx:455-456; every turn uses up room. -/
def sendLoop : Nat → St → St
  | 0, st => st
  | n + 1, st =>
    if st.room = 0 then st
    else
      let r := processSend st
      if r.2 then sendLoop n r.1 else r.1

/-- `NewTransport::BufferReady`, UdpTransport.cxx:450-457. -/
def bufferReady (st : St) : St :=
  let st := { st with assigned := false, ready := st.ready + 1 }
  sendLoop (st.room + 1) st

/-- `NewTransport::AssignNewBuffer`, UdpTransport.cxx:415-448. -/
def assignNew (c : Cfg) (st : St) : St × Bool :=
  if st.assigned || decide (st.pool.length ≤ st.ready) then (st, false)
  else if !noTgt st then (st, false)
  else
    match st.pool[st.ready]? with
    | none => ({ st with closed := true }, false)
    | some b =>
      let st := { st with tgt := some (b, 0), assigned := true }
      if rawsize st (b, 0) < c.mtu then ({ st with closed := true }, false) else (st, true)

/-- `recv(Socket(), tgt, fMTU, …)` writing `got` at the target (line 147): new state and the memory starting with the target. -/
def receive (mtubuf : Bool) (st : St) (got : List Byte) : Option (St × List Byte) :=
  if mtubuf then
    if got.length ≤ st.scratch.length then
      let s := got ++ st.scratch.drop got.length
      some ({ st with scratch := s }, s)
    else none
  else
    match st.tgt with
    | none => none
    | some (b, off) =>
      if off + got.length ≤ (st.mem b).length then
        let s := (st.mem b).take off ++ got ++ (st.mem b).drop (off + got.length)
        some ({ st with mem := put st.mem b s }, s.drop off)
      else none

/-- Outcome of the checks of lines 170-181. -/
inductive Check where
  | good (padded : Nat)
  | badSize
  | badTrailer
  deriving DecidableEq

/-- Lines 170-181: `msgsize` is an `int` made of an `uint32_t` sum. -/
def check (area : List Byte) (res : Nat) : Option Check :=
  match getPadded [area] (start (sizesOf [area])) with
  | none => none
  | some p =>
    if (res : Int) ≠ (BitVec.ofNat 32 (p + 32)).toInt then some .badSize
    else if p + 32 ≤ area.length then
      if (area.drop p).take 32 = area.take 32 then some (.good p) else some .badTrailer
    else none

/-- `fTotalDiscardPacket++; fTotalDiscardBytes += res`. -/
def discard (st : St) (res : Nat) : St := { st with discPacket := st.discPacket + 1, discBytes := st.discBytes + res }

/-- Lines 211-221 for a packet with `p` bytes and `res` received bytes, with the target at (`b`, `off`). The flag tells that the loop
goes on. -/
def accept (c : Cfg) (st : St) (b off p res : Nat) : St × Bool :=
  let st := { st with recvPacket := st.recvPacket + 1, recvBytes := st.recvBytes + res }
  let st := { st with tgt := some (b, off + p) }
  if rawsize st (b, off + p) < c.mtu || c.reduce (off + p) (st.mem b).length then
    let st := bufferReady (closeBuffer st).1
    assignNew c st
  else (st, true)

/-- The loop of lines 139-222. -/
def readLoop (c : Cfg) (mtubuf : Bool) : Nat → St → Option St
  | 0, st => some st
  | n + 1, st =>
    match st.net with
    | [] => some st
    | d :: net =>
      let st := { st with net := net }
      if d = [] then some st
      else
        let got := d.take c.mtu
        match receive mtubuf st got with
        | none => none
        | some (st, area) =>
          if st.lostCnt = 1 then
            let st := { st with lostCnt := c.lost st.lostPacket, lostPacket := st.lostPacket + 1 }
            readLoop c mtubuf n st
          else
            let st := if st.lostCnt > 0 then { st with lostCnt := st.lostCnt - 1 } else st
            match check area got.length with
            | none => none
            | some .badSize => readLoop c mtubuf n (discard st got.length)
            | some .badTrailer => readLoop c mtubuf n (discard { st with disc32 := st.disc32 + 1 } got.length)
            | some (.good p) =>
              if mtubuf then some (discard st got.length)
              else
                match st.tgt with
                | none => none
                | some (b, off) =>
                  let r := accept c st b off p got.length
                  if r.2 then readLoop c mtubuf n r.1 else some r.1

/-- `NewAddon::ReadUdp`, UdpTransport.cxx:108-225. -/
def readUdp (c : Cfg) (st : St) : Option St :=
  if !st.running then some st
  else
    let r : St × Bool := if noTgt st then assignNew c st else (st, true)
    if r.2 = false && decide (r.1.skipCnt < 10) then
      some { r.1 with skipCnt := r.1.skipCnt + 1, artSkip := r.1.artSkip + 1 }
    else if r.2 = false then readLoop c true c.maxLoop { r.1 with skipCnt := r.1.skipCnt + 1 }
    else
      match r.1.tgt with
      | none => none
      | some t => if rawsize r.1 t < c.mtu then some r.1 else readLoop c false c.maxLoop { r.1 with skipCnt := 0 }

/-- `NewTransport::FlushBuffer`, UdpTransport.cxx:459-471. -/
def flushBuffer (c : Cfg) (onclose : Bool) (st : St) : St :=
  let st :=
    if onclose || decide (st.lastSendCnt = st.sendCnt) then
      let r := closeBuffer st
      if r.2 then
        let st := bufferReady r.1
        if onclose then st else (assignNew c st).1
      else r.1
    else st
  { st with lastSendCnt := st.sendCnt }

/-- What can happen to the transport; `start` and `stop` are `StartTransport` and `StopTransport` (lines 343-361), `poolEvent` is
`ProcessBuffer` (401-413), `sendEvent` a `ProcessSend` called because the output accepts buffers, `read` a socket event or the heartbeat
timer (59-70, 363-372), `flush` the flush timer; `arrive`, `provide` and `free` are done by the network, the pool and the receiver of
the buffers. -/
inductive Op where
  | start
  | stop
  | read
  | flush
  | poolEvent
  | sendEvent
  | arrive (d : List Byte)
  | provide (content : List Byte)
  | free

def step (c : Cfg) (st : St) : Op → Option St
  | .start => some { (assignNew c st).1 with running := true }
  | .stop => some { flushBuffer c true st with running := false }
  | .read => readUdp c st
  | .flush => some (flushBuffer c false st)
  | .poolEvent =>
    let r := assignNew c st
    if r.2 then readUdp c r.1 else some r.1
  | .sendEvent => some (if st.room > 0 then (processSend st).1 else st)
  | .arrive d => some { st with net := st.net ++ [d] }
  | .provide content => some { st with mem := put st.mem st.fresh content, fresh := st.fresh + 1, pool := st.pool ++ [st.fresh] }
  | .free => some { st with room := st.room + 1 }

/-- After construction (lines 35-52, 288-314); the content of `fMtuBuffer` is not known. -/
def init (lostCnt : Int) (scratch : List Byte) : St :=
  { mem := fun _ => [], total := fun _ => 0, fresh := 0, pool := [], ready := 0, assigned := false, tgt := none, scratch := scratch,
    running := false, closed := false, skipCnt := 0, lostCnt := lostCnt, sendCnt := 0, lastSendCnt := 0, net := [], room := 0, sent := [],
    recvPacket := 0, recvBytes := 0, discPacket := 0, disc32 := 0, discBytes := 0, lostPacket := 0, artSkip := 0, produced := 0 }

def run (c : Cfg) : St → List Op → Option St
  | st, [] => some st
  | st, o :: os => (step c st o).bind fun st => run c st os

end Verif.Udp
