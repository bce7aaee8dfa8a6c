import Verif.Bytes

/-!
# Model of the byte stream of a network connection

`dabc::NetworkTransport::PackHeader`/`ProcessRecvCompl` (base/src/NetworkTransport.cxx), `dabc::SocketNetworkInetrface`
(base/src/SocketTransport.cxx) and the read and write events of `dabc::SocketIOAddon` (base/src/SocketThread.cxx), for a stream
socket.  The kernel is a list of bytes `net`: every write takes any non-zero number of bytes, every read returns any non-zero
number of those which are there.

Simplifications: memory of a receive buffer is the list of its segment sizes and the bytes received in this order; a null
buffer has no segments; receive operations are submitted at any time (`post`), also those which `ProcessRecvCompl` submits;
after the transport is closed (`closed`) nothing happens; the size of a buffer is less than 2^32 (`BufferSize_t`).
-/

namespace Verif.SocketNet
open Verif.Bytes

/-- What is sent for one record: an acknowledge packet, a null buffer, or a buffer with its segments. -/
inductive Msg where
  | ack (n : Nat)
  | null
  | buf (typ : Nat) (segs : List (List Byte))
  deriving DecidableEq, Repr

/-- What the receiving transport gets: number of an acknowledge packet, or type and content of a buffer. -/
inductive Rx where
  | ack (n : Nat)
  | buf (typ : Nat) (data : List Byte)
  deriving DecidableEq, Repr

/-- `NetworkHeader` (base/dabc/NetworkTransport.h:67-74) followed by the inline data. -/
def header (kind typ size : Nat) (inl : List Byte) : List Byte :=
  enc 4 123 ++ (enc 4 kind ++ (enc 4 typ ++ (enc 4 size ++ inl)))

/-- `PackHeader`, base/src/NetworkTransport.cxx:182-215.  `junk` is the old content of the memory for inline data.  The flag
tells that the buffer is sent, too. -/
def packHeader (m : Msg) (junk : List Byte) : List Byte × Bool :=
  match m with
  | .ack n => (header 4 4 n junk, false)
  | .null => (header 1 0 0 junk, false)
  | .buf typ segs =>
    let size := segs.flatten.length
    if 0 < size && size ≤ 32 then (header 1 typ size (segs.flatten ++ junk.drop size), false)
    else (header 1 typ size junk, true)

structure Snd where
  queue : List (Msg × List Byte)
  busy : Bool
  iov : List (List Byte)
  closed : Bool
  deriving DecidableEq, Repr

/-- `OnSendCompleted` from line 108, base/src/SocketTransport.cxx:95-140, with `StartSend` and `StartNetSend`,
base/src/SocketThread.cxx:363-407, 503-540. -/
def sendNext (s : Snd) : Snd :=
  match s.queue with
  | [] => { s with busy := false, iov := [] }
  | (m, junk) :: q =>
    let h := packHeader m junk
    let segs := match m with
      | .buf _ segs => segs
      | _ => []
    { s with queue := q, busy := true, iov := h.1 :: (if h.2 then segs else []) }

/-- `SubmitSend`, base/src/SocketTransport.cxx:68-74. -/
def submit (s : Snd) (m : Msg) (junk : List Byte) : Snd :=
  let s := { s with queue := s.queue ++ [(m, junk)] }
  if s.busy then s else sendNext s

/-- Loop after `sendmsg`, base/src/SocketThread.cxx:722-747: what remains of the segments. -/
def advance : Nat → List (List Byte) → List (List Byte)
  | _, [] => []
  | 0, iov => iov
  | n, r :: l => if r.length ≤ n then advance (n - r.length) l else r.drop n :: l

/-- `evntSocketWrite`, lines 671-755: the kernel takes `r` bytes, if that many are offered.  `msg` is `fSendUseMsg`.
Result: bytes which were written. -/
def write (msg : Bool) (s : Snd) (r : Nat) : Snd × List Byte :=
  match s.iov with
  | [] => (s, [])
  | seg :: l =>
    let offer := if msg then (seg :: l).flatten.length else seg.length
    let n := min (max 1 r) offer
    if n = 0 then ({ s with closed := true }, [])
    else
      let rest := advance n (seg :: l)
      let s := { s with iov := rest }
      (if rest = [] then sendNext s else s, (seg :: l).flatten.take n)

structure Rcv where
  queue : List (List Nat)
  status : Nat
  cur : List Nat
  iov : List Nat
  acc : List Byte
  hdr : List Byte
  done : List Rx
  closed : Bool
  deriving DecidableEq, Repr

/-- Start of the next operation, base/src/SocketTransport.cxx:203-228 (stream socket). -/
def recvNext (s : Rcv) : Rcv :=
  match s.queue with
  | [] => { s with status := 0, iov := [], acc := [] }
  | b :: q => { s with queue := q, cur := b, status := 1, iov := [48], acc := [] }

/-- `SubmitRecv`, base/src/SocketTransport.cxx:76-84. -/
def post (s : Rcv) (b : List Nat) : Rcv :=
  let s := { s with queue := s.queue ++ [b] }
  if s.status = 0 then recvNext s else s

def hdrChk (h : List Byte) : Nat := dec (h.take 4)
def hdrKind (h : List Byte) : Nat := dec ((h.drop 4).take 4)
def hdrTyp (h : List Byte) : Nat := dec ((h.drop 8).take 4)
def hdrSize (h : List Byte) : Nat := dec ((h.drop 12).take 4)

/-- `kind & netot_HdrSend` -/
def hdrAck (h : List Byte) : Bool := hdrKind h / 4 % 2 == 1

/-- `ProcessRecvCompl`, base/src/NetworkTransport.cxx:364-420, for a record with header `hdr` where `data` was received. -/
def processRecv (s : Rcv) (hdr data : List Byte) : Rcv :=
  if hdrChk hdr ≠ 123 then { s with closed := true }
  else if hdrAck hdr then { s with done := s.done ++ [.ack (hdrSize hdr)] }
  else
    let data := if 0 < hdrSize hdr && hdrSize hdr ≤ 32 then ((hdr.drop 16).take (hdrSize hdr)) else data
    { s with done := s.done ++ [.buf (hdrTyp hdr) data] }

/-- Loop of `StartNetRecv`, base/src/SocketThread.cxx:485-495. -/
def clip : List Nat → Nat → List Nat
  | [], _ => []
  | seg :: l, size =>
    let n := if seg > size then size else seg
    if n = 0 then [] else n :: clip l (size - n)

/-- `OnRecvCompleted`, base/src/SocketTransport.cxx:142-201, when the operation with bytes `acc` is done. -/
def recvCompleted (s : Rcv) : Rcv :=
  if s.status = 2 then recvNext (processRecv s s.hdr s.acc)
  else if s.status = 1 then
    let s := { s with hdr := s.acc }
    if hdrAck s.hdr then recvNext (processRecv s s.hdr [])
    else if hdrSize s.hdr > s.cur.sum then { s with closed := true }
    else if s.cur = [] then { s with closed := true }
    else { s with status := 2, acc := [], iov := clip s.cur (hdrSize s.hdr) }
  else s

/-- Loop after `recvmsg`, base/src/SocketThread.cxx:629-660. -/
def advanceLen : Nat → List Nat → List Nat
  | _, [] => []
  | 0, iov => iov
  | n, r :: l => if r ≤ n then advanceLen (n - r) l else (r - n) :: l

/-- `evntSocketRead`, lines 550-668: the kernel gives `r` bytes of `net`, if they fit in the segments. -/
def read (msg : Bool) (s : Rcv) (net : List Byte) (r : Nat) : Rcv × List Byte :=
  match s.iov with
  | [] => (s, net)
  | seg :: l =>
    let room := if msg then (seg :: l).sum else seg
    let n := min (max 1 r) (min room net.length)
    if n = 0 then (s, net)
    else
      let rest := advanceLen n (seg :: l)
      let s := { s with iov := rest, acc := s.acc ++ net.take n }
      (if rest = [] then recvCompleted s else s, net.drop n)

/-- One direction of a connection.  `sub` and `posted` are histories: what was submitted for sending (with the content of the
memory for inline data), and the receive buffers. -/
structure Sys where
  snd : Snd
  rcv : Rcv
  net : List Byte
  sub : List (Msg × List Byte)
  posted : List (List Nat)
  deriving DecidableEq, Repr

inductive Op where
  | submit (m : Msg) (junk : List Byte)
  | post (b : List Nat)
  | write (msg : Bool) (r : Nat)
  | read (msg : Bool) (r : Nat)
  deriving DecidableEq, Repr

def Sys.init : Sys :=
  { snd := { queue := [], busy := false, iov := [], closed := false }
    rcv := { queue := [], status := 0, cur := [], iov := [], acc := [], hdr := [], done := [], closed := false }
    net := [], sub := [], posted := [] }

def step (s : Sys) (o : Op) : Sys :=
  match o with
  | .submit m junk =>
    if s.snd.closed then s else { s with snd := submit s.snd m junk, sub := s.sub ++ [(m, junk)] }
  | .post b => if s.rcv.closed then s else { s with rcv := post s.rcv b, posted := s.posted ++ [b] }
  | .write msg r =>
    if s.snd.closed then s
    else { s with snd := (write msg s.snd r).1, net := s.net ++ (write msg s.snd r).2 }
  | .read msg r =>
    if s.rcv.closed then s
    else { s with rcv := (read msg s.rcv s.net r).1, net := (read msg s.rcv s.net r).2 }

def run : List Op → Sys → Sys
  | [], s => s
  | o :: l, s => run l (step s o)

end Verif.SocketNet
