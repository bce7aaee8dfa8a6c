/-!
# Packets of the command channel

`base/src/SocketCommandChannel.cxx:81-107, 210-295, 323-398, 450-488`, `base/dabc/SocketCommandChannel.h:30-45`,
`base/src/SocketThread.cxx:363-451, 544-663` (`StartSend`, `StartRecv`, completion of a receive operation).

Bytes are numbers below 256, the machine is little endian.  The receiver gets the stream byte by byte, a receive operation
is complete with its last byte; how the stream is cut in pieces has no effect (see `SocketNet`).  The receive buffer is a
list of bytes, `none` for bytes which were never written.

Simplified: the text of a command is a list of bytes and `ok` tells whether it can be decoded; the packet is handed over
as it is, what happens with it is in `SockCmd`; a timeout is a rational number below 4294967 seconds.
-/

namespace Verif.SockWire

/-- `SocketCmdPacket` (`SocketCommandChannel.h:30-45`). -/
structure Hdr where
  magic : Nat
  kind : Nat
  tmo : Nat
  size : Nat
  cmd : Nat
  raw : Nat
deriving DecidableEq, Repr

def le32 (n : Nat) : List Nat := [n % 256, n / 256 % 256, n / 65536 % 256, n / 16777216 % 256]

def rd32 (l : List Nat) (i : Nat) : Nat :=
  l.getD i 0 + 256 * l.getD (i + 1) 0 + 65536 * l.getD (i + 2) 0 + 16777216 * l.getD (i + 3) 0

/-- Memory of the header. -/
def Hdr.bytes (h : Hdr) : List Nat := le32 h.magic ++ le32 h.kind ++ le32 h.tmo ++ le32 h.size ++ le32 h.cmd ++ le32 h.raw

def Hdr.ofBytes (l : List Nat) : Hdr := ⟨rd32 l 0, rd32 l 4, rd32 l 8, rd32 l 12, rd32 l 16, rd32 l 20⟩

def headerDabc : Nat := 123707321
def headerConnect : Nat := 175404571
def protocolMsgSize : Nat := 100
def hdrSize : Nat := 24

/-- Conversion to `uint32_t`. -/
def u32 (n : Nat) : Nat := n % 4294967296

/-- A command or an answer with raw data in segments. -/
structure Msg where
  kind : Nat
  tmo : Nat
  cmd : List Nat
  raw : List (List Nat)

def Msg.rawSize (m : Msg) : Nat := u32 (m.raw.map List.length).sum

def Msg.hdr (m : Msg) : Hdr :=
  ⟨headerDabc, m.kind, m.tmo, u32 (u32 m.cmd.length + m.rawSize), u32 m.cmd.length, m.rawSize⟩

/-- `SendCommand` (`SocketCommandChannel.cxx:450-488`): bytes which are written to the socket; the raw data are taken from
the address of the first segment, `none` when they do not fit in it. -/
def Msg.send (m : Msg) : Option (List Nat) :=
  if m.rawSize = 0 then some (m.hdr.bytes ++ m.cmd)
  else match m.raw with
    | [] => none
    | seg :: _ => if m.rawSize ≤ seg.length then some (m.hdr.bytes ++ m.cmd ++ seg.take m.rawSize) else none

/-- Line 452: the timeout in milliseconds; a command without timeout has a negative one. -/
def sendTimeout (t : Rat) : Nat := if t > 0 then t.floor.toNat * 1000 else 0

/-- Lines 247-249: the timeout of the received command, in seconds. -/
def recvTimeout (tmo : Nat) : Option Rat := if tmo > 0 then some ((tmo : Rat) / 1000) else none

inductive Stage | header | data | dev
deriving DecidableEq, Repr

inductive Fate
  | opened
  | closed
  /-- Memory outside of the buffer or which was never written is read. -/
  | outside
  /-- The loop of `EnsureRecvBuffer` does not end. -/
  | hangs
deriving DecidableEq, Repr

inductive Out
  | packet (kind tmo : Nat) (cmd raw : List Nat)
  | redirect (l : List Nat)
deriving DecidableEq, Repr

structure Rx where
  stage : Stage := .header
  /-- Length of the receive operation and bytes it has got. -/
  want : Nat := 24
  got : List Nat := []
  hdr : Hdr := ⟨0, 0, 0, 0, 0, 0⟩
  /-- `fRecvBuf`, `fRecvBufSize` -/
  mem : List (Option Nat) := []
  out : List Out := []
  fate : Fate := .opened

structure Conf where
  /-- `cmd.ReadFromBuffer` -/
  ok : List Nat → Bool := fun _ => true
  /-- `fRedirectDevice` is set. -/
  redirect : Bool := false

/-- The loop of line 94; `fuel` runs out when it does not end. -/
def grow (strsize : Nat) : Nat → Nat → Option Nat
  | 0, _ => none
  | n + 1, sz => if sz ≤ strsize then grow strsize n (u32 (sz * 2)) else some sz

/-- `EnsureRecvBuffer` (`SocketCommandChannel.cxx:81-107`); 64 rounds are enough: after them the size is zero. -/
def ensure (mem : List (Option Nat)) (strsize : Nat) : Option (List (Option Nat)) :=
  if strsize > 0 ∧ strsize < mem.length then some mem
  else if strsize = 0 then some []
  else (grow strsize 64 2048).map (fun n => List.replicate n none)

/-- Bytes of the buffer. -/
def load (mem : List (Option Nat)) (pos len : Nat) : Option (List Nat) :=
  if pos + len ≤ mem.length then ((mem.drop pos).take len).mapM id else none

/-- `ProcessRecvPacket` (`SocketCommandChannel.cxx:210-295`). -/
def Rx.process (r : Rx) (cf : Conf) : Rx :=
  if r.hdr.kind = 4 ∨ r.hdr.cmd = 0 then { r with fate := .closed }
  else match load r.mem 0 r.hdr.cmd with
    | none => { r with fate := .outside }
    | some cmd =>
      if !cf.ok cmd then { r with fate := .closed }
      else
        let next := { r with stage := .header, want := hdrSize, got := [] }
        if r.hdr.kind = 1 ∨ r.hdr.kind = 2 then
          match (if r.hdr.raw > 0 then load r.mem r.hdr.cmd r.hdr.raw else some []) with
          | none => { r with fate := .outside }
          | some raw => { next with out := r.out ++ [.packet r.hdr.kind r.hdr.tmo cmd raw] }
        else if r.hdr.kind = 3 then { next with out := r.out ++ [.packet 3 r.hdr.tmo cmd []] }
        else next

/-- `evntSocketRecvInfo` (`SocketCommandChannel.cxx:323-398`). -/
def Rx.complete (r : Rx) (cf : Conf) : Rx :=
  match r.stage with
  | .data => { r with mem := r.got.map some ++ r.mem.drop r.got.length }.process cf
  | .dev => { r with out := r.out ++ [.redirect (r.hdr.bytes ++ r.got)], fate := .closed }
  | .header =>
    let h := Hdr.ofBytes r.got
    if h.magic = headerConnect then
      if cf.redirect then { r with hdr := h, stage := .dev, want := protocolMsgSize - hdrSize, got := [] }
      else { r with hdr := h, fate := .closed }
    else if h.magic ≠ headerDabc then { r with hdr := h, fate := .closed }
    else if h.size = 0 then { r with hdr := h }.process cf
    else match ensure r.mem h.size with
      | none => { r with hdr := h, fate := .hangs }
      | some mem => { r with hdr := h, mem := mem, stage := .data, want := h.size, got := [] }

/-- One byte comes. -/
def Rx.byte (cf : Conf) (r : Rx) (b : Nat) : Rx :=
  if r.fate ≠ .opened then r
  else if r.got.length + 1 = r.want then { r with got := r.got ++ [b] }.complete cf
  else { r with got := r.got ++ [b] }

def Rx.feed (cf : Conf) (r : Rx) (l : List Nat) : Rx := l.foldl (Rx.byte cf) r

end Verif.SockWire
