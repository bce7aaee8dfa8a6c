import Verif.Bytes
/-!
# Model of the workers sending commands to MBS

Code: `plugins/mbs/src/Monitor.cxx:1198-1367` (`mbs::DaqRemCmdWorker`) and 1371-1535
(`mbs::PrompterWorker`), `plugins/mbs/mbs/Monitor.h:111-203`,
`mbs::SwapData` (`plugins/mbs/src/MbsTypeDefs.cxx:190-200`).

Both workers are the same machine with another record on the wire.  The events come one after the
other in the thread of the worker: a command, a complete record from the socket, loss of the
connection and the timeout.

Simplified: the socket accepts every record (`StartSend` refuses while the previous record is not
yet written, `base/src/SocketThread.cxx:367-370`; the reply to that record has been received
before the next one is sent); a received record is the complete receive buffer; printing
(`NewSendCommand`) is left out; destruction of the worker is left out.
-/

namespace Verif.MbsCmd
open Verif.Bytes

/-- Which worker; the prompter puts host name and `:` before the command. -/
inductive Proto where
  | rem
  | prompter (pfx : List Byte)
deriving DecidableEq

/-- A command: identification of the submitter and the text of the field `cmd`. -/
structure Cmd where
  tag : Nat
  text : List Byte
deriving DecidableEq

structure St where
  /-- `fAddon` is there -/
  conn : Bool
  /-- timeout of the worker is active -/
  timer : Bool
  /-- `fCmds` -/
  cmds : List Cmd
  /-- `fState == ioWaitReply` -/
  wait : Bool
  /-- `fSendCmdId` -/
  sendId : Nat
  /-- `fSendBuf` of the prompter -/
  buf : List Byte
  /-- records given to the socket -/
  sent : List (List Byte)
  /-- replies to commands -/
  replies : List (Cmd × Bool)
  /-- `exit(5)` was called -/
  exited : Bool
  /-- more bytes were written into `fSendBuf` than it has -/
  ub : Bool
deriving DecidableEq

inductive Op where
  /-- `ExecuteCommand` with `CmdHierarchyExec` -/
  | submit (c : Cmd)
  /-- `evntSocketSendInfo` -/
  | sendInfo
  /-- `evntSocketRecvInfo` with the content of `fRecvBuf` -/
  | recv (r : List Byte)
  /-- `evntSocketErrorInfo`, `evntSocketCloseInfo` -/
  | close
  /-- `ProcessTimeout`; does `StartClient` succeed? -/
  | timeout (ok : Bool)

/-- C string: up to the first zero. -/
def cstr (l : List Byte) : List Byte := l.takeWhile (· != 0)

/-- Word `k` of a buffer in memory. -/
def word (r : List Byte) (k : Nat) : Nat := dec ((r.drop (4 * k)).take 4)

/-- The same word after `SwapData` (MbsTypeDefs.cxx:196-199). -/
def swapped (r : List Byte) (k : Nat) : Nat := dec ((r.drop (4 * k)).take 4).reverse

/-- Length check (Monitor.cxx:1344-1345, 1517-1518).  `sizeof(fSendBuf) - fPrefix.length()` is computed with
64 bit unsigned numbers. -/
def tooLong : Proto → List Byte → Bool
  | .rem, t => decide (512 - 1 ≤ t.length)
  | .prompter pfx, t =>
    if pfx.length ≤ 256 then decide (256 - pfx.length ≤ t.length)
    else decide (2 ^ 64 + 256 - pfx.length ≤ t.length)

/-- `if (++fSendCmdId > 0x7fff0000) fSendCmdId = 1` (Monitor.cxx:1359). -/
def nextId (i : Nat) : Nat := if 0x7fff0000 < i + 1 then 1 else i + 1

/-- `strncpy` of at most 511 bytes into the cleared `c_cmd` (Monitor.cxx:1361-1365). -/
def remRecord (i : Nat) (t : List Byte) : List Byte :=
  let s := (cstr t).take 511
  enc 4 1 ++ enc 4 i ++ enc 4 0 ++ s ++ List.replicate (512 - s.length) 0

/-- `strcpy` and `strcat` (Monitor.cxx:1532-1533): the rest of the buffer keeps its content. -/
def prompterBuf (old pfx t : List Byte) : List Byte :=
  let s := cstr pfx ++ cstr t ++ [0]
  s ++ old.drop s.length

/-- What a received record means for the command waiting for its reply
(Monitor.cxx:1258-1280, Monitor.h:120-123; 1431-1453); `none`: the command still waits. -/
def judge (P : Proto) (i : Nat) (r : List Byte) : Option Bool :=
  match P with
  | .rem =>
    let w := if word r 0 = 1 then word r else swapped r
    if w 0 ≠ 1 then none
    else if w 1 = 0xffffffff then none
    else some (decide (w 2 = 0 ∧ i = w 1))
  | .prompter _ =>
    let w := if word r 0 = 1 then word r else swapped r
    some (decide (w 0 = 1 ∧ w 1 = 0))

/-- Filling and sending of the record (Monitor.cxx:1357-1366, 1530-1534). -/
def send (P : Proto) (s : St) (t : List Byte) : St :=
  match P with
  | .rem =>
    { s with wait := true, sendId := nextId s.sendId,
             sent := s.sent ++ [remRecord (nextId s.sendId) t] }
  | .prompter pfx =>
    let b := prompterBuf s.buf pfx t
    { s with wait := true, buf := b, sent := s.sent ++ [b], ub := s.ub || decide (256 < b.length) }

/-- `ProcessNextMbsCommand` after the checks of state and connection (Monitor.cxx:1344-1366,
1517-1534). -/
def sendNext (P : Proto) (s : St) : List Cmd → St
  | [] => { s with cmds := [] }
  | c :: l =>
    if tooLong P c.text then
      sendNext P { s with replies := s.replies ++ [(c, false)] } l
    else send P { s with cmds := c :: l } c.text

/-- `ProcessNextMbsCommand` (Monitor.cxx:1330-1342, 1503-1515). -/
def next (P : Proto) (s : St) : St :=
  if s.wait then s
  else if s.cmds = [] then s
  else if !s.conn then { s with exited := true }
  else sendNext P s s.cmds

/-- `fCmds.Pop().Reply(res)`, `fState = ioInit` -/
def answer (s : St) (res : Bool) : St :=
  match s.cmds with
  | [] => s
  | c :: l => { s with cmds := l, wait := false, replies := s.replies ++ [(c, res)] }

/-- A record is received, without the check of the connection (Monitor.cxx:1258-1282, 1431-1455). -/
def received (P : Proto) (s : St) (r : List Byte) : St :=
  if s.wait then
    match judge P s.sendId r with
    | some res => answer s res
    | none => s
  else s

/-- One event (Monitor.cxx:1248-1328, 1422-1501). -/
def step (P : Proto) (s : St) (o : Op) : St :=
  if s.exited then s else
  match o with
  | .submit c => next P { s with cmds := s.cmds ++ [c] }
  | .sendInfo => s
  | .recv r =>
    let s := received P s r
    if s.conn then s else { s with timer := true }
  | .close =>
    let s := { s with conn := false, timer := true }
    if s.wait then answer s false else s
  | .timeout ok =>
    if !s.timer then s
    else if s.conn || ok then next P { s with conn := true, timer := false }
    else s

/-- Constructor and `OnThreadAssigned` (Monitor.cxx:1198-1244, 1371-1419); does `StartClient`
succeed, content of the uninitialised `fSendBuf`. -/
def init (ok : Bool) (buf : List Byte) : St :=
  { conn := ok, timer := !ok, cmds := [], wait := false, sendId := 1, buf, sent := [],
    replies := [], exited := false, ub := false }

def run (P : Proto) (s : St) (ops : List Op) : St := ops.foldl (step P) s

end Verif.MbsCmd
