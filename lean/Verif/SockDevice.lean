import Verif.Bytes

/-!
# Establishing socket connections: `dabc::SocketDevice`

`base/src/SocketDevice.cxx:30-564`, `base/dabc/SocketDevice.h:27-85`.

A request of the connection manager becomes a record (`NewConnectRec`) which waits, at most for
the time-out of the request, until a socket with the right connection id was found.  The client
side sends a message of 100 bytes with the connection id, the server side answers with `accepted`
or `denied`; afterwards both sides make a network transport for their request.

Everything happens on the thread of the device, therefore an execution is a list of operations.
What is simplified:

* Records are C++ objects on the heap.  The address of a new record is an input of the operation
  (any address where no record lives now), so that addresses can be used again.  Access to a record
  which was deleted sets the flag `bad`.
* `fClient` and `fProtocol` of a record only serve for messages of the log and are left out (the
  *access* to `fProtocol` of a deleted record in `RemoveProtocolAddon` is modelled).
* Time is counted in milliseconds by integers.  When the timer fires is an input (`last_diff`).
* The nested event loop of `MakeWorkerFor` only assigns the addon to its thread (and therefore runs
  `OnThreadAssigned`); further events which are already waiting may be processed there in the code.
* Bytes of `fOutBuf` which are never written are inputs (`junk`).
* Whether `CreateClientAddon` and `NetworkTransport::Make` succeed is an input.
-/

namespace Verif.SockDevice

open Verif.Bytes

abbrev Id := List Byte

/-! ## Messages -/

/-- `headerConnect` (`SocketDevice.h:71`). -/
def headerConnect : Nat := 175404571

/-- `ProtocolMsgSize` (`SocketDevice.h:72`). -/
def msgSize : Nat := 100

/-- `SocketServerTmout`, 0.2 s (`SocketDevice.cxx:25`), in ms. -/
def extraTm : Int := 200

/-- The C string at the begin of a piece of memory; `none`: there is no zero byte. -/
def cstr : List Byte → Option (List Byte)
  | [] => none
  | b :: l => if b = 0 then some [] else (cstr l).map (b :: ·)

/-- `strncpy(dst, s, n)`: all `n` bytes are written, the zero byte only if it fits. -/
def strncpy (n : Nat) (s : List Byte) : List Byte := s.take n ++ List.replicate (n - s.length) 0

/-- The bytes of `"accepted"`. -/
def txtAccepted : List Byte := [0x61, 0x63, 0x63, 0x65, 0x70, 0x74, 0x65, 0x64]

/-- The bytes of `"denied"`. -/
def txtDenied : List Byte := [0x64, 0x65, 0x6e, 0x69, 0x65, 0x64]

/-- The message of the client (`SocketDevice.cxx:132-133`): header and connection id; the last byte
of `fOutBuf` is not written.  `fRec->ConnId()` is `fConnId.c_str()`. -/
def clientMsg (junk : Byte) (id : Id) : List Byte :=
  enc 4 headerConnect ++ (strncpy (msgSize - 4 - 1) ((cstr (id ++ [0])).getD []) ++ [junk])

/-- The answer of the server (`SocketDevice.cxx:484,500`): `strcpy` into a buffer whose other bytes
keep their values. -/
def serverMsg (junk : List Byte) (acc : Bool) : List Byte :=
  ((if acc then txtAccepted else txtDenied) ++ 0 :: junk).take msgSize

/-- `strcmp(inmsg, "accepted") == 0` (`SocketDevice.cxx:526`).  `strcmp` stops at the first
difference, therefore it reads at most 9 bytes. -/
def isAccepted (msg : List Byte) : Bool := msg.take 9 == txtAccepted ++ [0]

/-! ## State -/

/-- `NewConnectRec` (`SocketDevice.cxx:33-67`). -/
structure Rec where
  /-- `fConnId` -/
  id : Id
  /-- `fTmOut` -/
  tm : Int
  /-- `fLocalCmd` -/
  cmd : Nat
  deriving DecidableEq, Repr

/-- What a `SocketProtocolAddon` waits for. -/
inductive Phase
  /-- server: `StartRecv` done, the request did not come -/
  | wait
  /-- server: `StartSend` of the answer done -/
  | answer
  /-- client: request is sent, answer is expected -/
  | ask
  deriving DecidableEq, Repr

/-- `SocketProtocolAddon` (`SocketDevice.cxx:73-187`). -/
structure Proto where
  /-- `fRec` -/
  ptr : Option Nat
  phase : Phase
  /-- ghost: the connection id for which `fRec` was set -/
  key : Id
  deriving DecidableEq, Repr

/-- A network transport which was created (ghost). -/
structure Made where
  /-- command of the request which got the transport -/
  cmd : Nat
  /-- connection id of this request -/
  id : Id
  /-- addon whose socket is used -/
  addon : Nat
  /-- connection id which was agreed on this socket -/
  key : Id
  deriving DecidableEq, Repr

structure Dev where
  /-- `fConnRecs`: addresses and contents of the records -/
  recs : List (Nat × Rec) := []
  /-- all protocol addons which exist -/
  protos : List (Nat × Proto) := []
  /-- `fProtocols` -/
  list : List Nat := []
  /-- replies to commands of the connection manager -/
  replies : List (Nat × Bool) := []
  /-- answers sent by the server side: addon and `accepted` -/
  sends : List (Nat × Bool) := []
  made : List Made := []
  /-- a deleted record, or memory behind the buffer of the message, was used -/
  bad : Bool := false
  deriving DecidableEq, Repr

/-- The record at an address. -/
def Dev.rec? (s : Dev) (p : Nat) : Option Rec := (s.recs.find? (·.1 == p)).map (·.2)

/-- The protocol addon `a`. -/
def Dev.proto? (s : Dev) (a : Nat) : Option Proto := (s.protos.find? (·.1 == a)).map (·.2)

/-- Replace the state of addon `a`. -/
def Dev.setProto (s : Dev) (a : Nat) (p : Proto) : Dev :=
  { s with protos := s.protos.map fun q => if q.1 = a then (a, p) else q }

/-- `DeleteWorker()` of the addon `a`. -/
def Dev.delProto (s : Dev) (a : Nat) : Dev :=
  { s with protos := s.protos.filter fun q => q.1 != a }

/-- `_FindRec` (`SocketDevice.cxx:279-288`): the first record with this id. -/
def Dev.find (s : Dev) (id : Id) : Option (Nat × Rec) := s.recs.find? fun r => r.2.id == id

/-- `fConnRecs.remove(rec)` and `DestroyRec(rec, res)` (`SocketDevice.cxx:268-277`). -/
def Dev.destroy (s : Dev) (p : Nat) (r : Rec) (res : Bool) : Dev :=
  { s with
    recs := s.recs.filter fun q => q.1 != p
    replies := s.replies ++ [(r.cmd, res)] }

/-- `RemoveProtocolAddon` (`SocketDevice.cxx:548-564`). -/
def Dev.removeProtocol (s : Dev) (a : Nat) (ptr : Option Nat) (res : Bool) : Dev :=
  match ptr with
  | none => { s with list := s.list.erase a }
  | some p =>
    match s.rec? p with
    | some r => s.destroy p r res
    | none => { s with bad := true }

/-- Does a record fail in `CleanupRecs(d)` (`SocketDevice.cxx:303-305`)? -/
def expires (d : Int) (r : Rec) : Bool := r.tm - d < 0 || d < 0

/-- `CleanupRecs` (`SocketDevice.cxx:290-320`). -/
def Dev.cleanup (s : Dev) (d : Int) : Dev :=
  { s with
    recs := (s.recs.filter fun q => !expires d q.2).map fun q => (q.1, { q.2 with tm := q.2.tm - d })
    replies := s.replies ++ (s.recs.filter fun q => expires d q.2).map fun q => (q.2.cmd, false) }

/-- `ServerProtocolRequest` and `StartSend` of the answer (`SocketDevice.cxx:482-506`, called from
`172-173` and `141-142`).  `buf` is what follows the message in memory (the answer buffer with
`denied`): reading there is marked as `bad`. -/
def Dev.serverRequest (s : Dev) (a : Nat) (msg : List Byte) : Dev :=
  if dec (msg.take 4) ≠ headerConnect then
    { s.setProto a ⟨none, .answer, []⟩ with sends := s.sends ++ [(a, false)] }
  else
    match cstr (msg.drop 4) with
    | none =>
      { s.setProto a ⟨none, .answer, []⟩ with
        sends := s.sends ++ [(a, false)]
        bad := s.bad || !s.recs.isEmpty }
    | some id =>
      match s.find id with
      | none => { s.setProto a ⟨none, .answer, []⟩ with sends := s.sends ++ [(a, false)] }
      | some pr =>
        { s.setProto a ⟨some pr.1, .answer, id⟩ with
          sends := s.sends ++ [(a, true)]
          list := s.list.erase a }

/-- `ProtocolCompleted` and `DeleteWorker` (`SocketDevice.cxx:508-546`).  `res` is true on the
server side, on the client side it tells whether the answer is `accepted`; `ok` is the result of
`NetworkTransport::Make`. -/
def Dev.completed (s : Dev) (a : Nat) (p : Proto) (res ok : Bool) : Dev :=
  match p.ptr with
  | none => { s.delProto a with list := s.list.erase a }
  | some q =>
    match s.rec? q with
    | none => { s.delProto a with list := s.list.erase a }
    | some r =>
      let s := if res && ok then { s with made := s.made ++ [⟨r.cmd, r.id, a, p.key⟩] } else s
      (s.removeProtocol a (some q) (res && ok)).delProto a

/-! ## Operations -/

inductive Op
  /-- `HandleManagerConnectionRequest` in the state `progrDoingConnect`
  (`SocketDevice.cxx:349-387`): connection id, time-out, address of the record, command; `ok` is
  true on the server side, on the client side: `CreateClientAddon` gave an addon -/
  | request (id : Id) (tm : Int) (addr cmd : Nat) (ok : Bool)
  /-- `SocketConnect` of type `Server` (`SocketDevice.cxx:413-421`): socket `a` was accepted -/
  | incoming (a : Nat)
  /-- `RedirectConnect` (`SocketDevice.cxx:462-473`): the command channel hands over a socket
  together with the first message -/
  | redirect (a : Nat) (msg : List Byte)
  /-- `SocketConnect` of type `Client` (`SocketDevice.cxx:423-441`): socket `a` is connected -/
  | clientUp (id : Id) (a : Nat)
  /-- `SocketConnect` of type `Error` (`SocketDevice.cxx:443-458`) -/
  | clientErr (id : Id)
  /-- `OnRecvCompleted` of addon `a` (`SocketDevice.cxx:168-185`) -/
  | recv (a : Nat) (msg : List Byte) (ok : Bool)
  /-- `OnSendCompleted` of addon `a` (`SocketDevice.cxx:150-166`) -/
  | sent (a : Nat) (ok : Bool)
  /-- `OnSocketError` of addon `a` (`SocketDevice.cxx:106-116`) -/
  | err (a : Nat)
  /-- `ProcessTimeout(d)` (`SocketDevice.cxx:322-325`) -/
  | timeout (d : Int)
  deriving Repr

/-- One operation.  Operations which cannot happen (an address which is in use, an event of an
addon which does not exist) change nothing. -/
def Dev.step (s : Dev) : Op → Dev
  | .request id tm addr cmd ok =>
    if ok then
      if (s.rec? addr).isSome then s
      else
        { s with recs := s.recs ++ [(addr, ⟨id, tm + extraTm, cmd⟩)] }
    else { s with replies := s.replies ++ [(cmd, false)] }
  | .incoming a =>
    if (s.proto? a).isSome then s
    else { s with protos := s.protos ++ [(a, ⟨none, .wait, []⟩)], list := s.list ++ [a] }
  | .redirect a msg =>
    if (s.proto? a).isSome then s
    else
      let t := ({ s with protos := s.protos ++ [(a, ⟨none, .wait, []⟩)] } : Dev).serverRequest a msg
      { t with list := t.list ++ [a] }
  | .clientUp id a =>
    if (s.proto? a).isSome then s
    else
      match s.find id with
      | none => s
      | some pr => { s with protos := s.protos ++ [(a, ⟨some pr.1, .ask, pr.2.id⟩)] }
  | .clientErr id =>
    match s.find id with
    | none => s
    | some pr => s.destroy pr.1 pr.2 false
  | .recv a msg ok =>
    match s.proto? a with
    | none => s
    | some p =>
      match p.phase with
      | .wait => s.serverRequest a msg
      | .answer => s
      | .ask => s.completed a p (isAccepted msg) ok
  | .sent a ok =>
    match s.proto? a with
    | none => s
    | some p =>
      match p.phase with
      | .answer => s.completed a p true ok
      | .wait => s
      | .ask => s
  | .err a =>
    match s.proto? a with
    | none => s
    | some p => (s.removeProtocol a p.ptr false).delProto a
  | .timeout d => s.cleanup d

def Dev.run (s : Dev) : List Op → Dev
  | [] => s
  | o :: ops => (s.step o).run ops

end Verif.SockDevice
