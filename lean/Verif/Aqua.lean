/-!
# Output to an AQUA server

`aqua::ClientOutput`, plugins/aqua/src/ClientOutput.cxx:21-182, together with what `OutputTransport` does with it (C64):
base/src/DataTransport.cxx:704-889, and `Factory::CreateTransport`, base/src/Factory.cxx:82-92, which calls `Write_Init`
before the thread of the transport is assigned (base/dabc/Worker.h:139-143).

Simplified: a buffer is a number.  Time is a natural number.  Whether `StartClient` connects is an input.  The socket thread
reports completion and errors of a socket only while there is one (base/src/SocketThread.cxx:1532).  The thread is
assigned before the first buffer comes.  Stop of the transport and end of data are left out.
-/

namespace Verif.Aqua

/-- `OutputState`. -/
inductive St where
  | disconnected | ready | sending | complete | error
  deriving DecidableEq, Repr

/-- `fOutState` of the transport: `outReady`, `outWaitFinishCallback`, after `outError`. -/
inductive Tr where
  | ready | wait | closed
  deriving DecidableEq, Repr

/-- What was sent: number of the connection, `counter` of the header, the buffer, whether the sending was completed. -/
structure Packet where
  conn : Nat
  counter : Nat
  buf : Nat
  done : Bool
  deriving DecidableEq, Repr

structure S where
  tmout : Nat
  now : Nat
  /-- `fLastConnect`; 0 is null -/
  last : Nat := 0
  st : St := .disconnected
  /-- `fSocket`: number of the connection -/
  socket : Option Nat := none
  /-- `fBufCounter` -/
  counter : Nat := 0
  tr : Tr := .ready
  /-- call-back events in the queue of the transport -/
  cb : Nat := 0
  /-- the packet which is being sent -/
  cur : Option Packet := none
  /-- all buffers which the transport took from its port -/
  taken : List Nat := []
  packets : List Packet := []
  /-- connection attempts -/
  attempts : List Nat := []
  /-- a call-back came in a wrong state, base/src/DataTransport.cxx:732 -/
  wrong : Bool := false
  deriving DecidableEq, Repr

/-- `ConnectAquaServer`, plugins/aqua/src/ClientOutput.cxx:87-107; `ok`: `StartClient` connects. -/
def connect (ok : Bool) (s : S) : S × Bool :=
  let s : S := { s with socket := none }
  if ¬ (s.now > s.last + s.tmout) then (s, false)
  else
    let s : S := { s with last := s.now, attempts := s.attempts ++ [s.now] }
    if ok then ({ s with socket := some s.attempts.length }, true) else (s, false)

/-- `OnThreadAssigned`, plugins/aqua/src/ClientOutput.cxx:21-26. -/
def assigned (ok : Bool) (s : S) : S :=
  let r := connect ok s
  if r.2 then { r.1 with st := .ready } else r.1

/-- `Write_Init`, plugins/aqua/src/ClientOutput.cxx:110-116. -/
def init (ok : Bool) (s : S) : S :=
  if s.st ≠ .ready then assigned ok s else s

/-- `Write_Buffer`, plugins/aqua/src/ClientOutput.cxx:140-155, and base/src/DataTransport.cxx:806-835. -/
def write (b : Nat) (s : S) : S :=
  let s : S := { s with taken := s.taken ++ [b] }
  if s.st ≠ .ready then { s with tr := .closed }
  else
    { s with
      st := .sending
      cur := some ⟨s.socket.getD 0, s.counter, b, false⟩
      counter := s.counter + 1
      tr := .wait }

/-- `Write_Check`, plugins/aqua/src/ClientOutput.cxx:118-138, and base/src/DataTransport.cxx:755-804: one buffer
is at the port. -/
def offer (ok : Bool) (b : Nat) (s : S) : S :=
  match s.st with
  | .disconnected | .error =>
    let r := connect ok s
    if r.2 then write b { r.1 with st := .ready }
    else { r.1 with counter := r.1.counter + 1, taken := r.1.taken ++ [b] }
  | .ready => write b s
  | _ => { s with tr := .closed }

/-- `OnSendCompleted`, plugins/aqua/src/ClientOutput.cxx:28-32; `MakeCallBack` queues an event. -/
def sent (s : S) : S :=
  match s.cur with
  | none => s
  | some p => { s with st := .complete, cb := s.cb + 1, cur := none, packets := s.packets ++ [{ p with done := true }] }

/-- `OnSocketError`, plugins/aqua/src/ClientOutput.cxx:41-49. -/
def sockErr (err : Bool) (s : S) : S :=
  { s with
    cb := if s.st = .sending then s.cb + 1 else s.cb
    packets := s.packets ++ s.cur.toList
    cur := none
    st := if err then .error else .disconnected }

/-- Event `evCallBack`, base/src/DataTransport.cxx:704-736, 842-866, with `Write_Complete`,
plugins/aqua/src/ClientOutput.cxx:157-166. -/
def callback (s : S) : S :=
  let s : S := { s with cb := s.cb - 1 }
  if s.tr = .wait then { s with st := if s.st = .complete then .ready else s.st, tr := .ready }
  else { s with wrong := true }

inductive Act where
  | tick (d : Nat)
  | init (ok : Bool)
  | assigned (ok : Bool)
  | offer (ok : Bool) (b : Nat)
  | sent
  | sockErr (err : Bool)
  | callback
  deriving DecidableEq, Repr

/-- `none`: not possible in this state. -/
def step (s : S) : Act → Option S
  | .tick d => some { s with now := s.now + d }
  | .init ok => if s.taken = [] then some (init ok s) else none
  | .assigned ok => if s.taken = [] then some (assigned ok s) else none
  | .offer ok b => if s.tr = .ready then some (offer ok b s) else none
  | .sent => if s.socket.isSome ∧ s.cur.isSome then some (sent s) else none
  | .sockErr e => if s.socket.isSome then some (sockErr e s) else none
  | .callback => if 0 < s.cb then some (callback s) else none

def run (s : S) : List Act → Option S
  | [] => some s
  | a :: as => (step s a).bind fun t => run t as

def new (tmout now : Nat) : S := { tmout := tmout, now := now }

end Verif.Aqua
