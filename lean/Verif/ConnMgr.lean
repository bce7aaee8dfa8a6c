/-!
# Connection manager

`base/src/ConnectionManager.cxx`, `base/dabc/ConnectionManager.h`,
`base/dabc/ConnectionRequest.h:117-145` (delays),
`base/src/ConnectionRequest.cxx:85-109` (`ChangeState` with `force`).

The manager keeps a list of references on connection objects (`fRecs`).  It is a module: its methods run in one
thread.  What other threads do is an operation of its own (`Op.answerRemote`, `Op.setIds`, `Op.setState`) or an
argument of an operation (which devices exist, which addresses can be decomposed, how long the command still may
take).

Simplifications.

* Names, addresses and identifiers are numbers, `0` is the empty string; they are only compared and copied.
* Times are integers (milliseconds in the examples).
* `fCustomData` is left out (`TakeCustomData` returns a copy, nothing is ever taken).
* An object which `FindPar` does not find: the call returns without an effect, there is no operation for it.
* Changing fields of the object is modelled in `Verif/ConnObject.lean`; here fields are only read, apart from time
  out and acknowledge which the client takes from the server, and `SetConnTimeout(10.)` of `ResetConnData`, which has
  an effect only in state init.
-/

namespace Verif.ConnMgr

/-- `ConnectionObject::EState` (`ConnectionRequest.h:57-65`). -/
inductive St | init | pending | connecting | connected | disconnected | broken | failed
deriving DecidableEq, Repr

/-- `ConnectionManager::EConnProgress` (`ConnectionManager.h:176-184`). -/
inductive Progress | init | doingInit | pending | waitReply | doingConnect | connected | failed
deriving DecidableEq, Repr

/-- Results of commands; `again` is the 77 of `ExecuteCommand`. -/
inductive Res | ok | no | timedout | again
deriving DecidableEq, Repr

/-- The unique identifier `<address>_Conn<number>` (`ConnectionManager.cxx:98`), `none` is the empty string. -/
abbrev ConnId := Option (Nat × Nat)

/-- What the server writes into the answer (`ConnectionManager.cxx:442-447`). -/
structure Info where
  connId : ConnId
  serverId : Nat
  inline : Int
  timeout : Int
  ackn : Bool
deriving DecidableEq, Repr

/-- Connection object, as far as the manager uses it (`ConnectionRequest.h:74-99`). -/
structure Rec where
  localUrl : Nat
  remoteUrl : Nat
  server : Bool
  opt : Bool
  port : Bool := true
  dev : Nat := 1
  state : St := .pending
  progress : Progress := .init
  timeout : Int := 10000
  ackn : Bool := false
  serverId : Nat := 0
  clientId : Nat := 0
  connId : ConnId := none
  inline : Int := 0
  remote : Option Nat := none
  acc : Int := 0
  set : Int := 0
deriving DecidableEq, Repr

/-- What can be seen from outside. -/
inductive Out
  /-- `SetProgress`. -/
  | progress (id : Nat) (p : Progress)
  /-- `ChangeState` of the manager. -/
  | state (id : Nat) (s : St)
  /-- `CmdConnectionManagerHandle` submitted to the device. -/
  | handle (id : Nat)
  /-- `CmdGlobalConnect` submitted to the remote node. -/
  | connect (id : Nat) (url1 url2 client : Nat) (timeout : Int)
  /-- Arguments put into the command of the remote node. -/
  | filled (cmd : Nat) (info : Info)
  /-- Answer to a command. -/
  | answer (cmd : Nat) (res : Res)
deriving DecidableEq, Repr

structure Mgr where
  objs : Nat → Rec
  recs : List Nat := []
  cmd : Option Nat := none
  doing : Int := 0
  counter : Nat := 0
  addr : Nat := 1
  out : List Out := []

/-- Change of one object. -/
def Mgr.upd (m : Mgr) (id : Nat) (f : Rec → Rec) : Mgr :=
  { m with objs := fun k => if k = id then f (m.objs k) else m.objs k }

def Mgr.emit (m : Mgr) (l : List Out) : Mgr := { m with out := m.out ++ l }

/-- `SetProgress` (`ConnectionManager.h:61`). -/
def Mgr.setProgress (m : Mgr) (id : Nat) (p : Progress) : Mgr :=
  (m.upd id fun r => { r with progress := p }).emit [.progress id p]

/-- `SetDelay` (`ConnectionRequest.h:122-132`). -/
def Rec.delay (r : Rec) (v : Int) (force : Bool) : Rec :=
  if force then { r with set := 0, acc := v }
  else { r with set := if v > 0 then v else 0, acc := 0 }

/-- `CheckDelay` (`ConnectionRequest.h:135-145`). -/
def Rec.check (r : Rec) (shift : Int) : Rec × Int :=
  if r.set > 0 then ({ r with acc := r.set, set := 0 }, r.set)
  else ({ r with acc := r.acc - shift }, r.acc - shift)

/-- `ChangeState(state, true)` (`ConnectionRequest.cxx:85-109`). -/
def Mgr.changeState (m : Mgr) (id : Nat) (s : St) : Mgr :=
  if (m.objs id).state = s then m
  else (m.upd id fun r => { r with state := s }).emit [.state id s]

def answers : Option Nat → Res → List Out
  | none, _ => []
  | some c, r => [.answer c r]

/-- `ReplyRemoteCommand` (`ConnectionManager.h:64-73`). -/
def Mgr.replyRemote (m : Mgr) (id : Nat) (ok : Bool) : Mgr :=
  (m.upd id fun r => { r with remote := none }).emit
    (answers (m.objs id).remote (if ok then .ok else .no))

/-- The fields cleared by `ResetConnData` before it answers the command (`ConnectionManager.h:87-94`). -/
def Rec.clear (r : Rec) : Rec :=
  { r with progress := .init, timeout := if r.state = .init then 10000 else r.timeout, serverId := 0, clientId := 0,
           connId := none }

/-- `ResetConnData` (`ConnectionManager.h:85-100`). -/
def Mgr.reset (m : Mgr) (id : Nat) : Mgr :=
  (((m.emit [.progress id .init]).upd id Rec.clear).replyRemote id false).upd id (fun r => r.delay 0 true)

/-- `fConnCmd.Reply…`: does nothing without a command, releases the command (`Command.cxx:225-258`). -/
def Mgr.answer (m : Mgr) (r : Res) : Mgr := { m.emit (answers m.cmd r) with cmd := none }

/-- The server gives the connection its identifier (`ConnectionManager.cxx:97-98`). -/
def Mgr.number (m : Mgr) (id : Nat) : Mgr :=
  if (m.objs id).server then
    Mgr.upd { m with counter := m.counter + 1 } id fun r => { r with connId := some (m.addr, m.counter) }
  else m

/-- `ProcessParameterEvent` behind the checks (`ConnectionManager.cxx:92-110`). -/
def register (m : Mgr) (id : Nat) (broken : Bool) : Mgr :=
  let n : Mgr := (m.reset id).number id
  { n with recs := n.recs ++ [id], doing := if n.doing = 0 ∧ n.cmd = none ∧ broken then 1 else n.doing }

/-- `ProcessParameterEvent` (`ConnectionManager.cxx:67-112`). -/
def paramEvent (m : Mgr) (id : Nat) (value : St) (terminated : Bool) : Mgr :=
  if terminated then m else
  if value ≠ .pending ∧ value ≠ .broken then m else
  if id ∈ m.recs then m else register m id (value = .broken)

/-- `ModuleCleanup` (`ConnectionManager.cxx:115-129`): from the end of the list. -/
def cleanup (m : Mgr) : Mgr :=
  let m : Mgr := { m with doing := 0 }.answer .no
  { m.recs.reverse.foldl (fun m id => m.changeState id .failed) m with recs := [] }

/-- One record in the loop of `CheckConnectionRecs` (`ConnectionManager.cxx:144-162`): it leaves the list. -/
def leave (m : Mgr) (id : Nat) (s : St) : Mgr := (m.reset id).changeState id s

/-- Loop of `CheckConnectionRecs` (`ConnectionManager.cxx:134-169`): `kept` are the records already passed. -/
def checkLoop : List Nat → Mgr → Bool → Bool → Mgr × List Nat × Bool × Bool
  | [], m, err, only => (m, [], err, only)
  | id :: ids, m, err, only =>
    match (m.objs id).progress with
    | .failed => checkLoop ids (leave m id .failed) (err || !(m.objs id).opt) only
    | .connected => checkLoop ids (leave m id .connected) err only
    | _ =>
      let r := checkLoop ids m err (only && (m.objs id).opt)
      (r.1, id :: r.2.1, r.2.2)

/-- `fDoingConnection = 0` when no record is left (`ConnectionManager.cxx:175,178`). -/
def Mgr.idle (m : Mgr) : Mgr := { m with doing := if m.recs = [] then 0 else m.doing }

/-- `CheckConnectionRecs` behind the loop (`ConnectionManager.cxx:171-194`). -/
def conclude (m : Mgr) (err only finish : Bool) : Mgr :=
  if err then (m.answer .no).idle
  else if m.recs = [] then m.idle.answer .ok
  else if finish then m.answer (if only then .ok else .timedout)
  else m

/-- `CheckConnectionRecs` (`ConnectionManager.cxx:132-195`). -/
def checkRecs (m : Mgr) (finish : Bool) : Mgr :=
  let r := checkLoop m.recs m false true
  conclude { r.1 with recs := r.2.1 } r.2.2.1 r.2.2.2 finish

/-- One record in `ProcessTimeout` whose delay is over (`ConnectionManager.cxx:215-314`).
`devs` says which devices exist, `addrs` which addresses can be decomposed. -/
def act (devs addrs : Nat → Bool) (m : Mgr) (id : Nat) : Mgr :=
  let r := m.objs id
  match r.progress with
  | .init =>
    if devs r.dev = false ∨ r.port = false then m.setProgress id .failed
    else ((m.setProgress id .doingInit).upd id (fun r => r.delay 5000 true)).emit [.handle id]
  | .doingInit => m.setProgress id .failed
  | .pending =>
    if r.server then m.upd id (fun r => r.delay 2000 true)
    else if addrs r.remoteUrl = false then m.setProgress id .failed
    else ((m.setProgress id .waitReply).upd id (fun r => r.delay (r.timeout + 1000) true)).emit
      [.connect id r.remoteUrl r.localUrl r.clientId r.timeout]
  | _ => m

/-- One turn of the loop of `ProcessTimeout` (`ConnectionManager.cxx:204-215`). -/
def turn (devs addrs : Nat → Bool) (diff : Int) (m : Mgr) (id : Nat) : Mgr :=
  let c := (m.objs id).check diff
  let m := m.upd id (fun _ => c.1)
  if c.2 > 0 then m else act devs addrs m id

/-- `fConnCmd.TimeTillTimeout(-0.5)` (`Command.cxx:132-144`). -/
def Mgr.left (m : Mgr) (t : Int) : Int := if m.cmd = none then -1 else t

/-- `ProcessTimeout` (`ConnectionManager.cxx:198-324`). -/
def timeout (devs addrs : Nat → Bool) (diff t : Int) (m : Mgr) : Mgr :=
  if m.doing = 0 then m else
  checkRecs (m.recs.foldl (turn devs addrs diff) m) (m.left t = 0)

/-- `FindConnection` (`ConnectionManager.cxx:326-335`). -/
def find (m : Mgr) (loc rem : Nat) : Option Nat :=
  m.recs.find? fun id => (m.objs id).localUrl = loc ∧ (m.objs id).remoteUrl = rem

/-- What the server side writes into record and command (`ConnectionManager.cxx:437-452`). -/
def fill (m : Mgr) (cmd id client : Nat) : Mgr :=
  let r := m.objs id
  if r.server then
    (m.upd id fun r => { r with clientId := client }).emit
      [.filled cmd { connId := r.connId, serverId := r.serverId, inline := r.inline, timeout := r.timeout,
                     ackn := r.ackn }]
  else m

/-- `FillAnswerOnRemoteConnectCmd` behind the search for the device (`ConnectionManager.cxx:437-463`). -/
def fillAnswer (m : Mgr) (cmd id client : Nat) : Mgr :=
  (((fill m cmd id client).upd id fun r => { r.delay 100000 false with remote := some cmd }).setProgress id
    .doingConnect).emit [.handle id]

/-- `ExecuteCommand` for `CmdGlobalConnect` (`ConnectionManager.cxx:340-384`). -/
def globalConnect (devs : Nat → Bool) (m : Mgr) (cmd url1 url2 client : Nat) : Mgr :=
  match find m url1 url2 with
  | none => m.emit [.answer cmd .no]
  | some id =>
    match (m.objs id).progress with
    | .init => m.emit [.answer cmd .again]
    | .doingInit => m.emit [.answer cmd .again]
    | .pending =>
      if devs (m.objs id).dev then fillAnswer m cmd id client else m.emit [.answer cmd .no]
    | _ => m.emit [.answer cmd .no]

/-- `ExecuteCommand` for `ActivateConnections` and `ShutdownConnection` (`ConnectionManager.cxx:387-409`). -/
def activate (m : Mgr) (cmd : Nat) (doing : Int) : Mgr :=
  { m.answer .no with doing := doing, cmd := some cmd }

/-- What the client takes from the answer of the server (`ConnectionManager.cxx:501-519`). -/
def Rec.take (r : Rec) (i : Info) : Rec :=
  if r.server then r
  else { r with serverId := i.serverId, connId := i.connId, timeout := i.timeout, ackn := i.ackn, inline := i.inline }

/-- `HandleCmdGlobalConnectReply` (`ConnectionManager.cxx:467-542`). -/
def connectReply (devs : Nat → Bool) (m : Mgr) (url1 url2 : Nat) (res : Res) (i : Info) : Mgr :=
  match find m url2 url1 with
  | none => m
  | some id =>
    match (m.objs id).progress with
    | .waitReply =>
      if res ≠ .ok then
        (m.setProgress id .pending).upd id fun r =>
          r.delay (if res = .again then (if r.server then 2000 else 200) else 1000) false
      else
        let m := m.upd id fun r => r.take i
        if devs (m.objs id).dev = false then m
        else ((m.upd id fun r => r.delay 100000 false).setProgress id .doingConnect).emit [.handle id]
    | _ => m

/-- `HandleConnectRequestCmdReply` (`ConnectionManager.cxx:544-591`). -/
def handleReply (m : Mgr) (id : Nat) (ok : Bool) : Mgr :=
  if ok = false then (m.setProgress id .failed).replyRemote id false
  else
    match (m.objs id).progress with
    | .doingInit => (m.setProgress id .pending).upd id fun r => r.delay (if r.server then 2000 else 0) false
    | .doingConnect => checkRecs (m.setProgress id .connected) false
    | _ => m

/-- Operations of the manager and of the other threads. -/
inductive Op
  | event (id : Nat) (value : St) (terminated : Bool)
  | timeout (devs addrs : Nat → Bool) (diff t : Int)
  | globalConnect (devs : Nat → Bool) (cmd url1 url2 client : Nat)
  | activate (cmd : Nat)
  | shutdown (cmd : Nat)
  | connectReply (devs : Nat → Bool) (url1 url2 : Nat) (res : Res) (i : Info)
  | handleReply (id : Nat) (ok : Bool)
  /-- The device answers the command of the remote node (`SocketDevice.cxx:380`). -/
  | answerRemote (id : Nat) (ok : Bool)
  /-- The device sets identifiers (`SocketDevice.cxx:343-345`). -/
  | setIds (id serverId clientId : Nat)
  /-- A module changes the state of the connection (`Module.cxx:840,862,864`), or `MakeConnReq` does. -/
  | setState (id : Nat) (s : St)

def step (m : Mgr) : Op → Mgr
  | .event id v t => paramEvent m id v t
  | .timeout devs addrs d t => timeout devs addrs d t m
  | .globalConnect devs c u1 u2 cl => globalConnect devs m c u1 u2 cl
  | .activate c => activate m c 1
  | .shutdown c => activate m c (-1)
  | .connectReply devs u1 u2 r i => connectReply devs m u1 u2 r i
  | .handleReply id ok => handleReply m id ok
  | .answerRemote id ok => m.replyRemote id ok
  | .setIds id s c => m.upd id fun r => { r with serverId := s, clientId := c }
  | .setState id s => m.upd id fun r => { r with state := s }

def run (m : Mgr) (ops : List Op) : Mgr := ops.foldl step m

end Verif.ConnMgr
