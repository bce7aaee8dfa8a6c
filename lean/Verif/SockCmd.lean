/-!
# Command channel between two nodes

`base/src/SocketCommandChannel.cxx:109-182, 210-520` (`SocketCommandClient`), `base/src/CommandsQueue.cxx:19-126`,
`base/src/SocketThread.cxx:146-161, 363-451, 539-740, 1590-1630`.

Two workers of the class talk with each other: side `false` has a host name and a reconnect period, side `true` was made
for an accepted socket.  A command is a number, its copy at the other side has the same number.  `wire d` are the
packets which side `d` has written and which are not yet read.  A packet is read in two steps, header and data.  Every
side has its queue of events `evq` in which the events of the addon are put; the steps of the addons (`wrote`, `read`,
`fail`) come in any order with the steps of the workers, so that all interleavings are lists of operations.
`Env` tells which commands are found timed out or cancelled.

Simplified: packets are complete and well formed (see `SockWire`); a command gets the number of its packet by the field
`__send_cmdid__`, which is not changed by other code; a worker of side `true` which closes is destroyed at once, also when
a new connection is accepted before it has seen the end of the old one; the worker of side `false` gets the command
`SocketConnect` after the events of the old connection, as it comes through the same queue; the command `AcceptClient`
of a master connection and connections of devices are left out.  `submitted`, `answers`, `executed`, `finished` and
`given` are histories.
-/

namespace Verif.SockCmd

/-- `ECmdDataKindNew` (`SocketCommandChannel.h:70-75`); `kindDisconnect` is never sent. -/
inductive Kind | command | reply | cancel
deriving DecidableEq, Repr

/-- Record of `fSendQueue`: command of this side or answer to a command of the other one. -/
inductive Item
  | cmd (c : Nat)
  | reply (id c v : Nat)
deriving DecidableEq, Repr

inductive Stage | init | header | data
deriving DecidableEq, Repr

/-- Events of the worker; `close` is `evntSocketErrorInfo` or `evntSocketCloseInfo`. -/
inductive Ev | send | recv | close
deriving DecidableEq, Repr

/-- How a command was replied. -/
inductive Res
  | val (v : Nat)
  | timedout
  | failed
deriving DecidableEq, Repr

structure Pkt where
  kind : Kind
  id : Nat
  c : Nat
  v : Nat := 0
deriving DecidableEq, Repr

structure Side where
  /-- `SocketIOAddon` is assigned. -/
  io : Bool := false
  /-- `SocketClientAddon` is assigned. -/
  trying : Bool := false
  /-- `fSendingActive` -/
  active : Bool := true
  /-- `fSendIOVNumber > 0` of the addon. -/
  busy : Bool := false
  sendq : List Item := []
  waitq : List (Nat × Nat) := []
  /-- `fIdCounter` of `fWaitQueue`. -/
  next : Nat := 0
  /-- Commands of the other side which are executed here. -/
  exec : List (Nat × Nat) := []
  stage : Stage := .init
  /-- `fRecvIOVNumber > 0` of the addon. -/
  rstart : Bool := false
  /-- `fRecvBuf` when the data are complete. -/
  rbuf : Option Pkt := none
  evq : List Ev := []
  given : List (Nat × Nat) := []

structure S where
  side : Bool → Side := fun _ => {}
  wire : Bool → List Pkt := fun _ => []
  submitted : Bool → List Nat := fun _ => []
  answers : List (Nat × Res) := []
  /-- Commands of side `d` which were given to the manager of the other side. -/
  executed : Bool → List Nat := fun _ => []
  finished : List (Nat × Nat) := []
  /-- A null pointer was used. -/
  crashed : Bool := false

structure Env where
  /-- `TimeTillTimeout() == 0` -/
  late : Nat → Bool := fun _ => false
  /-- `IsCanceled` of a command and of the copy at the other side. -/
  canc : Nat → Bool := fun _ => false
  rcanc : Nat → Bool := fun _ => false

def put {α} (f : Bool → α) (d : Bool) (x : α) : Bool → α := fun e => if e = d then x else f e

def S.upd (s : S) (d : Bool) (f : Side → Side) : S := { s with side := put s.side d (f (s.side d)) }

/-- Commands in a send queue. -/
def Item.own : Item → Option Nat
  | .cmd c => some c
  | .reply .. => none

/-- `CloseClient` (`SocketCommandChannel.cxx:109-127`); the destructor of a worker of side `true` replies the commands in
its queues (`CommandsQueue.cxx:14-53`). -/
def S.close (s : S) (d : Bool) : S :=
  match d with
  | false =>
    { s with
      side := put s.side false { s.side false with io := false, trying := false, busy := false, rstart := false }
      wire := put s.wire true [] }
  | true =>
    { s with
      side := put s.side true { s.side true with
        io := false, trying := false, busy := false, rstart := false, sendq := [], waitq := [], exec := [], rbuf := none
        evq := [] }
      wire := put s.wire false []
      answers := s.answers ++ (((s.side true).waitq.map (·.2)) ++ (s.side true).sendq.filterMap Item.own).map
        (fun c => (c, Res.failed)) }

/-- `CommandsQueue::Push` (`CommandsQueue.cxx:71-85`): the next number, zero is left out. -/
def nextId (n : Nat) : Nat := if n + 1 = 4294967296 then 1 else n + 1

/-- Second part of `SendCommand` (`SocketCommandChannel.cxx:472-492`). -/
def S.start (s : S) (d : Bool) (p : Pkt) : S :=
  if (s.side d).io && !(s.side d).busy then
    { s.upd d (fun x => { x with busy := true, active := true }) with wire := put s.wire d (s.wire d ++ [p]) }
  else s.close d

/-- `fWaitQueue.Push` (`SocketCommandChannel.cxx:444-445`). -/
def Side.number (x : Side) (c : Nat) : Side :=
  { x with
    next := nextId x.next
    waitq := x.waitq ++ [(nextId x.next, c)]
    given := x.given ++ [(nextId x.next, c)] }

/-- `SendCommand` (`SocketCommandChannel.cxx:432-493`). -/
def S.send (s : S) (d : Bool) (env : Env) : Item → S
  | .cmd c =>
    if env.late c then { s with answers := s.answers ++ [(c, .timedout)] }
    else (s.upd d (·.number c)).start d
      { kind := if env.canc c then .cancel else .command, id := nextId (s.side d).next, c := c }
  | .reply id c v => s.start d { kind := if env.rcanc c then .cancel else .reply, id := id, c := c, v := v }

/-- `SendSubmittedCommands` (`SocketCommandChannel.cxx:424-430`). -/
def S.drain (d : Bool) (env : Env) : Nat → S → S
  | 0, s => s
  | n + 1, s =>
    if (s.side d).active then s
    else match (s.side d).sendq with
      | [] => s
      | it :: q => S.drain d env n ((s.upd d (fun x => { x with sendq := q })).send d env it)

def S.flush (s : S) (d : Bool) (env : Env) : S := S.drain d env (s.side d).sendq.length s

/-- `AddCommand` (`SocketCommandChannel.cxx:416-421`). -/
def S.add (s : S) (d : Bool) (env : Env) (it : Item) : S :=
  (s.upd d (fun x => { x with sendq := x.sendq ++ [it] })).flush d env

/-- `PopWithId` and the reply (`SocketCommandChannel.cxx:262-288`, `CommandsQueue.cxx:114-126`). -/
def S.answer (s : S) (d : Bool) (p : Pkt) : S :=
  match (s.side d).waitq.find? (fun e => decide (e.1 = p.id)) with
  | none => s
  | some e =>
    { s.upd d (fun x => { x with waitq := x.waitq.eraseP (fun e => decide (e.1 = p.id)) }) with
      answers := s.answers ++ [(e.2, if p.kind = .cancel then .timedout else .val p.v)] }

/-- The packet is handled (`SocketCommandChannel.cxx:210-289`). -/
def S.handle (s : S) (d : Bool) (p : Pkt) : S :=
  match p.kind with
  | .command =>
    { s.upd d (fun x => { x with exec := x.exec ++ [(p.id, p.c)] }) with
      executed := put s.executed (!d) (s.executed (!d) ++ [p.c]) }
  | _ => s.answer d p

/-- End of `ProcessRecvPacket` (`SocketCommandChannel.cxx:291-294`). -/
def S.again (s : S) (d : Bool) : S :=
  if (s.side d).io then s.upd d (fun x => { x with stage := .header, rstart := true })
  else { s with crashed := true }

/-- `evntSocketRecvInfo` (`SocketCommandChannel.cxx:323-398`). -/
def S.recv (s : S) (d : Bool) : S :=
  match (s.side d).stage with
  | .init => s.close d
  | .data =>
    match (s.side d).rbuf with
    | none => s
    | some p => ((s.upd d (fun x => { x with rbuf := none, stage := .init })).handle d p).again d
  | .header =>
    if (s.side d).io then s.upd d (fun x => { x with stage := .data, rstart := true })
    else { s with crashed := true }

/-- `ProcessEvent` (`SocketCommandChannel.cxx:311-414`) with the first event of the queue. -/
def S.dispatch (s : S) (d : Bool) (env : Env) : S :=
  match (s.side d).evq with
  | [] => s
  | .send :: q => (s.upd d (fun x => { x with evq := q, active := false })).flush d env
  | .recv :: q => (s.upd d (fun x => { x with evq := q })).recv d
  | .close :: q => (s.upd d (fun x => { x with evq := q })).close d

/-- Addon has written the whole packet (`SocketThread.cxx:665-740`, `SocketThread.h:191`). -/
def S.wrote (s : S) (d : Bool) : S :=
  if (s.side d).io && (s.side d).busy then s.upd d (fun x => { x with busy := false, evq := x.evq ++ [.send] }) else s

/-- Addon has read all what was requested (`SocketThread.cxx:544-663`, `SocketThread.h:197`). -/
def S.read (s : S) (d : Bool) : S :=
  if (s.side d).io && (s.side d).rstart then
    match s.wire (!d) with
    | [] => s
    | p :: w =>
      match (s.side d).stage with
      | .data =>
        { s.upd d (fun x => { x with rbuf := some p, rstart := false, evq := x.evq ++ [.recv] }) with
          wire := put s.wire (!d) w }
      | _ => s.upd d (fun x => { x with rstart := false, evq := x.evq ++ [.recv] })
  else s

/-- The socket has an error or is closed by the other side (`SocketThread.cxx:146-150`). -/
def S.fail (s : S) (d : Bool) : S :=
  if (s.side d).io then s.upd d (fun x => { x with evq := x.evq ++ [.close] }) else s

/-- `SocketChannel::PreviewCommand` (`SocketCommandChannel.cxx:581-601`): a new command; a worker of side `true` must
exist. -/
def S.submit (s : S) (d : Bool) (c : Nat) (env : Env) : S :=
  if c ∈ s.submitted false ++ s.submitted true then s
  else if d && !(s.side true).io then s
  else { s with submitted := put s.submitted d (s.submitted d ++ [c]) }.add d env (.cmd c)

/-- `ReplyCommand` (`SocketCommandChannel.cxx:297-308`): command was executed at side `d`. -/
def S.finish (s : S) (d : Bool) (i v : Nat) (env : Env) : S :=
  match (s.side d).exec[i]? with
  | none => s
  | some e =>
    { s.upd d (fun x => { x with exec := x.exec.eraseIdx i }) with finished := s.finished ++ [(e.2, v)] }.add d env
      (.reply e.1 e.2 v)

/-- `ReplyTimedout` for one record of `fWaitQueue` (`SocketCommandChannel.cxx:516`, `CommandsQueue.cxx:56-68`). -/
def S.expireWait (s : S) (d : Bool) (i : Nat) : S :=
  match (s.side d).waitq[i]? with
  | none => s
  | some e =>
    { s.upd d (fun x => { x with waitq := x.waitq.eraseIdx i }) with answers := s.answers ++ [(e.2, .timedout)] }

/-- `ReplyTimedout` for one record of `fSendQueue` (`SocketCommandChannel.cxx:517`). -/
def S.expireSend (s : S) (d : Bool) (i : Nat) : S :=
  match (s.side d).sendq[i]? with
  | none => s
  | some it =>
    { s.upd d (fun x => { x with sendq := x.sendq.eraseIdx i }) with
      answers := s.answers ++ (it.own.map (fun c => (c, Res.timedout))).toList }

/-- A client addon is made (`SocketCommandChannel.cxx:500-513`). -/
def S.retry (s : S) : S :=
  if (s.side false).io || (s.side false).trying then s else s.upd false (fun x => { x with trying := true })

/-- The state of both sides after the socket was opened and accepted
(`SocketCommandChannel.cxx:54-62, 132-158, 603-632`). -/
def S.joined (s : S) : S :=
  { s with
    side := put (put s.side true { io := true, active := false, stage := .header, rstart := true }) false
      { s.side false with
        io := true, trying := false, active := false, busy := false, stage := .header, rstart := true, rbuf := none }
    wire := fun _ => [] }

/-- The connection is established. -/
def S.connect (s : S) (env : Env) : S :=
  if !(s.side false).io && (s.side false).trying && (s.side false).evq.isEmpty then
    ((s.close true).joined).flush false env
  else s

inductive Op
  | submit (d : Bool) (c : Nat) (env : Env)
  | finish (d : Bool) (i v : Nat) (env : Env)
  | wrote (d : Bool)
  | read (d : Bool)
  | fail (d : Bool)
  | dispatch (d : Bool) (env : Env)
  | expireWait (d : Bool) (i : Nat)
  | expireSend (d : Bool) (i : Nat)
  | retry
  | connect (env : Env)

def step (s : S) (op : Op) : S :=
  if s.crashed then s
  else match op with
    | .submit d c env => s.submit d c env
    | .finish d i v env => s.finish d i v env
    | .wrote d => s.wrote d
    | .read d => s.read d
    | .fail d => s.fail d
    | .dispatch d env => s.dispatch d env
    | .expireWait d i => s.expireWait d i
    | .expireSend d i => s.expireSend d i
    | .retry => s.retry
    | .connect env => s.connect env

def run (s : S) (ops : List Op) : S := ops.foldl step s

end Verif.SockCmd
