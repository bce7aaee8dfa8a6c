import Verif.BuffersQueue

/-!
# Model of `dabc::LocalTransport`  (base/src/LocalTransport.cxx:20-351, base/dabc/LocalTransport.h:40-130)

The queue between an output port and an input port.  It is used by two threads; every method holds the
mutex while it looks at the members, so each operation below is one atomic step and an execution is any
sequence of operations of the two sides.  Events are fired after the mutex is released; a fired event is
recorded in the result of the step and counts as pending until the module takes it.

Simplifications: the two module references are reduced to "set or not"; the log output, the reference
count warning (cxx:81-82) and the start/stop notifications `evntConnStart/Stop` (cxx:327-348) are left
out; the clean-up after the last `Disconnect` is taken together with it (no port refers to the queue any
more at that time).  `none` stands for `exit()` or undefined behaviour.
-/

namespace Verif.LocalTransport
open Verif.BuffersQueue
variable {β : Type}

/-- `Port::EventsProducing`, base/dabc/Port.h:58-64. -/
inductive Kind where
  | none | confirm | operation | every
  deriving DecidableEq, Repr

/-- Data members, base/dabc/LocalTransport.h:47-66; `inpSet`/`outSet` are `!fInp.null()`/`!fOut.null()`,
`connInp`/`connOut` the two bits of `fConnected`. -/
structure LT (β : Type) where
  queue : BQ β
  outSet : Bool
  outKind : Kind
  signalOut : Nat
  inpSet : Bool
  inpKind : Kind
  signalInp : Nat
  connInp : Bool
  connOut : Bool
  blockUnconn : Bool
  blockConn : Bool

/-- Events given to the two modules: `evntInput`, `evntOutput` and the two disconnect events. -/
inductive Wake where
  | input | output | inpGone | outGone
  deriving DecidableEq, Repr

/-- Constructor, cxx:20-40. -/
def create (capacity : Nat) : LT β :=
  { queue := BQ.create capacity, outSet := false, outKind := .none, signalOut := 3, inpSet := false, inpKind := .none, signalInp := 3, connInp := false, connOut := false, blockUnconn := false, blockConn := true }

/-- `fQueue.Full()`, base/dabc/BuffersQueue.h:83. -/
def full (s : LT β) : Bool := s.queue.size == s.queue.cap

/-- `fQueue.Empty()`, base/dabc/BuffersQueue.h:85. -/
def empty (s : LT β) : Bool := s.queue.size == 0

/-- `(fConnected == MaskConn) ? fBlockWhenConnected : fBlockWhenUnconnected`, cxx:89 and h:93. -/
def blocking (s : LT β) : Bool := if s.connInp && s.connOut then s.blockConn else s.blockUnconn

/-- `NumCanSend()`, h:87-94. -/
def numCanSend (s : LT β) : Nat :=
  if full s then (if blocking s then 0 else 1) else s.queue.cap - s.queue.size

/-- The `switch (fInpSignKind)` of `Send`, cxx:104-119: the new `fSignalInp` and `makesig`. -/
def signal (kind : Kind) (sig : Nat) : Nat × Bool :=
  match kind with
  | .none => (sig, false)
  | .confirm => if sig = 3 then (1, true) else (sig, false)
  | .operation => if sig = 3 then (2, true) else (sig, false)
  | .every => (sig, true)

/-- Tail of `Send` after the buffer was put in the queue, cxx:98-133. -/
def sendTail (s : LT β) : List Wake × LT β :=
  let s := { s with signalOut := if s.signalOut = 2 then 3 else s.signalOut }
  if s.connInp then
    let r := signal s.inpKind s.signalInp
    (if r.2 && s.inpSet then [.input] else [], { s with signalInp := r.1 })
  else ([], s)

/-- `Send(buf)`, cxx:57-139.  Returns the skipped buffer, the fired events and the new state. -/
def send (s : LT β) (buf : Option β) : Option (Option β × List Wake × LT β) :=
  match buf with
  | .none => some (none, [], s)
  | .some b => do
    let (skip, q) ← if full s && !blocking s then (do let (_, b, q) ← s.queue.pop none; some (b, q)) else some (none, s.queue)
    let (_, rest, q) ← q.push (some b)
    if rest.isSome then none
    else
      let (w, s) := sendTail { s with queue := q }
      some (skip, w, s)

/-- Tail of `Recv`, cxx:152-180, also the second half of `SignalWhenFull`, cxx:206-238. -/
def recvTail (s : LT β) : List Wake × LT β :=
  let s := { s with signalInp := if s.signalInp = 2 then 3 else s.signalInp }
  let r := signal s.outKind s.signalOut
  (if r.2 && s.outSet then [.output] else [], { s with signalOut := r.1 })

/-- `Recv(buf)` with a null `buf`, cxx:141-185. -/
def recv (s : LT β) : Option (Option β × List Wake × LT β) := do
  let (_, b, q) ← s.queue.pop none
  let (w, s) := recvTail { s with queue := q }
  some (b, w, s)

/-- `SignalWhenFull()`, cxx:187-242. -/
def signalWhenFull (s : LT β) : List Wake × LT β :=
  if full s then (if s.inpSet then [.input] else [], s) else recvTail s

/-- `ConfirmEvent(fromoutputport)`, cxx:245-271. -/
def confirm (s : LT β) (fromOut : Bool) : LT β :=
  if fromOut then { s with signalOut := if full s then 3 else 2 }
  else { s with signalInp := if empty s then 3 else 2 }

/-- `BuffersQueue::Cleanup(Mutex*)`, base/src/BuffersQueue.cxx:29-41, with the released buffers. -/
def drain (q : BQ β) : Nat → Option (List β × BQ β)
  | 0 => none
  | fuel + 1 =>
    if q.size > 0 then do
      let (_, b, q) ← q.pop none
      match b with
      | .none => some ([], q)
      | .some b => do
        let (bs, q) ← drain q fuel
        some (b :: bs, q)
    else some ([], q)

/-- The part of `Disconnect` under the mutex, cxx:280-302, and the event to the other side, cxx:306-308. -/
def detach (s : LT β) (isinp : Bool) : List Wake × LT β :=
  if isinp then (if s.outSet then [.outGone] else [], { s with inpSet := false, connInp := false })
  else (if s.inpSet then [.inpGone] else [], { s with outSet := false, connOut := false })

/-- `Disconnect(isinp, witherr)`, cxx:273-318; `CleanupQueue` when both bits are cleared. -/
def disconnect (s : LT β) (isinp : Bool) : Option (List β × List Wake × LT β) :=
  let r := detach s isinp
  if !r.2.connInp && !r.2.connOut then do
    let (bs, q) ← drain r.2.queue (r.2.queue.size + 1)
    some (bs, r.1, { r.2 with queue := q })
  else some ([], r.1, r.2)

/-- `InputPort::NumStartEvents`, base/src/Port.cxx:306-318. -/
def inpStart (s : LT β) : Nat :=
  match s.inpKind with
  | .none => 0
  | .confirm | .operation => if empty s then 0 else 1
  | .every => s.queue.size

/-- `OutputPort::NumStartEvents`, base/src/Port.cxx:365-377. -/
def outStart (s : LT β) : Nat :=
  match s.outKind with
  | .none => 0
  | .confirm | .operation => if numCanSend s > 0 then 1 else 0
  | .every => numCanSend s

/-- Operations of the two sides.

* `send`, `canSend` by the output port, `recv`, `canRecv`, `signalWhenFull` by the input port;
* `handleInp`/`handleOut`: a running module takes an `evntInput`/`evntOutput` event, which calls
  `Port::ConfirmEvent` (base/dabc/Port.h:94-95, base/src/ModuleAsync.cxx:50-64, ModuleSync.cxx:276-277);
* `ignoreInp`/`ignoreOut`: a stopped module takes the event and does nothing (base/src/Module.cxx:818-827);
* `startInp`/`startOut`: the module is started (base/src/ModuleAsync.cxx:84-98);
* `setBlocking`, `assignInp`, `assignOut`, `setConnected`: parts of `ConnectPorts`, cxx:400-446, h:73;
* `disconnect`. -/
inductive Op (β : Type) where
  | send (b : Option β) | canSend | recv | canRecv | signalWhenFull
  | handleInp | handleOut | ignoreInp | ignoreOut | startInp | startOut
  | setBlocking (conn unconn : Bool) | assignInp (k : Kind) | assignOut (k : Kind) | setConnected (isinp : Bool)
  | disconnect (isinp : Bool)

/-- Results of the operations. -/
inductive Out (β : Type) where
  | done | sent (skipped : Option β) | got (b : Option β) | num (n : Nat) | cleared (bs : List β)

/-- One operation. -/
def step (s : LT β) : Op β → Option (Out β × List Wake × LT β)
  | .send b => do let (k, w, s) ← send s b; some (.sent k, w, s)
  | .canSend => some (.num (numCanSend s), [], s)
  | .recv => do let (b, w, s) ← recv s; some (.got b, w, s)
  | .canRecv => some (.num s.queue.size, [], s)
  | .signalWhenFull => let (w, s) := signalWhenFull s; some (.done, w, s)
  | .handleInp => some (.done, [], if s.inpKind = .confirm then confirm s false else s)
  | .handleOut => some (.done, [], if s.outKind = .confirm then confirm s true else s)
  | .ignoreInp => some (.done, [], s)
  | .ignoreOut => some (.done, [], s)
  | .startInp => some (.done, List.replicate (inpStart s) .input, s)
  | .startOut => some (.done, List.replicate (outStart s) .output, s)
  | .setBlocking c u => some (.done, [], { s with blockConn := c, blockUnconn := u })
  | .assignInp k => some (.done, [], { s with inpSet := true, inpKind := k })
  | .assignOut k => some (.done, [], { s with outSet := true, outKind := k })
  | .setConnected isinp => some (.done, [], if isinp then { s with connInp := true } else { s with connOut := true })
  | .disconnect isinp => do let (bs, w, s) ← disconnect s isinp; some (.cleared bs, w, s)

/-- What happened in one step. -/
structure Rec (β : Type) where
  op : Op β
  out : Out β
  wakes : List Wake

/-- An execution: the operations of both sides in the order in which they got the mutex. -/
def run (s : LT β) : List (Op β) → Option (List (Rec β) × LT β)
  | [] => some ([], s)
  | op :: ops => do
    let (o, w, s) ← step s op
    let (h, s) ← run s ops
    some (⟨op, o, w⟩ :: h, s)

end Verif.LocalTransport
