import Verif.LocalTransport

/-! Specification for C24 and C25, in terms of the history of calls, results and fired events only. -/

namespace Verif.LocalTransport
variable {β : Type}

/-- Buffers given to `Send`. -/
def Rec.sent (r : Rec β) : List β := match r.op with | .send (some b) => [b] | _ => []

/-- Buffers returned by `Recv`. -/
def Rec.received (r : Rec β) : List β := match r.out with | .got (some b) => [b] | _ => []

/-- Buffers skipped by `Send`. -/
def Rec.skipped (r : Rec β) : List β := match r.out with | .sent (some b) => [b] | _ => []

/-- Buffers released by a clean-up. -/
def Rec.cleared (r : Rec β) : List β := match r.out with | .cleared bs => bs | _ => []

def sent (h : List (Rec β)) : List β := h.flatMap Rec.sent
def received (h : List (Rec β)) : List β := h.flatMap Rec.received

/-- Buffers which left the connection in any way, in the order in which they left. -/
def gone (h : List (Rec β)) : List β := h.flatMap fun r => r.received ++ r.skipped ++ r.cleared

/-- Buffers which were sent and did not leave. -/
def waiting (h : List (Rec β)) : List β := (sent h).drop (gone h).length

/-- Is the input (output) side connected after this history? -/
def linked (inp : Bool) (h : List (Rec β)) : Bool :=
  h.foldl (fun c r => match r.op with
    | .setConnected i => if i = inp then true else c
    | .disconnect i => if i = inp then false else c
    | _ => c) false

/-- The two "blocking" settings (connected, unconnected) after this history. -/
def flags (h : List (Rec β)) : Bool × Bool :=
  h.foldl (fun c r => match r.op with | .setBlocking x y => (x, y) | _ => c) (true, false)

/-- Has a full queue to block the sender after this history? -/
def blocks (h : List (Rec β)) : Bool := if linked true h && linked false h then (flags h).1 else (flags h).2

/-- Events of a kind fired in one step. -/
def Rec.fired (e : Wake) (r : Rec β) : Nat := r.wakes.count e

/-- Input events which were fired and not yet taken by the receiving module. -/
def pendingInp (h : List (Rec β)) : Nat :=
  h.foldl (fun n r => match r.op with | .handleInp | .ignoreInp => n - 1 | _ => n + r.fired .input) 0

/-- Output events which were fired and not yet taken by the sending module. -/
def pendingOut (h : List (Rec β)) : Nat :=
  h.foldl (fun n r => match r.op with | .handleOut | .ignoreOut => n - 1 | _ => n + r.fired .output) 0

/-- The receiver waits: the last thing it did was to see that there is no data. -/
def receiverWaits (h : List (Rec β)) : Bool :=
  h.foldl (fun c r => match r.op, r.out with
    | .recv, .got b => b.isNone
    | .canRecv, .num n => n == 0
    | .handleInp, _ => false
    | _, _ => c) false

/-- The sender waits: the last thing it did was to see that it can not send. -/
def senderWaits (h : List (Rec β)) : Bool :=
  h.foldl (fun c r => match r.op, r.out with
    | .canSend, .num n => n == 0
    | .send (some _), _ => false
    | .handleOut, _ => false
    | _, _ => c) false

/-- Operations of the receiving module and its port. -/
def inpSide : Op β → Bool
  | .recv | .canRecv | .signalWhenFull | .handleInp | .ignoreInp | .startInp | .assignInp _ | .setConnected true | .disconnect true => true
  | _ => false

/-- Operations of the sending module and its port. -/
def outSide : Op β → Bool
  | .send _ | .canSend | .handleOut | .ignoreOut | .startOut | .assignOut _ | .setConnected false | .disconnect false => true
  | _ => false

/-- Operations which do not take the receiver away: it stays connected and running. -/
def keepsInp : Op β → Bool
  | .assignInp _ | .disconnect true | .ignoreInp => false
  | _ => true

/-- Operations which do not take the sender away: it stays connected and running. -/
def keepsOut : Op β → Bool
  | .assignOut _ | .disconnect false | .ignoreOut => false
  | _ => true

/-- Is it the event which a module drops while it is not running? -/
def isIgnoreInp : Op β → Bool
  | .ignoreInp => true
  | _ => false

def isIgnoreOut : Op β → Bool
  | .ignoreOut => true
  | _ => false

/-- Life of a receiver: connected with signalling kind `k` while other threads use the queue, events are
dropped until the module is started, then it runs. -/
def ReceiverLife (k : Kind) (ops : List (Op β)) : Prop :=
  ∃ a b c d, ops = a ++ .assignInp k :: (b ++ .setConnected true :: (c ++ .startInp :: d)) ∧
    (∀ op ∈ a, inpSide op = false) ∧ (∀ op ∈ b, inpSide op = false) ∧
    (∀ op ∈ c, inpSide op = false ∨ isIgnoreInp op = true) ∧ (∀ op ∈ d, keepsInp op = true)

/-- Life of a sender, likewise. -/
def SenderLife (k : Kind) (ops : List (Op β)) : Prop :=
  ∃ a b c d, ops = a ++ .assignOut k :: (b ++ .setConnected false :: (c ++ .startOut :: d)) ∧
    (∀ op ∈ a, outSide op = false) ∧ (∀ op ∈ b, outSide op = false) ∧
    (∀ op ∈ c, outSide op = false ∨ isIgnoreOut op = true) ∧ (∀ op ∈ d, keepsOut op = true)

end Verif.LocalTransport
