import Verif.Spec.LocalTransport

/-!
# Model of the event loops of an asynchronous module

`ModuleAsync::ProcessInputEvent`, `ProcessOutputEvent`, `ActivateInput`, `ActivateOutput`,
base/src/ModuleAsync.cxx:101-150, reached over `ProcessItemEvent`, 50-64, and `Port::GetMaxLoopLength`,
base/src/Port.cxx:171-183.  One port of a module is connected to a queue (`LocalTransport`, C24 and C25); the
other side of the queue does what it wants between any two steps of the module.

The module is running all the time.  What its methods `ProcessRecv` and `ProcessSend` do is arbitrary: any
operations on the port, then true or false; they and `ActivateInput`/`ActivateOutput` may also be called from
other methods of the module, when no event of the port is being processed.  The queue of events keeps events
until they are taken (C20).
-/

namespace Verif.AsyncLoop
open Verif.LocalTransport
variable {β : Type}

/-- The side of the queue at which the module is. -/
inductive Side where
  | inp | out
  deriving DecidableEq, Repr

/-- An `unsigned` returned as `int`. -/
def toInt (n : Nat) : Int := if n < 2147483648 then n else (n : Int) - 4294967296

/-- `Port::GetMaxLoopLength`, base/src/Port.cxx:171-183. -/
def maxLoop (k : Kind) (loop cap : Nat) : Int :=
  match k with
  | .none => 0
  | .confirm | .operation => toInt (if loop ≠ 0 then loop else cap)
  | .every => -1

/-- Where the module is: outside, at the condition of the `while` with the counter `cnt`, or in
`ProcessRecv`/`ProcessSend`. -/
inductive Mode where
  | idle | test (cnt : Int) | user (cnt : Int)
  deriving DecidableEq, Repr

/-- Queue with the history of its operations, place of the module, number of `evntInputReinj` or
`evntOutputReinj` events on their way.  `refused`: the user method returned false and neither an event nor
`ActivateInput`/`ActivateOutput` followed.  `calls` counts the calls of the user method for the last event. -/
structure M (β : Type) where
  lt : LocalTransport.LT β
  hist : List (Rec β)
  mode : Mode
  reinj : Nat
  refused : Bool
  calls : Nat

/-- One operation on the queue. -/
def perform (m : M β) (op : Op β) : Option (Out β × M β) := do
  let (o, w, s) ← step m.lt op
  some (o, { m with lt := s, hist := m.hist ++ [⟨op, o, w⟩] })

/-- `CanRecv()` or `CanSend()`. -/
def lookOp : Side → Op β
  | .inp => .canRecv
  | .out => .canSend

/-- `ConfirmEvent()`, base/src/ModuleAsync.cxx:53 and 61. -/
def handleOp : Side → Op β
  | .inp => .handleInp
  | .out => .handleOut

/-- Events on their way to the module. -/
def pend (sd : Side) (h : List (Rec β)) : Nat := match sd with | .inp => pendingInp h | .out => pendingOut h

/-- Operations of the port of the module, on either side of the queue. -/
def own : Side → Op β → Bool
  | .inp, op => inpSide op
  | .out, op => outSide op

/-- Operations which user code can do with the port. -/
def uses : Side → Op β → Bool
  | .inp, .recv | .inp, .canRecv | .inp, .signalWhenFull => true
  | .out, .send _ | .out, .canSend => true
  | _, _ => false

/-- Result of `CanRecv()` or `CanSend()`. -/
def ready : Out β → Bool
  | .num n => decide (n > 0)
  | _ => false

/-- Steps: an operation of another thread; the module takes an event `evntInput` or `evntOutput`, or a
"reinjected" one; the condition of the loop; an operation of user code; the end of the user method;
`ActivateInput` or `ActivateOutput`. -/
inductive Act (β : Type) where
  | env (op : Op β) | event | reinj | test | user (op : Op β) | ret (b : Bool) | activate

/-- After the user method returned, base/src/ModuleAsync.cxx:117-123 and 142-148. -/
def returned (m : M β) (c : Int) (b : Bool) : M β :=
  let m := { m with calls := m.calls + 1 }
  if !b then { m with mode := .idle, refused := true }
  else if c < 0 then { m with mode := .idle }
  else if c = 0 then { m with mode := .idle, reinj := m.reinj + 1 }
  else { m with mode := .test (c - 1) }

/-- One step; `none` when the step is not possible now or the program ends. -/
def act (sd : Side) (len : Int) (m : M β) : Act β → Option (M β)
  | .env op => if own sd op then none else (perform m op).map Prod.snd
  | .event =>
    if m.mode = .idle ∧ 0 < pend sd m.hist then do
      let r ← perform m (handleOp sd)
      some { r.2 with mode := .test len, refused := false, calls := 0 }
    else none
  | .reinj =>
    if m.mode = .idle ∧ 0 < m.reinj then some { m with reinj := m.reinj - 1, mode := .test len, refused := false, calls := 0 } else none
  | .test =>
    match m.mode with
    | .test c => do
      let r ← perform m (lookOp sd)
      some (if ready r.1 then { r.2 with mode := .user c } else { r.2 with mode := .idle })
    | _ => none
  | .user op =>
    match m.mode with
    | .test _ => none
    | _ => if uses sd op then (perform m op).map Prod.snd else none
  | .ret b =>
    match m.mode with
    | .user c => some (returned m c b)
    | _ => none
  | .activate =>
    match m.mode with
    | .test _ => none
    | _ => do
      let r ← perform m (lookOp sd)
      some { r.2 with reinj := if ready r.1 then r.2.reinj + 1 else r.2.reinj, refused := false }

/-- A sequence of steps. -/
def acts (sd : Side) (len : Int) : M β → List (Act β) → Option (M β)
  | m, [] => some m
  | m, a :: as => (act sd len m a).bind fun m => acts sd len m as

/-- The module directly after its start. -/
def begin (s : LocalTransport.LT β) (h : List (Rec β)) : M β := ⟨s, h, .idle, 0, false, 0⟩

end Verif.AsyncLoop
