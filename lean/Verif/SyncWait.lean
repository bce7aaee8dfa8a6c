import Verif.Spec.LocalTransport

/-!
# Model of the blocking operations of a module with main loop

`ModuleSync::Recv`, base/src/ModuleSync.cxx:91-110, `WaitInput`, 157-174, `WaitItemEvent`, 291-332, and
`ProcessItemEvent`, 274-289, with the cases of `Module::ProcessEvent`, base/src/Module.cxx:822-834, and
`Thread::SingleLoop`, base/src/Thread.cxx:468-490, which matter for one input port.  The port is connected to a
queue (`LocalTransport`, C24 and C25); other threads use the queue between any two steps of the module.

Time is an integer of an arbitrary unit.  An event processed by `SingleLoop` is chosen by the environment; an
event of the port has to be on its way.  Left out: commands which call blocking operations themselves
(`SetSyncCommands`), so there is one wait at a time.
-/

namespace Verif.SyncWait
open Verif.LocalTransport
variable {β : Type}

/-- `Recv(indx, timeout)` or `WaitInput(indx, minqueuesize, timeout)`. -/
inductive Goal where
  | recv | input (min : Nat)
  deriving DecidableEq, Repr

/-- Event kept for the waiting operation: `evntInput`, disconnect or error, connect. -/
inductive Note where
  | own | gone | conn
  deriving DecidableEq, Repr

/-- Results of an operation: value of `Recv`, true of `WaitInput`, a null buffer or false, the three exceptions. -/
inductive Res (β : Type) where
  | got (b : Option β) | yes | nothing | timeout | lost | stopped

/-- Place in the operation; `tm` is the rest of the timeout.  `wait`: in the `while` of `WaitItemEvent` with
`last_tm` and the kept event. -/
inductive Mode where
  | idle | test (tm : Int) | take | wait (tm : Int) (last : Option Int) (note : Option Note)
  deriving DecidableEq, Repr

/-- `onTmout`, `onLost`: `fTmoutExcept`, `fDisconnectExcept`.  `t0` and `limit` are time and timeout of the last
call. -/
structure SM (β : Type) where
  lt : LocalTransport.LT β
  hist : List (Rec β)
  mode : Mode
  goal : Goal
  now : Int
  running : Bool
  onTmout : Bool
  onLost : Bool
  out : Option (Res β)
  t0 : Int
  limit : Int

/-- One operation on the queue. -/
def perform (m : SM β) (op : Op β) : Option (Out β × SM β) := do
  let (o, w, s) ← step m.lt op
  some (o, { m with lt := s, hist := m.hist ++ [⟨op, o, w⟩] })

/-- What `SingleLoop` finds: no event, an `evntInput` of the port, other events of the port, something of
another item, start and stop of the module, the halt of the worker. -/
inductive Ev where
  | none | own | gone | conn | other | start | stop | halt
  deriving DecidableEq, Repr

/-- `CanRecv()`, or `NumCanRecv() >= minqueuesize`. -/
def enough (g : Goal) : Out β → Bool
  | .num n => match g with | .recv => decide (n > 0) | .input k => decide (n ≥ k)
  | _ => false

/-- "no need to store any consequent events", base/src/ModuleSync.cxx:279-288. -/
def note (md : Mode) (n : Note) : Mode :=
  match md with
  | .wait tm last .none => .wait tm last (some n)
  | md => md

/-- `SingleLoop` with the event it processes.  An `evntInput` is dropped without `ConfirmEvent` while the
module is not running, base/src/Module.cxx:831-833. -/
def single (m : SM β) : Ev → Option (SM β)
  | .none | .other => some m
  | .own =>
    if 0 < pendingInp m.hist then
      if m.running then do
        let r ← perform m .handleInp
        some { r.2 with mode := note r.2.mode .own }
      else (perform m .ignoreInp).map Prod.snd
    else Option.none
  | .gone => some { m with mode := note m.mode .gone }
  | .conn => some { m with mode := note m.mode .conn }
  | .start => some { m with running := true }
  | .stop => some { m with running := false }
  | .halt => some { m with mode := .idle, out := some .stopped }

/-- Timeout in `WaitItemEvent`, base/src/ModuleSync.cxx:304-320: new rest and `last_tm`. -/
def account (running : Bool) (now tm : Int) (last : Option Int) : Int × Option Int :=
  if running then
    match last with
    | .none => (tm, some now)
    | some l => (tm - (now - l), some now)
  else (tm, .none)

/-- Steps: an operation of another thread; time passes; the module calls an operation; its test; `Recv` of the
port after a successful test; one turn of the `while` in `WaitItemEvent`; its end; one `SingleLoop` between the
operations (`ModuleWorking`, base/src/ModuleSync.cxx:176-184). -/
inductive Act (β : Type) where
  | env (op : Op β) | time (d : Nat) | call (g : Goal) (tm : Int) | look | take | loop (e : Ev) | leave | work (e : Ev)

/-- One step; `none` when it is not possible now. -/
def act (m : SM β) : Act β → Option (SM β)
  | .env op => if inpSide op then .none else (perform m op).map Prod.snd
  | .time d => some { m with now := m.now + d }
  | .call g tm => if m.mode = .idle then some { m with mode := .test tm, goal := g, t0 := m.now, limit := tm, out := .none } else .none
  | .look =>
    match m.mode with
    | .test tm => do
      let r ← perform m .canRecv
      some (if enough m.goal r.1 then
          (match m.goal with | .recv => { r.2 with mode := .take } | .input _ => { r.2 with mode := .idle, out := some .yes })
        else if tm < 0 then { r.2 with mode := .idle, out := some .nothing }
        else { r.2 with mode := .wait tm .none .none })
    | _ => .none
  | .take =>
    match m.mode with
    | .take => do
      let r ← perform m .recv
      match r.1 with
      | .got b => some { r.2 with mode := .idle, out := some (.got b) }
      | _ => .none
    | _ => .none
  | .loop e =>
    match m.mode with
    | .wait tm last n =>
      if n.isSome && m.running then .none
      else
        let r := account m.running m.now tm last
        if m.running && decide (r.1 < 0) then some { m with mode := .idle, out := some (if m.onTmout then .timeout else .nothing) }
        else single { m with mode := .wait r.1 r.2 n } e
    | _ => .none
  | .leave =>
    match m.mode with
    | .wait tm _ (some n) =>
      if m.running then
        (if n == .gone && m.onLost then some { m with mode := .idle, out := some .lost } else some { m with mode := .test tm })
      else .none
    | _ => .none
  | .work e => if m.mode = .idle then single m e else .none

/-- A sequence of steps. -/
def acts : SM β → List (Act β) → Option (SM β)
  | m, [] => some m
  | m, a :: as => (act m a).bind fun m => acts m as

/-- A module outside of blocking operations. -/
def begin (s : LocalTransport.LT β) (h : List (Rec β)) (running onTmout onLost : Bool) (now : Int) : SM β :=
  ⟨s, h, .idle, .recv, now, running, onTmout, onLost, .none, now, 0⟩

/-- `StopUntilRestart`, base/src/ModuleSync.cxx:234-245: `Stop`, then `WaitItemEvent` with timeout -1, which
returns at once (293).  Returns the module directly after it. -/
def stopUntilRestart (m : SM β) : SM β := { m with running := false }

end Verif.SyncWait
