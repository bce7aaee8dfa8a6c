/-!
# Starting and stopping a thread

`dabc::Thread::Start`, base/src/Thread.cxx:618-678, `RunnableCancelled`, 680-687, `Stop`, 690-772, of `MainLoop`,
435-466, the test of `fThrdWorking`, of `ProcessEvent` the events `evntStopThrd`, 1198-1202, and `evntCleanupThrd`,
1151-1192, of `ExecuteThreadCommand` the command `ConfirmStart`, 855-863; `PosixThread::Start`, `Join`, `Kill`, `Cancel`,
base/src/threads.cxx:358-415, `StartTRunnable`, 160-176, `UseCurrentAsSelf`, base/dabc/threads.h:347.

Any number of calls of `Start` and `Stop` may be active.  Each section under the mutex of the thread is one action, the
writing of `fThrdWorking` in `Start` and the creation of the thread of the operating system are separate actions.  How
long something takes is decided by the run: `Execute("ConfirmStart")` and the loop of `Stop` may end by timeout at any
moment, and `Stop` may cancel the thread at any moment.  The main loop takes pending events in any order.  From
`evntCleanupThrd` remains that the thread leaves the main loop by its own decision (action `quit`).  A cancelled thread
may leave the main loop anywhere; its cleanup function (`RunnableCancelled`) and its end are one action.
-/

namespace Verif.ThrStart

/-- `EThreadState`, base/dabc/Thread.h:274. -/
inductive St where
  | created | running | stopped | error | changing
  deriving DecidableEq, Repr

/-- A thread of the operating system: inside `MainLoop`, behind it, ended. -/
inductive Phase where
  | loop | left | gone
  deriving DecidableEq, Repr

structure Os where
  phase : Phase
  canceled : Bool
  deriving DecidableEq, Repr

/-- Where a call of `Start` or `Stop` stands. -/
inductive Pc where
  /-- `Start` behind the first section; `true`: `needkill`. -/
  | make (kill : Bool)
  /-- `fThrdWorking` is set. -/
  | create
  /-- The thread is created and `ConfirmStart` submitted. -/
  | wait
  /-- `Start` before the last section, with `res`. -/
  | startEnd (res : Bool)
  /-- `Stop` without `needstop`, behind the first section. -/
  | halt
  /-- `Stop` in its loop. -/
  | poll
  /-- `Stop` before `PosixThread::Join`. -/
  | join
  /-- `Stop` before the last section, with `res`. -/
  | stopEnd (res : Bool)
  /-- Returned from `Start` (`true`) or `Stop` (`false`), with the result. -/
  | done (isStart : Bool) (res : Bool)
  deriving DecidableEq, Repr

/-- `fState`, `fThrdWorking`, `fRealThrd`, the number of `evntStopThrd` in the queue, the calls whose `ConfirmStart` is
not yet executed and is executed, the threads of the operating system in the order of creation, `fThrd`, the calls, the
threads which were joined, whether the process was killed, whether a function of pthread got the handle of a thread
which was already joined. -/
structure S where
  st : St
  working : Bool
  real : Bool
  stops : Nat
  confirms : List Nat
  confirmed : List Nat
  os : List Os
  handle : Option Nat
  calls : List Pc
  joins : List Nat
  killed : Bool
  ub : Bool
  deriving DecidableEq, Repr

/-- The constructor, base/src/Thread.cxx:211-233. -/
def init : S :=
  ⟨.created, false, true, 0, [], [], [], none, [], [], false, false⟩

inductive Act where
  /-- `Start(…, real)` is called. -/
  | start (real : Bool)
  | make (k : Nat)
  | create (k : Nat)
  /-- `Execute` returns `cmd_true`. -/
  | answered (k : Nat)
  /-- `Execute` returns something else. -/
  | unanswered (k : Nat)
  | startEnd (k : Nat)
  /-- `Stop` is called; `some i`: by thread number `i` of the operating system. -/
  | stop (by_ : Option Nat)
  | halt (k : Nat)
  | see (k : Nat)
  | cancel (k : Nat)
  | timeout (k : Nat)
  | join (k : Nat)
  | stopEnd (k : Nat)
  /-- Thread `i` takes `evntStopThrd`. -/
  | takeStop (i : Nat)
  /-- Thread `i` executes `ConfirmStart` of call `k`. -/
  | takeConfirm (i k : Nat)
  | quit (i : Nat)
  | leave (i : Nat)
  /-- Cancellation takes place. -/
  | die (i : Nat)
  /-- `RunnableCancelled` and the end of the thread. -/
  | finish (i : Nat)
  deriving DecidableEq, Repr

def alive (s : S) (i : Nat) : Bool :=
  match s.os[i]? with
  | some o => o.phase != .gone
  | none => false

def inLoop (s : S) (i : Nat) : Bool :=
  match s.os[i]? with
  | some o => o.phase == .loop
  | none => false

/-- Beginning of `Start`, base/src/Thread.cxx:623-646. -/
def enterStart (s : S) (real : Bool) : S :=
  match s.st with
  | .created => { s with real := real, st := .changing, calls := s.calls ++ [.make false] }
  | .stopped => { s with real := real, st := .changing, calls := s.calls ++ [.make false] }
  | .running => { s with calls := s.calls ++ [.done true true] }
  | .error => { s with real := real, st := .changing, calls := s.calls ++ [.make s.real] }
  | .changing => { s with calls := s.calls ++ [.done true false] }

/-- `PosixThread::Kill` with signal 9, which no process survives, base/src/threads.cxx:407-410. -/
def kill (s : S) : S :=
  match s.handle with
  | none => s
  | some h =>
    if h ∈ s.joins then { s with ub := true }
    else if alive s h then { s with killed := true } else s

/-- base/src/Thread.cxx:650-654. -/
def make (s : S) (k : Nat) (kl : Bool) : S :=
  let t := if kl then kill s else s
  { t with working := true, calls := t.calls.set k .create }

/-- base/src/Thread.cxx:657-672. -/
def create (s : S) (k : Nat) : S :=
  if s.real then
    { s with os := s.os ++ [⟨.loop, false⟩], handle := some s.os.length, confirms := s.confirms ++ [k],
             calls := s.calls.set k .wait }
  else { s with handle := none, calls := s.calls.set k (.startEnd true) }

/-- `needstop`, base/src/Thread.cxx:700. -/
def needstop (s : S) (by_ : Option Nat) : Bool :=
  s.real && !(by_.isSome && by_ == s.handle)

/-- Beginning of `Stop`, base/src/Thread.cxx:694-719. -/
def enterStop (s : S) (by_ : Option Nat) : S :=
  match s.st with
  | .created => { s with calls := s.calls ++ [.done false true] }
  | .running =>
    if needstop s by_ then { s with st := .changing, stops := s.stops + 1, calls := s.calls ++ [.poll] }
    else { s with st := .changing, calls := s.calls ++ [.halt] }
  | .stopped => { s with calls := s.calls ++ [.done false true] }
  | .error => { s with calls := s.calls ++ [.done false true] }
  | .changing => { s with calls := s.calls ++ [.done false false] }

/-- `PosixThread::Cancel`, base/src/threads.cxx:412-415. -/
def cancel (s : S) : S :=
  match s.handle with
  | none => s
  | some h =>
    if h ∈ s.joins then { s with ub := true }
    else
      match s.os[h]? with
      | some o => { s with os := s.os.set h { o with canceled := true } }
      | none => s

/-- `PosixThread::Join`, base/src/threads.cxx:389-393: `none` while the thread of the handle is not ended. -/
def join (s : S) (k : Nat) : Option S :=
  match s.handle with
  | none => none
  | some h =>
    if h ∈ s.joins then some { s with ub := true, calls := s.calls.set k (.stopEnd true) }
    else if alive s h then none
    else some { s with joins := s.joins ++ [h], calls := s.calls.set k (.stopEnd true) }

/-- Last section of `Stop`, base/src/Thread.cxx:762-771. -/
def stopEnd (s : S) (k : Nat) (res : Bool) : S :=
  if s.st = .stopped then { s with calls := s.calls.set k (.done false res) }
  else { s with working := false, st := .error, calls := s.calls.set k (.done false res) }

/-- `none`: the action is not possible in this state. -/
def stepCall (s : S) (a : Act) : Option S :=
  match a with
  | .start real => some (enterStart s real)
  | .stop by_ =>
    match by_ with
    | none => some (enterStop s none)
    | some i => if inLoop s i then some (enterStop s (some i)) else none
  | .make k => match s.calls[k]? with
    | some (.make kl) => some (make s k kl)
    | _ => none
  | .create k => match s.calls[k]? with
    | some .create => some (create s k)
    | _ => none
  | .answered k => match s.calls[k]? with
    | some .wait => if k ∈ s.confirmed then some { s with calls := s.calls.set k (.startEnd true) } else none
    | _ => none
  | .unanswered k => match s.calls[k]? with
    | some .wait => some { s with calls := s.calls.set k (.startEnd false) }
    | _ => none
  | .startEnd k => match s.calls[k]? with
    | some (.startEnd res) =>
      some { s with st := if res then .running else .error, calls := s.calls.set k (.done true res) }
    | _ => none
  | .halt k => match s.calls[k]? with
    | some .halt => some { s with working := false, st := .stopped, calls := s.calls.set k (.stopEnd true) }
    | _ => none
  | .see k => match s.calls[k]? with
    | some .poll => if s.st = .stopped then some { s with calls := s.calls.set k .join } else none
    | _ => none
  | .cancel k => match s.calls[k]? with
    | some .poll => some (cancel s)
    | _ => none
  | .timeout k => match s.calls[k]? with
    | some .poll => some { s with calls := s.calls.set k (.stopEnd false) }
    | _ => none
  | .join k => match s.calls[k]? with
    | some .join => join s k
    | _ => none
  | .stopEnd k => match s.calls[k]? with
    | some (.stopEnd res) => some (stopEnd s k res)
    | _ => none
  | _ => none

/-- What the threads of the operating system do. -/
def stepOs (s : S) (a : Act) : Option S :=
  match a with
  | .takeStop i =>
    if inLoop s i ∧ 0 < s.stops then some { s with stops := s.stops - 1, working := false } else none
  | .takeConfirm i k =>
    if inLoop s i ∧ k ∈ s.confirms then
      some { s with confirms := s.confirms.erase k, confirmed := s.confirmed ++ [k] }
    else none
  | .quit i => if inLoop s i then some { s with working := false } else none
  | .leave i => match s.os[i]? with
    | some o =>
      if o.phase = .loop ∧ s.working = false then some { s with os := s.os.set i { o with phase := .left } } else none
    | none => none
  | .die i => match s.os[i]? with
    | some o =>
      if o.phase = .loop ∧ o.canceled = true then some { s with os := s.os.set i { o with phase := .left } } else none
    | none => none
  | .finish i => match s.os[i]? with
    | some o =>
      if o.phase = .left then some { s with os := s.os.set i { o with phase := .gone }, st := .stopped } else none
    | none => none
  | _ => none

def ofCall : Act → Bool
  | .start _ | .stop _ | .make _ | .create _ | .answered _ | .unanswered _ | .startEnd _ | .halt _ | .see _ | .cancel _
  | .timeout _ | .join _ | .stopEnd _ => true
  | _ => false

def step (s : S) (a : Act) : Option S :=
  if s.killed then none else if ofCall a then stepCall s a else stepOs s a

def run (s : S) : List Act → Option S
  | [] => some s
  | a :: as => (step s a).bind fun t => run t as

end Verif.ThrStart
