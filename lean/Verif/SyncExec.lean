/-!
# Model of the synchronous call of a command

`Worker::Execute`, base/src/Worker.cxx:877-931, `Worker::ExecuteIn`, 866-875, `Thread::RunCommandInTheThread`,
base/src/Thread.cxx:517-614, with `Command::Reply`, base/src/Command.cxx:225-258, and `Worker::GetCommandReply`,
base/src/Worker.cxx:996-1024, as they are executed by other threads in between.

The state is that of one call.  Every action is one section of code under one mutex (or without any shared data), hence
all interleavings of the calling thread with replying threads are lists of actions.  Times are integers (milliseconds).
Simplified: other callers of the command are numbers, whether they accept a reply is an input; when `Submit` refuses the
command its reply (in the calling thread, base/src/Worker.cxx:991) is one action; a worker does not call `SetResult`
itself.
-/

namespace Verif.SyncExec

/-- Record in `fCallers`, base/dabc/Command.h:62-79: the pair (`caller`, `&exe_ready`) of this call, or another one. -/
inductive Who where
  | me | other (n : Nat)
  deriving DecidableEq, Repr

/-- A call of `Reply` in another thread (or in an event processed by the thread itself): before the section at
base/src/Command.cxx:238-246, or before `GetCommandReply` for the record taken out there. -/
inductive Fly where
  | ready | holds (w : Who)
  deriving DecidableEq, Repr

/-- Where the call is.  `top`: head of the `do` loop, base/src/Thread.cxx:567; `wait`: in `WaitEvent` of `SingleLoop`
until the given time; `proc`: the event is processed, then 584; `brk`: behind the loop, 585; `rem`: before 601;
`thrown`: in the `catch`, 603; `done`: returned. -/
inductive Pc where
  | idle | top | wait (till : Int) | proc | brk (res : Int) | rem (res : Int) | thrown | done (res : Int)
  deriving DecidableEq, Repr

/-- `callers`: `fCallers`, oldest first; `result`: the field of `SetResult`; `deadline`: `fTimeout` of the command;
`exe`: `exe_ready`; `evq`: do-nothing events in the queues of the thread; `flying`: replies in progress.
`stale` is a ghost: `*exe_ready` was written after the call had returned. -/
structure S where
  callers : List Who
  result : Option Int
  deadline : Option Int
  now : Int
  pc : Pc
  exe : Bool
  evq : Nat
  flying : List Fly
  stale : Bool
  deriving DecidableEq, Repr

/-- `cmd_false`, `cmd_timedout`, base/dabc/Command.h:37-40. -/
def cmdFalse : Int := 0
def cmdTimedout : Int := -1

/-- `GetResult()`, base/dabc/Command.h:174. -/
def getResult (s : S) : Int := s.result.getD cmdFalse

/-- `SetResult` at the begin of `Reply(res)`, base/src/Command.cxx:229. -/
def setRes (s : S) (r : Int) : S := if r ≥ 0 then { s with result := some r } else s

/-- `TimeTillTimeout(0.5)`, base/src/Command.cxx:132-144; -1 stands for all negative values. -/
def timeTill (s : S) : Int :=
  match s.deadline with
  | none => -1
  | some d => let ref := d + 500
    if s.now > ref then 0 else ref - s.now

/-- `*exe_ready = true` with the do-nothing event, base/src/Worker.cxx:1004-1008. -/
def inform (s : S) : Who → S
  | .other _ => s
  | .me => match s.pc with
    | .done _ => { s with evq := s.evq + 1, stale := true }
    | _ => { s with evq := s.evq + 1, exe := true }

/-- `Reply` as a whole, base/src/Command.cxx:231-254, over the callers in reversed order; `acc` tells which callers
accept. -/
def replyAll (acc : Who → Bool) : S → List Who → S
  | s, [] => { s with callers := [] }
  | s, w :: rest =>
    if acc w then inform { s with callers := rest.reverse } w
    else replyAll acc s rest

/-- Begin of the call, base/src/Thread.cxx:549-562 and 589-598: `AddCaller` and `Submit`, which accepts or replies
`cmd_false` itself. -/
def call (s : S) (ok : Bool) (acc : Who → Bool) : S :=
  let s : S := { s with callers := s.callers ++ [.me] }
  if ok then { s with pc := .top }
  else
    let s := replyAll acc (setRes { s with pc := .proc } 0) s.callers.reverse
    { s with result := some cmdFalse, pc := .rem cmdFalse }

/-- Head of the loop, base/src/Thread.cxx:570-583, up to `WaitEvent`; `halt`: `doinghalt` of the calling worker. -/
def loop (s : S) (halt : Bool) : S :=
  let tmout := timeTill s
  if tmout = 0 then { s with pc := .brk cmdTimedout }
  else if halt then { s with pc := .brk cmdFalse }
  else { s with pc := .wait (s.now + if tmout ≤ 0 then 100 else tmout) }

/-- Actions.  Of the calling thread: `call`; `loop`; `wake`: `WaitEvent` returns, with another event when `other`;
`eat`: a loop inside of the processed event takes a do-nothing event; `throw`: an exception; `check`: line 584; `read`:
587; `remove`: 601 or 606 and return.  Of others: `tick`: time passes; `add`, `del`: `AddCaller` and `RemoveCaller` of
another caller; `reply`: `Reply(r)` begins; `pop`: next record is taken; `inform`: `GetCommandReply`, accepted or not. -/
inductive Act where
  | call (ok : Bool) (acc : Who → Bool) | loop (halt : Bool) | wake (other : Bool) | eat | throw | check | read | remove
  | tick (n : Nat) | add (n : Nat) | del (n : Nat) | reply (r : Int) | pop (i : Nat) | inform (i : Nat) (acc : Bool)

/-- One action; `none` when it cannot happen in this state. -/
def step (s : S) : Act → Option S
  | .call ok acc => if s.pc = .idle then some (call s ok acc) else none
  | .loop halt => if s.pc = .top then some (loop s halt) else none
  | .wake other => match s.pc with
    | .wait till =>
      if other then some { s with pc := .proc }
      else if s.evq > 0 then some { s with pc := .proc, evq := s.evq - 1 }
      else if s.now ≥ till then some { s with pc := .proc } else none
    | _ => none
  | .eat => if s.pc = .proc ∧ s.evq > 0 then some { s with evq := s.evq - 1 } else none
  | .throw => if s.pc = .top ∨ s.pc = .proc then some { s with pc := .thrown } else none
  | .check => if s.pc = .proc then some { s with pc := if s.exe then .brk cmdFalse else .top } else none
  | .read => match s.pc with
    | .brk res => some { s with pc := .rem (if s.exe then getResult s else res) }
    | _ => none
  | .remove => match s.pc with
    | .rem res => some { s with pc := .done res, callers := s.callers.filter (· ≠ .me) }
    | .thrown => some { s with pc := .done cmdFalse, callers := s.callers.filter (· ≠ .me) }
    | _ => none
  | .tick n => some { s with now := s.now + n }
  | .add n => some { s with callers := s.callers ++ [.other n] }
  | .del n => some { s with callers := s.callers.filter (· ≠ .other n) }
  | .reply r => let s := setRes s r; some { s with flying := s.flying ++ [.ready] }
  | .pop i => if s.flying[i]? = some .ready then
      match s.callers.getLast? with
      | none => some { s with flying := s.flying.eraseIdx i }
      | some w => some { s with flying := s.flying.set i (.holds w), callers := s.callers.dropLast }
    else none
  | .inform i acc => match s.flying[i]? with
    | some (.holds w) =>
      if acc then some (inform { s with flying := s.flying.eraseIdx i } w)
      else some { s with flying := s.flying.set i .ready }
    | _ => none

/-- A run. -/
def run : S → List Act → Option S
  | s, [] => some s
  | s, a :: as => match step s a with
    | none => none
    | some s' => run s' as

/-- Before the call: a command with other callers, perhaps with an old result and a timeout. -/
def start (others : List Nat) (result deadline : Option Int) (now : Int) : S :=
  { callers := others.map .other, result := result, deadline := deadline, now := now, pc := .idle, exe := false, evq := 0,
    flying := [], stale := false }

/-! ## Which way a command goes -/

/-- Result of `Execute`: answered without doing anything, `ProcessCommand` in the calling thread, or
`RunCommandInTheThread` of the own, the current or a new dummy thread. -/
inductive Route where
  | refuse | direct | own | current | dummy
  deriving DecidableEq, Repr

/-- `Worker::Execute`, base/src/Worker.cxx:877-931.  `null`: the command; `thrd`: `!fThread.null() && fWorkerId != 0`;
`itself`: the call comes from this thread; `known`: `CurrentThread()` knows the calling thread. -/
def route (null thrd itself known : Bool) : Route :=
  if null then .refuse
  else if !thrd then .direct
  else if itself then .own
  else if known then .current
  else .dummy

/-- `Worker::ExecuteIn`, base/src/Worker.cxx:866-875: `thrd` tells if the worker has a thread; `res` is what
`RunCommandInTheThread` returns.  `none`: a null pointer is used. -/
def executeIn (thrd : Bool) (_res : Int) : Option Bool :=
  if thrd then some false else none

end Verif.SyncExec
