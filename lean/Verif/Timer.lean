/-!
# Timers of modules

`dabc::Timer`, base/src/ModuleItem.cxx:88-144, base/dabc/ModuleItem.h:149-187, `Module::DoStart`, `DoStop`,
`ProcessTimeout`, base/src/Module.cxx:554-600, `ShootTimer`, base/dabc/Module.h:187-193, with one `TimeoutRec` of the
thread, base/dabc/Thread.h:134-227.

Times are integers (double seconds in the code).  All functions run in the thread of the module.  A system timer uses the
timeout of its module in the same way.  When the thread checks its timeouts is an input (see C65).
-/

namespace Verif.Timer

/-- A call of `ProcessTimeout` of an active timer, or start and stop. -/
inductive Ev where
  | start (t : Int)
  | stop
  | tick (t : Int) (delivered : Bool)
  deriving DecidableEq, Repr

structure S where
  /-- `dabc::Now` -/
  now : Int := 0
  /-- `fPeriod`, `fSynhron` -/
  period : Int
  sync : Bool
  /-- `fActive`, `fInaccuracy`, `fCounter` -/
  active : Bool := false
  inacc : Int := 0
  counter : Nat := 0
  /-- `fRunState` of the module -/
  running : Bool := false
  /-- `tmout_mark`, `tmout_interv`, `tmout_active` -/
  mark : Int := 0
  interv : Int := 0
  req : Bool := false
  /-- `prev_fire`, `next_fire`, null is `none` -/
  prev : Option Int := none
  next : Option Int := none
  log : List Ev := []
  deriving DecidableEq, Repr

/-- `Activate`, base/dabc/Thread.h:152-159. -/
def activate (t : Int) (s : S) : S := { s with mark := s.now, interv := t, req := true }

/-- `Module::DoStart` for this timer: base/src/Module.cxx:562-583, base/src/ModuleItem.cxx:104-111. -/
def start (s : S) : S :=
  if s.running then s
  else
    let s : S := { s with running := true, active := true, log := s.log ++ [.start s.now] }
    if 0 < s.period then activate s.period s else s

/-- `Module::DoStop`: base/src/Module.cxx:585-603, base/src/ModuleItem.cxx:113-119. -/
def stop (s : S) : S :=
  if s.running = false then s
  else
    let s : S := { s with running := false, active := false, log := s.log ++ [.stop] }
    activate (-1) s

/-- `CheckEvent`, base/dabc/Thread.h:163-198. -/
def event (s : S) : S :=
  if s.req = false then s
  else if s.interv < 0 then { s with req := false, prev := none, next := none }
  else
    { s with
      req := false
      prev := if s.prev = none ∧ 0 < s.interv then some s.mark else s.prev
      next := some (s.mark + s.interv) }

/-- What the handler of the module does in `ProcessItemEvent`. -/
inductive Inner where
  | wait (d : Nat)
  | start
  | stop
  | shoot (d : Int)
  deriving DecidableEq, Repr

def inner (s : S) : Inner → S
  | .wait d => { s with now := s.now + d }
  | .start => start s
  | .stop => stop s
  | .shoot d => activate d s

/-- The end of `ProcessTimeout`, base/src/ModuleItem.cxx:132-143. -/
def again (diff : Int) (s : S) : S × Int :=
  if s.sync = false then (s, s.period)
  else
    let i := s.inacc + (diff - s.period)
    ({ s with inacc := i }, if s.period - i < 0 then 0 else s.period - i)

/-- `ProcessTimeout`, base/src/ModuleItem.cxx:122-144. -/
def process (diff : Int) (h : List Inner) (s : S) : S × Int :=
  if s.active = false then (s, -1)
  else
    let s : S := { s with counter := s.counter + 1, log := s.log ++ [.tick s.now s.running] }
    again diff (if s.running then h.foldl inner s else s)

/-- `SetNextFire`, base/dabc/Thread.h:216-226. -/
def setNext (now : Int) (r : S × Int) : S :=
  if 0 ≤ r.2 then { r.1 with prev := some now, next := some (now + r.2) }
  else { r.1 with prev := none, next := none }

/-- `last_diff` of `CheckNextProcess`, base/dabc/Thread.h:211. -/
def diffOf (s : S) : Int :=
  match s.prev with
  | none => 0
  | some p => s.now - p

/-- `CheckTimeouts` for this record, base/dabc/Thread.h:200-214, base/src/Thread.cxx:1301-1319. -/
def check (h : List Inner) (s : S) : S :=
  match s.next with
  | none => s
  | some n => if s.now ≤ n then s else setNext s.now (process (diffOf s) h s)

inductive Op where
  | wait (d : Nat)
  | start
  | stop
  | shoot (d : Int)
  | event
  | check (h : List Inner)
  deriving DecidableEq, Repr

def step (s : S) : Op → S
  | .wait d => { s with now := s.now + d }
  | .start => start s
  | .stop => stop s
  | .shoot d => activate d s
  | .event => event s
  | .check h => check h s

def run (s : S) (os : List Op) : S := os.foldl step s

/-- A new timer. -/
def new (now period : Int) (sync : Bool) : S := { now := now, period := period, sync := sync }

end Verif.Timer
