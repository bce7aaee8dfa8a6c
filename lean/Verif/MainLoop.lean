import Mathlib.Data.List.Basic
/-!
# Main loop of the manager

Code: `base/src/Manager.cxx`: `RunManagerMainLoop` (1631-1696), `ProcessCtrlCSignal`
(1589-1613), `ProcessPipeSignal` (1615-1627), the command `StopManagerMainLoop` (1241-1243) and
the reply of the application in `ReplyCommand` (1303-1307).

Simplifications.
* Time is counted in milliseconds since the start of the clock.  As in `TimeStamp` the value 0
  is a time stamp which is not set.
* A pass of the loop reads the clock once (the code reads it up to three times).
* The manager has a thread.  What the thread does while the loop sleeps are the other
  operations, which can come at any time.
-/

namespace Verif.MainLoop

/-- Observable actions. -/
inductive Ev
  /-- the loop starts -/
  | entered
  /-- the application is asked to halt -/
  | halt (t : Nat)
  /-- `RunManagerMainLoop` returns from the loop -/
  | left (t : Nat)
  /-- `RunManagerMainLoop` returns without entering the loop -/
  | refused
  /-- the process ends in `ProcessCtrlCSignal` -/
  | exit (t : Nat)
  deriving DecidableEq

/-- `fMgrStoppedTime`, `fAppFinished`, and the local variables of the main loop. -/
structure St where
  stopped : Nat
  finished : Bool
  looping : Bool
  gone : Bool
  start : Nat
  runtime : Nat
  appstopped : Bool
  log : List Ev

def St.init : St := ⟨0, false, false, false, 0, 0, false, []⟩

/-- `TimeStamp::null` (`base/dabc/timing.h:131`). -/
def isNull (t : Nat) : Bool := t == 0

/-- `TimeStamp::Expired` (`base/dabc/timing.h:163`). -/
def expired (t now interval : Nat) : Bool := decide (now > t + interval)

/-- Set the stop time when it is not set (`Manager.cxx:1242, 1596-1599, 1622-1625`). -/
def note (s : St) (now : Nat) : St := if isNull s.stopped then { s with stopped := now } else s

/-- `RunManagerMainLoop` up to the loop, `Manager.cxx:1638-1663`. -/
def enter (s : St) (runtime now : Nat) : St :=
  if isNull s.stopped then
    { s with looping := true, start := now, runtime := runtime, appstopped := false,
             log := s.log ++ [.entered] }
  else { s with log := s.log ++ [.refused] }

/-- End of the loop. -/
def leave (s : St) (now : Nat) : St := { s with looping := false, log := s.log ++ [.left now] }

/-- `Manager.cxx:1687-1690`. -/
def haltApp (s : St) (now : Nat) : St :=
  if s.appstopped then s else { s with appstopped := true, log := s.log ++ [.halt now] }

/-- Loop body after the sleep, `Manager.cxx:1676-1692`. -/
def pass (s : St) (now : Nat) : St :=
  if s.appstopped && s.finished then leave s now
  else if isNull s.stopped && (s.runtime == 0 || !expired s.start now s.runtime) then s
  else
    let s1 := haltApp (note s now) now
    if expired s1.stopped now 10000 then leave s1 now else s1

/-- `ProcessCtrlCSignal`, `Manager.cxx:1589-1613`. -/
def ctrlC (s : St) (now : Nat) : St :=
  if isNull s.stopped then { s with stopped := now }
  else if now < s.stopped + 10000 then s
  else { s with gone := true, looping := false, log := s.log ++ [.exit now] }

inductive Op
  | enter (runtime now : Nat)
  | pass (now : Nat)
  | ctrlC (now : Nat)
  | pipe (now : Nat)
  | stopCmd (now : Nat)
  | reply

/-- One operation. The main program is either in the loop or not; nothing happens after the
end of the process. -/
def step (s : St) (o : Op) : St :=
  if s.gone then s
  else match o with
    | .enter r now => if s.looping then s else enter s r now
    | .pass now => if s.looping then pass s now else s
    | .ctrlC now => ctrlC s now
    | .pipe now => note s now
    | .stopCmd now => note s now
    | .reply => { s with finished := true }

def run (s : St) (ops : List Op) : St := ops.foldl step s

end Verif.MainLoop
