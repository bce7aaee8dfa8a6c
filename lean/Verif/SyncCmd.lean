/-!
# Model of the commands of a module with main loop

`ModuleSync::PreviewCommand`, base/src/ModuleSync.cxx:195-232, `AsyncProcessCommands`, 260-272, with the calls of
`Module::DoStart` and `DoStop`.  Commands are numbers.  Commands known to the base classes are left out: `n` stands for a
command which the module itself executes.

The code of a command may process further events (`Recv`, `Send`, `Execute` and so on call `SingleLoop`), therefore
every step can happen while commands are being executed.  Left out: the reply, `SetSyncCommands` during the run.
-/

namespace Verif.SyncCmd

/-- From where `AsyncProcessCommands` was called: `ModuleWorking`, `ObjectCleanup`, or the command `StopModule`, which
calls `DoStop` afterwards. -/
inductive Cont where
  | work | stop
  deriving DecidableEq, Repr

/-- `q`: `fNewCommands`.  `frames`: calls of `AsyncProcessCommands` in progress, the innermost first; each of them
executes a command.  `arrived` and `done` are ghosts: commands given to the module, commands whose execution began. -/
structure S where
  running : Bool
  sync : Bool
  q : Option (List Nat)
  frames : List Cont
  arrived : List Nat
  done : List Nat
  deriving DecidableEq, Repr

/-- Other commands, base/src/ModuleSync.cxx:218-231.  An ignored command is executed at once
(`Worker::ProcessCommand`). -/
def arrive (s : S) (n : Nat) : S :=
  let s := { s with arrived := s.arrived ++ [n] }
  if !s.sync && s.running then { s with q := some (s.q.getD [] ++ [n]) }
  else { s with done := s.done ++ [n] }

/-- One turn of the `while` in `AsyncProcessCommands`, base/src/ModuleSync.cxx:264-271: the next command, or the end.
`none`: `fNewCommands` is a null pointer. -/
def turn (s : S) : Option S :=
  match s.q with
  | none => none
  | some [] =>
    match s.frames with
    | [] => some s
    | .work :: fs => some { s with q := none, frames := fs }
    | .stop :: fs => some { s with q := none, frames := fs, running := false }
  | some (n :: l) => some { s with q := some l, done := s.done ++ [n] }

/-- Call of `AsyncProcessCommands`, base/src/ModuleSync.cxx:262. -/
def drain (s : S) (c : Cont) : Option S :=
  match s.q with
  | none => some (match c with | .work => s | .stop => { s with running := false })
  | some _ => turn { s with frames := c :: s.frames }

/-- Steps: a command arrives; `AsyncProcessCommands` is called; the executed command ends; `StopModule`; `StartModule`;
`DoStop` without this command (`Module::Stop`, base/src/Module.cxx:249-256, and the automatic stop, 898-913). -/
inductive Act where
  | arrive (n : Nat) | drain | ret | stop | start | autoStop
  deriving DecidableEq, Repr

/-- One step; `Except.error` is the use of a null pointer. -/
def act (s : S) : Act → Except Unit S
  | .arrive n => .ok (arrive s n)
  | .drain => match drain s .work with | some s => .ok s | none => .error ()
  | .ret =>
    match s.frames with
    | [] => .ok s
    | _ => match turn s with | some s => .ok s | none => .error ()
  | .stop => if s.running then (match drain s .stop with | some s => .ok s | none => .error ()) else .ok s
  | .start => .ok { s with running := true }
  | .autoStop => .ok { s with running := false }

def acts : S → List Act → Except Unit S
  | s, [] => .ok s
  | s, a :: as => match act s a with | .ok s => acts s as | .error e => .error e

/-- A module without commands. -/
def fresh (running sync : Bool) : S := ⟨running, sync, none, [], [], []⟩

end Verif.SyncCmd
