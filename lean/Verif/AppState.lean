/-!
# The state machine of an application: `dabc::Application`

`base/src/Application.cxx:24-430`, `base/dabc/Application.h:44-77`; of the manager
`base/src/Manager.cxx:944-999, 1162-1191, 1255-1277` (create, start, stop and delete devices, pools
and modules).

State commands bring the application from one state to another; creating the objects may end with a
command to the connection manager, whose reply completes the transition later.

What is simplified:

* Names of devices, pools and modules are numbers.
* Commands to the manager (`CreateModule`, `StartModule`, …) are executed at once: the code waits
  for their replies.  In the meantime the event loop of the application may execute other commands;
  state commands are refused then, because the state is `Transition`.
* Whether the creation of an object succeeds, whether the transports of a module can be created,
  and the number of connections are inputs of the command (`Init`).  Modules which are created by
  factories together with a transport are not modelled.
* `StartModule` of a module which exists makes it run, `StopModule` stops it.
* A missing `name` attribute is `none`; `std::string(NULL)` is the outcome `crashed`.
-/

namespace Verif.AppState

/-- States (`Application.h:83-87`). -/
inductive St
  | halted | ready | running | failure | transition
  deriving DecidableEq, Repr

/-- A node of the configuration from which an object is created. -/
structure Item where
  /-- attribute `name` -/
  name : Option Nat
  /-- attribute `class` is there -/
  cls : Bool := true
  /-- class `dabc::Publisher` of a module -/
  pub : Bool := false
  /-- the manager can create the object (or has it, with the same class) -/
  ok : Bool := true
  /-- all transports for the ports of the module can be created -/
  ports : Bool := true
  deriving DecidableEq, Repr

/-- How the objects are created (`Application.cxx:227-236`). -/
inductive Init
  /-- by `fInitFunc` or `CreateAppModules`, which register their objects -/
  | own (devs pools mods : List Nat)
  /-- from the configuration; `conns`: there are connections -/
  | cfg (devs pools mods : List Item) (conns : Bool)
  deriving Repr

structure App where
  /-- `fSelfControl` -/
  self : Bool := true
  /-- parameter with the state -/
  st : St := .halted
  /-- `fAppDevices`, `fAppPools`, `fAppModules` -/
  devs : List Nat := []
  pools : List Nat := []
  mods : List Nat := []
  /-- devices of the manager -/
  mDevs : List Nat := []
  /-- pools of the manager -/
  mPools : List Nat := []
  /-- modules of the manager and whether they run -/
  mMods : List (Nat × Bool) := []
  /-- `ActivateConnections` commands under way: the state command and its target -/
  pend : List (Nat × St) := []
  /-- replies to state commands -/
  replies : List (Nat × Int) := []
  /-- the timeout is active -/
  timer : Bool := false
  /-- `fAnyModuleWasRunning` -/
  anyRun : Bool := false
  /-- how often `StopApplication` was called -/
  stops : Nat := 0
  crashed : Bool := false
  deriving DecidableEq, Repr

/-! ## Objects -/

/-- Set the running flag of module `n`. -/
def setRun (n : Nat) (b : Bool) (l : List (Nat × Bool)) : List (Nat × Bool) :=
  l.map fun m => if m.1 = n then (n, b) else m

/-- `StartModules` (`Application.cxx:389-395`). -/
def App.startModules (s : App) : App :=
  { s with mMods := s.mods.foldl (fun l n => setRun n true l) s.mMods }

/-- `StopModules` (`Application.cxx:397-403`). -/
def App.stopModules (s : App) : App :=
  { s with mMods := s.mods.foldl (fun l n => setRun n false l) s.mMods }

/-- `CleanupApplication` (`Application.cxx:405-421`). -/
def App.cleanup (s : App) : App :=
  { s with
    mMods := s.mMods.filter fun m => !s.mods.contains m.1
    mPools := s.mPools.filter fun n => !s.pools.contains n
    mDevs := s.mDevs.filter fun n => !s.devs.contains n
    mods := [], pools := [], devs := [] }

/-- `IsModulesRunning` (`Application.cxx:216-224`). -/
def App.modulesRunning (s : App) : Bool := s.mods.any fun n => s.mMods.contains (n, true)

/-- Devices of the configuration (`Application.cxx:240-251`); `some b`: all could be created. -/
def App.makeDevs (s : App) : List Item → App × Option Bool
  | [] => (s, some true)
  | d :: l =>
    match d.name with
    | none => s.makeDevs l
    | some n =>
      if d.cls then
        let s := { s with devs := s.devs ++ [n] }
        if d.ok then
          ({ s with mDevs := if n ∈ s.mDevs then s.mDevs else s.mDevs ++ [n] } : App).makeDevs l
        else (s, some false)
      else s.makeDevs l

/-- Memory pools of the configuration (`Application.cxx:264-272`); `none`: `std::string(NULL)`. -/
def App.makePools (s : App) : List Item → App × Option Bool
  | [] => (s, some true)
  | d :: l =>
    match d.name with
    | none => (s, none)
    | some n =>
      let s := { s with pools := s.pools ++ [n] }
      if d.ok then
        ({ s with mPools := if n ∈ s.mPools then s.mPools else s.mPools ++ [n] } : App).makePools l
      else (s, some false)

/-- Modules of the configuration with their transports (`Application.cxx:274-320`). -/
def App.makeMods (s : App) : List Item → App × Option Bool
  | [] => (s, some true)
  | d :: l =>
    if d.cls then
      match d.name with
      | none => (s, none)
      | some n =>
        if n ∈ s.mMods.map Prod.fst then s.makeMods l
        else if d.pub then s.makeMods l
        else
          let s := { s with mods := s.mods ++ [n] }
          if d.ok then
            let s := { s with mMods := s.mMods ++ [(n, false)] }
            if d.ports then s.makeMods l else (s, some false)
          else (s, some false)
    else s.makeMods l

/-- Result of a step: `cmd_true`, `cmd_false`, `cmd_postponed`, or the end of the process. -/
inductive Res
  | yes | no | later | crash
  deriving DecidableEq, Repr

def Res.ofBool (b : Bool) : Res := if b then .yes else .no

/-- Command `c` with target `tgt`: `CallInitFunc` (`Application.cxx:227-386`). -/
def App.callInit (s : App) (c : Nat) (tgt : St) : Init → App × Res
  | .own devs pools mods =>
    ({ s with
        devs := s.devs ++ devs, pools := s.pools ++ pools, mods := s.mods ++ mods
        mDevs := s.mDevs ++ devs, mPools := s.mPools ++ pools
        mMods := s.mMods ++ mods.map fun n => (n, false) }, .yes)
  | .cfg devs pools mods conns =>
    match s.makeDevs devs with
    | (s, none) => (s, .crash)
    | (s, some false) => (s, .no)
    | (s, some true) =>
      match s.makePools pools with
      | (s, none) => (s, .crash)
      | (s, some false) => (s, .no)
      | (s, some true) =>
        match s.makeMods mods with
        | (s, none) => (s, .crash)
        | (s, some false) => (s, .no)
        | (s, some true) =>
          if conns then ({ s with pend := s.pend ++ [(c, tgt)] }, .later) else (s, .yes)

/-! ## Transitions -/

/-- The end of `DoTransition` (`Application.cxx:194-197`) and the reply of the command. -/
def App.finish (s : App) (c : Nat) (tgt : Option St) : Res → App
  | .yes => { s with st := tgt.getD .failure, replies := s.replies ++ [(c, 1)] }
  | .no => { s with st := .failure, replies := s.replies ++ [(c, 0)] }
  | .later => s
  | .crash => { s with crashed := true }

/-- `ActivateTimeout(0.2)` when the application controls itself (`Application.cxx:78,184`). -/
def App.watch (s : App) : App := if s.self then { s with timer := true } else s

/-- The part of `DoTransition` for each target (`Application.cxx:167-192`); `cur` is the state from
which the transition starts. -/
def App.go (s : App) (c : Nat) (cur : St) (tgt : Option St) (i : Init) : App × Res :=
  match tgt with
  | some .halted => ((if cur = .running then s.stopModules else s).cleanup, .yes)
  | some .ready =>
    if cur = .halted then s.callInit c .ready i
    else if cur = .running then (s.stopModules, .yes)
    else (s, .yes)
  | some .running =>
    if cur = .halted then
      match s.callInit c .running i with
      | (s, .yes) => (s.startModules.watch, .yes)
      | (s, r) => (s, r)
    else if cur = .ready then (s.startModules.watch, .yes)
    else (s.watch, .yes)
  | some .failure => (s.stopModules, .yes)
  | _ => (s, .no)

/-- `DoTransition` (`Application.cxx:146-198`); `tgt = none`: any other text. -/
def App.transition (s : App) (c : Nat) (tgt : Option St) (i : Init) : App :=
  if tgt = some s.st then { s with replies := s.replies ++ [(c, 1)] }
  else if s.st = .transition then { s with replies := s.replies ++ [(c, 0)] }
  else
    let cur := s.st
    let s := { s with st := .transition }
    let r := if cur = .failure then s.cleanup.go c .halted tgt i else s.go c cur tgt i
    r.1.finish c tgt r.2

/-- `ReplyCommand` for `ActivateConnections` (`Application.cxx:66-87`) with the result `r`. -/
def App.connected (s : App) (r : Int) : App :=
  match s.pend with
  | [] => s
  | (c, tgt) :: l =>
    let s := { s with pend := l }
    let s := if tgt = .running ∧ r = 1 then s.startModules.watch else s
    let s := if r = 1 then { s with st := tgt } else s
    let s := if r = 0 then { s with st := .failure } else s
    { s with replies := s.replies ++ [(c, r)] }

/-- `ProcessTimeout` (`Application.cxx:200-213`). -/
def App.timeout (s : App) : App :=
  if s.timer then
    if !s.self || s.st ≠ .running then { s with timer := false }
    else if s.modulesRunning then { s with anyRun := true }
    else if !s.anyRun then s
    else { s with stops := s.stops + 1, timer := false }
  else s

inductive Kind
  | device | pool | module | other
  deriving DecidableEq, Repr

/-- What happens. -/
inductive Op
  /-- a state command `c` (`Application.cxx:90-104`): `CmdStateTransition` or one of `DoConfigure`,
  `DoStart`, `DoStop`, `DoHalt` -/
  | cmd (c : Nat) (tgt : Option St) (i : Init)
  /-- reply of the connection manager -/
  | reply (r : Int)
  /-- `AddAppObject` (`Application.cxx:106-119`) -/
  | add (k : Kind) (n : Nat)
  /-- `StartAllModules` (`Application.cxx:121-124`) -/
  | startAll
  /-- `StopAllModules` (`Application.cxx:126-129`) -/
  | stopAll
  /-- a module stops or starts without the application -/
  | run (n : Nat) (b : Bool)
  /-- somebody else creates an object -/
  | create (k : Kind) (n : Nat)
  /-- the timer fires -/
  | timeout
  deriving Repr

def App.step (s : App) (o : Op) : App :=
  if s.crashed then s
  else
    match o with
    | .cmd c tgt i => s.transition c tgt i
    | .reply r => s.connected r
    | .add .device n => { s with devs := s.devs ++ [n] }
    | .add .pool n => { s with pools := s.pools ++ [n] }
    | .add .module n => { s with mods := s.mods ++ [n] }
    | .add .other _ => s
    | .startAll => s.startModules
    | .stopAll => s.stopModules
    | .run n b => { s with mMods := setRun n b s.mMods }
    | .create .device n => { s with mDevs := s.mDevs ++ [n] }
    | .create .pool n => { s with mPools := s.mPools ++ [n] }
    | .create .module n => { s with mMods := s.mMods ++ [(n, false)] }
    | .create .other _ => s
    | .timeout => s.timeout

def App.run (s : App) : List Op → App
  | [] => s
  | o :: ops => (s.step o).run ops

end Verif.AppState
