/-!
# Model of the run state and the connections of a module

base/src/Module.cxx:269-281, 563-606, 822-929 (`DisconnectPort`, `DoStart`, `DoStop`, `ProcessEvent`),
base/src/Port.cxx:194-218 (`TryNextReconnect`), base/dabc/Port.h:130-137 (`ConfigureReconnect`),
base/src/ModuleItem.cxx:156-182 (`ConnTimer::ProcessTimeout`).

A port is reduced to the members which these functions read.  Everything a module tells to user code or to
the outside is recorded as a list of effects in the order in which it happens.

Simplifications: the virtual methods which user code overrides (`BeforeModuleStart`, `AfterModuleStop`,
`ProcessItemEvent`) are recorded and do not change the module; the periods of timers are left out, only
"active or not" is kept; the result of `dabc::mgr.CreateTransport` is an input of the step.  The connection
state of a port is changed by the other side of the queue, which are steps of their own (`connected`,
`lost`).  The state of the connection request object is left out.
-/

namespace Verif.ModConn

/-- `fOnError`, base/src/Port.cxx:202-215; `other` is every other string, also the empty one. -/
inductive OnError where
  | none | stop | exit | abort | other
  deriving DecidableEq, Repr

/-- Members of `Port`, base/dabc/Port.h:67-77.  `connected` is `IsConnected()`, `period` tells if
`fReconnectPeriod > 0`, `req` the connection request with its "optional" flag, `timer` tells if the `ConnTimer`
of the port is active, `pool` if the port is a `PoolHandle`. -/
structure Port where
  pool : Bool
  connected : Bool
  period : Bool
  limit : Int
  doing : Bool
  onError : OnError
  req : Option Bool
  timer : Bool
  deriving DecidableEq, Repr

/-- Members of `Module`: `fRunState`, `fAutoStop` and the items which are ports. -/
structure St where
  running : Bool
  auto : Bool
  ports : List Port
  deriving DecidableEq, Repr

/-- What is done to the outside: the calls of `BeforeModuleStart` and `AfterModuleStop`, of `DoStart` and
`DoStop` of all items, of `ProcessItemEvent` with a data event, a connect or a disconnect event, of
`CreateTransport`, of `Port::Disconnect` and of `StopApplication`. -/
inductive Eff where
  | before | after | itemsOn | itemsOff
  | data (i : Nat) | connect (i : Nat) | disconnect (i : Nat)
  | attempt (i : Nat) | closed (i : Nat) | exitApp
  deriving DecidableEq, Repr

/-- How the program ends: `abort()` or use of a null pointer. -/
inductive Bad where
  | abort | crash
  deriving DecidableEq, Repr

/-- Result of a step. -/
abbrev Res := Except Bad (List Eff × St)

/-- Change of one port. -/
def setPort (s : St) (i : Nat) (p : Port) : St := { s with ports := s.ports.set i p }

/-- `Module::DoStart`, base/src/Module.cxx:563-584. -/
def doStart (s : St) : List Eff × St :=
  if s.running then ([], s) else ([.before, .itemsOn], { s with running := true })

/-- `Module::DoStop`, base/src/Module.cxx:586-606. -/
def doStop (s : St) : List Eff × St :=
  if !s.running then ([], s) else ([.itemsOff, .after], { s with running := false })

/-- The condition of `TryNextReconnect` with its side effect on `fReconnectLimit`, base/src/Port.cxx:198. -/
def countDown (p : Port) : Bool × Port :=
  if p.period then
    if p.limit < 0 then (true, p) else (decide (p.limit > 0), { p with limit := p.limit - 1 })
  else (false, p)

/-- `Port::TryNextReconnect`, base/src/Port.cxx:194-218. -/
def tryNext (s : St) (i : Nat) (p : Port) (can : Bool) : Except Bad (Bool × List Eff × St) :=
  let r := countDown p
  if r.1 then .ok (true, [], setPort s i r.2)
  else
    let q := { r.2 with doing := false }
    match p.onError with
    | .none => .ok (false, [], setPort s i q)
    | .stop => let d := doStop (setPort s i q); .ok (false, d.1, d.2)
    | .exit => .ok (false, [.exitApp], setPort s i q)
    | .abort => .error .abort
    | .other =>
      if can then .ok (false, [.closed i], setPort s i { q with connected := false })
      else .ok (false, [], setPort s i q)

/-- The test of `ProcessEvent`, base/src/Module.cxx:901-905: an output or an input which is connected or
for which reconnection is tried. -/
def alive (s : St) : Bool := s.ports.any fun p => !p.pool && (p.connected || p.doing)

/-- End of the case `evntPortDisconnect`, base/src/Module.cxx:900-914. -/
def stopTail (s : St) (dostop : Bool) : List Eff × St :=
  if s.auto && s.running && !dostop then
    if alive s then ([], s) else doStop s
  else if dostop then doStop s else ([], s)

/-- `dostop` as it is set from the connection request, base/src/Module.cxx:858-867. -/
def mandatory (s : St) (p : Port) : Bool :=
  match p.req with
  | .some false => s.auto && s.running
  | _ => false

/-- `ProcessEvent` with `evntPortDisconnect` or `evntPortError`, base/src/Module.cxx:847-916. -/
def evDisconnect (s : St) (i : Nat) : Res :=
  match s.ports[i]? with
  | .none => .ok (stopTail s false)
  | .some p =>
    let d := mandatory s p
    if p.req.isNone then do
      let r ← tryNext s i p s.auto
      if r.1 then
        match r.2.2.ports[i]? with
        | .none => .error .crash
        | .some q => .ok (.disconnect i :: r.2.1, setPort r.2.2 i { q with doing := true, timer := true })
      else
        let t := stopTail r.2.2 d
        .ok (.disconnect i :: (r.2.1 ++ t.1), t.2)
    else
      let t := stopTail s d
      .ok (.disconnect i :: t.1, t.2)

/-- `ProcessEvent` with `evntPortConnect`, base/src/Module.cxx:834-845: `ProcessItemEvent` is called also with
a null item and reads its name, base/src/ModuleAsync.cxx:70-72. -/
def evConnect (s : St) (i : Nat) : Res :=
  match s.ports[i]? with
  | .none => .error .crash
  | .some _ => .ok ([.connect i], s)

/-- `ProcessEvent` with one of the events of base/src/Module.cxx:825-833 for a port. -/
def evData (s : St) (i : Nat) : Res :=
  if s.running then
    match s.ports[i]? with
    | .none => .error .crash
    | .some _ => .ok ([.data i], s)
  else .ok ([], s)

/-- `ConnTimer::ProcessTimeout`, base/src/ModuleItem.cxx:156-182, with the result of `CreateTransport` and the
connection state after it. -/
def connTimer (s : St) (i : Nat) (ok conn : Bool) : Res :=
  match s.ports[i]? with
  | .none => .ok ([], s)
  | .some p =>
    if !p.timer then .ok ([], s)
    else if !p.doing then .ok ([], setPort s i { p with timer := false })
    else if p.connected then .ok ([], setPort s i { p with doing := false, timer := false })
    else if ok then .ok ([.attempt i], setPort s i { p with doing := false, timer := false, connected := conn })
    else do
      let r ← tryNext s i p true
      if r.1 then .ok (.attempt i :: r.2.1, r.2.2)
      else
        match r.2.2.ports[i]? with
        | .none => .error .crash
        | .some q => .ok (.attempt i :: r.2.1, setPort r.2.2 i { q with timer := false })

/-- `Module::DisconnectPort`, base/src/Module.cxx:269-281. -/
def disconnectPort (s : St) (i : Nat) : Res :=
  match s.ports[i]? with
  | .none => .ok ([], s)
  | .some p => .ok ([.closed i, .disconnect i], setPort s i { p with connected := false })

/-- `Port::ConfigureReconnect(period, numtry)`, base/dabc/Port.h:130-137; `pos` tells if the period is positive. -/
def configure (s : St) (i : Nat) (pos : Bool) (num : Int) : Res :=
  match s.ports[i]? with
  | .none => .ok ([], s)
  | .some p =>
    let q := { p with period := pos, limit := num }
    if !pos && decide (num ≥ 0) then .ok ([], setPort s i { q with period := true })
    else if !pos then .ok ([], setPort s i { q with doing := false })
    else .ok ([], setPort s i q)

/-- Change of the connection state by `SetQueue` or by the other side of the queue. -/
def setConn (s : St) (i : Nat) (c : Bool) : Res :=
  match s.ports[i]? with
  | .none => .ok ([], s)
  | .some p => .ok ([], setPort s i { p with connected := c })

/-- What can happen to a module, in its thread. -/
inductive Op where
  | start | stop
  | evData (i : Nat) | evConnect (i : Nat) | evDisconnect (i : Nat)
  | connTimer (i : Nat) (ok conn : Bool)
  | connected (i : Nat) | lost (i : Nat)
  | disconnectPort (i : Nat) | configure (i : Nat) (pos : Bool) (num : Int)
  deriving DecidableEq, Repr

/-- One step. -/
def step (s : St) : Op → Res
  | .start => .ok (doStart s)
  | .stop => .ok (doStop s)
  | .evData i => evData s i
  | .evConnect i => evConnect s i
  | .evDisconnect i => evDisconnect s i
  | .connTimer i ok conn => connTimer s i ok conn
  | .connected i => setConn s i true
  | .lost i => setConn s i false
  | .disconnectPort i => disconnectPort s i
  | .configure i pos num => configure s i pos num

/-- An execution. -/
def run (s : St) : List Op → Res
  | [] => .ok ([], s)
  | o :: os => do
    let r ← step s o
    let t ← run r.2 os
    .ok (r.1 ++ t.1, t.2)

end Verif.ModConn
