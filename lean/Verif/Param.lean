/-!
# Parameters: rates, averages and modified events

`base/src/Parameter.cxx:92-292, 365-499`, `base/dabc/Parameter.h:52-77`,
`base/src/Worker.cxx:620-637` (`WorkerParameterChanged`).

Values, times and intervals are rational numbers: `double` is taken as exact.  `svalue`, the text made of the value,
is the value itself, `none` is the empty text.  The other fields are texts, only one of them is kept (`attr`).
`_CanChangeField` is always true here (see `Verif/ConnObject.lean` for the class which overwrites it).  The calls of
other threads are operations; all of them hold the mutex of the parameter while they change it.
-/

namespace Verif.Param

/-- `EStatistic` (`Parameter.h:59`). -/
inductive Kind | none | rate | average
deriving DecidableEq, Repr

/-- What can be seen outside. -/
inductive Out
  /-- `FireModified(svalue)` at a time. -/
  | modified (now : Rat) (v : Option Rat)
  /-- `WorkerParameterChanged(false, this, svalue)`. -/
  | told (v : Option Rat)
  /-- `FireConfigured`. -/
  | configured
deriving DecidableEq

/-- `ParameterContainer` (`Parameter.h:52-77`). -/
structure Par where
  kind : Kind := .none
  async : Bool := false
  interval : Rat := 1
  last : Option Rat := none
  valueSum : Rat := 0
  timeSum : Rat := 0
  numSum : Rat := 0
  value : Option Rat := none
  attr : Option String := none
  attrModified : Bool := false
  monitored : Bool := false
  recorded : Bool := false
  waitWorker : Bool := false
  worker : Bool := true
  out : List Out := []

def Par.watched (p : Par) : Bool := p.monitored || p.recorded

/-- The value which `_CalcRate` computes (`Parameter.cxx:267-271`); 0 is the value before the call. -/
def Par.calc (p : Par) : Rat :=
  if p.kind = .rate then p.valueSum / p.timeSum
  else if p.kind = .average ∧ p.numSum > 0 then p.valueSum / p.numSum
  else 0

/-- Whether `_CalcRate` gives a value (`Parameter.cxx:265`). -/
def Par.due (p : Par) : Bool := !(decide (p.timeSum < p.interval) || decide (p.timeSum < 1 / 1000000))

/-- `_CalcRate` resets the sums (`Parameter.cxx:273-275`). -/
def Par.clear (p : Par) : Par := { p with valueSum := 0, timeSum := 0, numSum := 0 }

/-- The end of `SetField` and `ProcessTimeout`: the worker is informed (`Parameter.cxx:155-169, 247-257`).
`always`: also without reported value. -/
def Par.inform (p : Par) (always report : Bool) (v : Option Rat) : Par :=
  let signal := p.watched && report && !p.waitWorker
  let p := if signal then { p with waitWorker := true } else p
  if signal || always then
    if p.worker then { p with out := p.out ++ [.told v] } else { p with waitWorker := false }
  else p

/-- `FireModified` (`Parameter.cxx:191-199`). -/
def Par.fire (p : Par) (now : Rat) (v : Option Rat) : Par := { p with out := p.out ++ [.modified now v] }

/-- A value of a ratemeter is summed up (`Parameter.cxx:114-115`). -/
def Par.add (p : Par) (x : Rat) : Par := { p with valueSum := p.valueSum + x, numSum := p.numSum + 1 }

/-- The time of a synchronous ratemeter (`Parameter.cxx:122-124`). -/
def Par.clock (p : Par) (now : Rat) : Par :=
  { p with last := some (p.last.getD now), timeSum := now - p.last.getD now }

/-- `SetField` of the default field for statistics (`Parameter.cxx:112-131, 155-176`). -/
def Par.setStat (p : Par) (now x : Rat) : Bool × Par :=
  let p := p.add x
  if p.async then (true, p)
  else
    let p := p.clock now
    if p.due then
      let v := p.calc
      (true, ({ p.clear with last := some now, value := some v }.inform p.watched true (some v)).fire now (some v))
    else (false, p.inform p.watched false none)

/-- Whether a plain parameter produces an event (`Parameter.cxx:140-146`). -/
def Par.fires (p : Par) (now : Rat) : Bool :=
  !p.async && (match p.last with
    | none => true
    | some l => decide (p.interval ≤ 0) || decide (l + p.interval < now))

/-- `SetField` of the default field otherwise (`Parameter.cxx:133-176`). -/
def Par.setPlain (p : Par) (now : Rat) (x : Option Rat) : Bool × Par :=
  if p.fires now then (true, ({ p with value := x, last := some now }.inform p.watched true x).fire now x)
  else (true, { p with value := x }.inform p.watched false none)

/-- `SetField` of the default field (`Parameter.cxx:92-177`); `none` is an empty value. -/
def Par.set (p : Par) (now : Rat) (x : Option Rat) : Bool × Par :=
  match p.kind, x with
  | .none, x => p.setPlain now x
  | _, none => p.setPlain now none
  | _, some x => p.setStat now x

/-- `SetField` of another field (`Parameter.cxx:92-177`). -/
def Par.setAttr (p : Par) (x : String) : Par :=
  { p with attr := some x, attrModified := true }.inform p.watched false none

/-- `ProcessTimeout` (`Parameter.cxx:216-261`). -/
def Par.timeout (p : Par) (now diff : Rat) : Par :=
  if p.async = false then p
  else
    let p := { p with timeSum := p.timeSum + diff }
    if p.kind ≠ .none then
      if p.due then
        let v := p.calc
        ({ p.clear with last := some now, value := some v }.inform false true (some v)).fire now (some v)
      else p
    else if p.last ≠ none ∧ p.interval < p.timeSum then
      { p with last := none, timeSum := 0 }.fire now p.value
    else p

/-- `SetRatemeter` and `SetAverage` (`Parameter.cxx:365-392, 434-460`). -/
def Par.setKind (p : Par) (k : Kind) (synchron : Bool) (interval : Rat) : Par :=
  { p with kind := k, interval := interval, async := !synchron, valueSum := 0, timeSum := 0, numSum := 0,
           out := p.out ++ [.configured] }

/-- `DisableRatemeter` and `DisableAverage` (`Parameter.cxx:394-409, 462-478`). -/
def Par.disable (p : Par) : Par := { p with kind := .none, async := false, out := p.out ++ [.configured] }

/-- `SetSynchron` (`Parameter.cxx:283-292, 491-499`). -/
def Par.synchron (p : Par) (on : Bool) (interval : Rat) : Par :=
  { p with async := !on, interval := if interval > 0 then interval else 0, out := p.out ++ [.configured] }

/-- `ConfirmFromWorker` (`Parameter.cxx:179-189`). -/
def Par.confirm (p : Par) : Par := { p with waitWorker := false }

inductive Op
  | set (now : Rat) (x : Option Rat)
  | attr (x : String)
  | timeout (now diff : Rat)
  | confirm
  | monitor (on : Bool)
  | statistic (k : Kind) (synchron : Bool) (interval : Rat)
  | disable
  | synchron (on : Bool) (interval : Rat)

def step (p : Par) : Op → Par
  | .set now x => (p.set now x).2
  | .attr x => p.setAttr x
  | .timeout now d => p.timeout now d
  | .confirm => p.confirm
  | .monitor on => { p with monitored := on }
  | .statistic k s i => p.setKind k s i
  | .disable => p.disable
  | .synchron on i => p.synchron on i

def run (p : Par) (ops : List Op) : Par := ops.foldl step p

end Verif.Param
