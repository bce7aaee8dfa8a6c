import Verif.Url
import Verif.Json
/-!
# Command to create a transport

Code: `base/src/Manager.cxx:1000-1109` (branch `CmdCreateTransport` of
`Manager::ExecuteCommand`).

Simplifications.
* The search for devices and ports by name, the values of the configuration and the results of
  factories, of `MakeThreadForWorker` and of `LocalTransport::ConnectPorts` are inputs.
* Factories do not change the name of the port in the command.
-/

namespace Verif.TransCmd
open Verif.Bytes Verif.Url Verif.Json

abbrev Text := List Byte

/-- Loop `Manager.cxx:1017-1026` over the values of `urlopt`, `urlopt1`, `urlopt2`. -/
def appendOpts (has : Bool) (kind : Text) : List Text → Text
  | [] => kind
  | o :: l =>
    if o = [] then appendOpts has kind l
    else appendOpts true (kind ++ (if has then [38] else [63]) ++ o) l

/-- Kind of the transport, `Manager.cxx:1005-1028`. `cfgUrl`: configured url of the port,
`cfgOpts`: configured options. `none`: undefined behaviour in the analysis of the url. -/
def transportKind (kind cfgUrl : Text) (cfgOpts : List Text) : Option Text :=
  if kind ≠ [] then some kind
  else (setUrl cfgUrl).bind fun u =>
    if u.valid then some (appendOpts (decide (0 < u.options.length)) cfgUrl cfgOpts)
    else some cfgUrl

/-- What is known about the port. -/
structure Port where
  isInput : Bool
  isOutput : Bool
  name : Text
  thrd : Text
  cfgUrl : Text
  cfgOpts : List Text
  cfgThrd : Text

/-- Devices and ports which are found by name; factories: which of them creates a transport;
results of connections. -/
structure World where
  device : Text → Option Nat
  port : Text → Option Nat
  factories : List (Text → Option Nat)
  /-- result of connecting the ports, of connecting their bind ports, of making the thread -/
  connects : Bool
  bindConnects : Bool
  makesThread : Bool
  /-- results of connecting the port with the transport made by a factory -/
  inpConnects : Bool
  outConnects : Bool

/-- Layout of threads; `permodule` stands also for the default branch. -/
inductive Layout | minimal | permodule | balanced | maximal

inductive Out
  /-- the command is answered and nothing else is done -/
  | refused
  | disconnected
  /-- the command is given to the device with this url -/
  | toDevice (d : Nat) (url : Text)
  /-- ports are connected directly; result -/
  | locally (p : Nat) (res : Bool)
  /-- transport made by a factory, in a thread; whether input and output of the
  port are connected with it (results are not looked at, `Manager.cxx:1101-1104`) -/
  | made (tr : Nat) (thrd : Text) (inp out : Bool)
  /-- transport made by a factory but destroyed as there is no thread -/
  | noThread (tr : Nat)

/-- `Manager.cxx:1067-1071`. -/
def askFactories (kind : Text) : List (Text → Option Nat) → Option Nat
  | [] => none
  | f :: l => match f kind with
    | some t => some t
    | none => askFactories kind l

/-- Thread for the transport, `Manager.cxx:1081-1089`. `mgr`: thread of the manager. -/
def threadName (lay : Layout) (mgr : Text) (p : Port) : Text :=
  if p.cfgThrd ≠ [] then p.cfgThrd
  else match lay with
    | .minimal => mgr
    | .permodule => p.thrd
    | .balanced => p.thrd ++ (if p.isInput then lit "Inp" else lit "Out")
    | .maximal => p.thrd ++ p.name

/-- The device for a kind, `Manager.cxx:1041-1045`. -/
def findDevice (w : World) (kind : Text) : Option (Option Nat) :=
  (setUrl kind).map fun u =>
    match w.device kind with
    | some d => some d
    | none =>
      if u.valid && (u.protocol == lit "dev" || u.protocol == lit "device")
      then w.device u.fullName else none

/-- The command, `Manager.cxx:1000-1109`, `none`: undefined. -/
def create (w : World) (lay : Layout) (mgr kind : Text) (port : Option Port) : Option Out :=
  match port with
  | none => some .refused
  | some p => (transportKind kind p.cfgUrl p.cfgOpts).bind fun k =>
    if k = [] then some .disconnected
    else (findDevice w k).map fun
      | some d => .toDevice d k
      | none => match w.port k with
        | some q => .locally q (w.connects && w.bindConnects)
        | none => match askFactories k w.factories with
          | none => .refused
          | some t =>
            if w.makesThread then .made t (threadName lay mgr p)
                (p.isInput && w.inpConnects) (p.isOutput && w.outConnects)
            else .noThread t

/-- Answer to the command; `none`: given by the device later. -/
def answer : Out → Option Bool
  | .refused => some false
  | .disconnected => some true
  | .toDevice _ _ => none
  | .locally _ r => some r
  | .made _ _ _ _ => some true
  | .noThread _ => some false

end Verif.TransCmd
