import Verif.ConnMgr

/-!
# Connection object: which fields may be changed

`base/src/ConnectionRequest.cxx:41-170`, `base/dabc/ConnectionRequest.h:191-247`,
`base/src/Parameter.cxx:88-167` (`SetField` of a parameter which is not a rate, synchronous, interval 0),
`base/src/Module.cxx:431-467` (`MakeConnReq`), `base/src/Manager.cxx:2179-2193` (end of `ManagerRef::Connect`).

`Prim` are the sections under the mutex of the object; the methods are lists of them.  Values are texts.  Numbers
and booleans of the fields are written as texts.
-/

namespace Verif.ConnObj

open ConnMgr (St)

/-- `GetStateName` (`ConnectionRequest.cxx:65-77`). -/
def stateName : St → String
  | .init => "Init"
  | .pending => "Pending"
  | .connecting => "Connecting"
  | .connected => "Connected"
  | .disconnected => "Disconnected"
  | .broken => "Broken"
  | .failed => "Failed"

structure Obj where
  state : St := .init
  allowed : String := ""
  pool : String := ""
  fields : String → Option String := fun _ => none
  /-- Values with which `FireModified` was called. -/
  fired : List String := []

/-- `_CanChangeField` (`ConnectionRequest.cxx:41-58`). -/
def canChange (o : Obj) (name : String) : Bool × Obj :=
  if o.allowed ≠ "" ∧ o.allowed = name then (true, { o with allowed := "" })
  else if name = "state" ∧ o.allowed = "%%state%%" then (true, { o with allowed := "" })
  else (decide (o.state = .init), o)

/-- The name of the field: the empty name is the default field (`Parameter.cxx:94`, `ConnectionRequest.cxx:60-63`). -/
def fieldName (name : String) : String := if name = "" then "state" else name

/-- `SetField` (`Parameter.cxx:88-167`). -/
def setField (o : Obj) (name value : String) : Bool × Obj :=
  let n := fieldName name
  let c := canChange o n
  if c.1 then
    (true, { c.2 with fields := fun k => if k = n then some value else c.2.fields k,
                      fired := if n = "state" then c.2.fired ++ [value] else c.2.fired })
  else (false, c.2)

/-- `SetAllowedField` (`ConnectionRequest.cxx:119-124`). -/
def setAllowed (o : Obj) (name : String) : Obj := { o with allowed := name }

/-- Whether `ChangeState` goes on (`ConnectionRequest.cxx:91-96`). -/
def changes (o : Obj) (s : St) (force : Bool) : Bool :=
  if o.state = s then false
  else if force then true
  else !(decide (s = .pending) && decide (o.state ≠ .init))

/-- `ChangeState` under the mutex (`ConnectionRequest.cxx:90-103`). -/
def changeBegin (o : Obj) (s : St) (force : Bool) : Obj :=
  if changes o s force then { o with state := s, allowed := if s ≠ .init then "%%state%%" else o.allowed } else o

/-- Whether `SetField` follows (`ConnectionRequest.cxx:100,107`). -/
def signals (o : Obj) (s : St) (force : Bool) : Bool := changes o s force && decide (s ≠ .init)

/-- `ChangeState` (`ConnectionRequest.cxx:85-109`). -/
def changeState (o : Obj) (s : St) (force : Bool) : Obj :=
  if signals o s force then (setField (changeBegin o s force) "" (stateName s)).2 else changeBegin o s force

/-- `~ConnectionRequest` (`ConnectionRequest.h:191`). -/
def release (o : Obj) : Obj := changeState o .pending false

/-- `SetAllowedField(name); SetField(name, value)`. -/
def setForced (o : Obj) (name value : String) : Obj := (setField (setAllowed o name) name value).2

/-- The settings of a port for `MakeConnReq`. -/
structure Cfg where
  url : String
  server : String
  thread : String
  useackn : String
  optional : String
  device : String
  timeout : String

/-- `MakeConnReq` (`Module.cxx:434-460`), with the end of the local reference. -/
def makeReq (o : Obj) (c : Cfg) : Obj :=
  let o := changeState o .init true
  let o := (setField o "url" c.url).2
  let o := (setField o "server" c.server).2
  let o := (setField o "thread" c.thread).2
  let o := (setField o "useackn" c.useackn).2
  let o := (setField o "optional" c.optional).2
  let o := (setField o "device" c.device).2
  let o := (setField o "timeout" c.timeout).2
  release o

/-- End of `ManagerRef::Connect` (`Manager.cxx:2183-2192`): the device which was created last is to be used when no
device is configured. -/
def connect (o : Obj) (c : Cfg) (last : String) : Obj :=
  let o := makeReq o c
  if (o.fields "device").getD "" = "" then (setField o "device" last).2 else o

/-- Attributes of the node for `SetConfigFromXml`; booleans and the number are already converted. -/
structure Node where
  thread : Option String := none
  useackn : Option String := none
  server : Option String := none
  optional : Option String := none
  pool : Option String := none
  device : Option String := none
  timeout : Option String := none

def setAttr (o : Obj) (name : String) : Option String → Obj
  | none => o
  | some v => setForced o name v

/-- `SetConfigFromXml` (`ConnectionRequest.cxx:127-170`). -/
def setConfig (o : Obj) (x : Node) : Obj :=
  let o := setAttr o "thread" x.thread
  let o := setAttr o "useackn" x.useackn
  let o := setAttr o "server" x.server
  let o := setAttr o "optional" x.optional
  let o := match x.pool with
    | none => o
    | some p => { o with pool := p }
  let o := setAttr o "device" x.device
  setAttr o "timeout" x.timeout

/-- Methods of references, each called without another thread in between. -/
inductive Op
  | set (name value : String)
  | change (s : St) (force : Bool)
  | forced (name value : String)

def step (o : Obj) : Op → Obj
  | .set n v => (setField o n v).2
  | .change s f => changeState o s f
  | .forced n v => setForced o n v

def run (o : Obj) (ops : List Op) : Obj := ops.foldl step o

/-- Sections under the mutex, of any threads. -/
inductive Prim
  | field (name value : String)
  | allow (name : String)
  | begin (s : St) (force : Bool)

def prim (o : Obj) : Prim → Obj
  | .field n v => (setField o n v).2
  | .allow n => setAllowed o n
  | .begin s f => changeBegin o s f

def prims (o : Obj) (l : List Prim) : Obj := l.foldl prim o

end Verif.ConnObj
