import Mathlib.Data.List.Basic
/-!
# Creation of modules, devices and threads by the manager

Code: `base/src/Manager.cxx` (constructor, `FOR_EACH_FACTORY`, `DoCreateModule`, the branches
of `ExecuteCommand` for modules, devices and threads, `ProcessFactory`, `FindThread`,
`DoCreateThread`, `ManagerRef::CreateModule`, `ManagerRef::CreateThread`),
`base/src/Worker.cxx` (`MakeThreadForWorker`, `AssignToThread`) and the functions
`CompatibleClass` of the thread classes.

Simplifications.
* A factory is described by what it makes of a class name.  For a module or a device this is
  the class name shown by the object and the thread class which it requires.
* Names are those of direct children (no `/`, `.` or `..` in them), so that looking for a name
  gives the first child with this name.
* The value of the thread attribute in the configuration and whether a new thread starts are
  inputs of a call.  The worker list of a thread always takes a new worker.
* An object or thread may disappear between two commands at any time.  The commands which
  destroy something only give the answer.
-/

namespace Verif.Create

abbrev Name := List Char

/-- `typeThread`, `base/src/Object.cxx:77`. -/
def typeThread : Name := "dabc::Thread".toList

/-- `typeSocketThread`, `base/src/Object.cxx:80`. -/
def typeSocketThread : Name := "dabc::SocketThread".toList

/-- `Manager::MgrThrdName`, `base/dabc/Manager.h:476`. -/
def mgrThread : Name := "ManagerThrd".toList

/-- What a factory makes of a class name. -/
structure Factory where
  id : Nat
  module : Name → Option (Name × Name)
  device : Name → Option (Name × Name)
  thread : Name → Option Name

/-! ## Registration of factories -/

/-- `fInstance` set, `fFirstFactoriesId` set, `fFirstFactories`, children of the factories
folder. -/
structure Reg where
  inst : Bool
  magic : Bool
  first : List (Option Nat)
  folder : List Nat

def Reg.start : Reg := ⟨false, false, List.replicate 10 none, []⟩

/-- Loop `Manager.cxx:1575-1579`: the first free entry takes the factory. -/
def fill (f : Nat) : List (Option Nat) → List (Option Nat)
  | [] => []
  | none :: l => some f :: l
  | some g :: l => some g :: fill f l

/-- `Manager::ProcessFactory`, `Manager.cxx:1561-1587`. -/
def processFactory (r : Reg) (f : Nat) : Reg :=
  if r.inst then { r with folder := r.folder ++ [f] }
  else if r.magic then { r with first := fill f r.first }
  else { r with magic := true, first := some f :: List.replicate 9 none }

/-- Loop `Manager.cxx:308-312`. -/
def takeFirst (r : Reg) : List (Option Nat) → Reg
  | [] => r
  | none :: l => takeFirst r l
  | some f :: l => takeFirst (processFactory r f) l

/-- Constructor of the manager, `Manager.cxx:263-313`. `std` and `sock` are the two factories
of the library itself. -/
def newManager (r : Reg) (std sock : Nat) : Reg :=
  let r1 := processFactory (processFactory { r with inst := true } std) sock
  if r1.magic then { takeFirst r1 r1.first with first := List.replicate 10 none } else r1

/-- Construction of a factory (`early` before the manager, `late` after it). -/
def register (early late : List Nat) (std sock : Nat) : Reg :=
  late.foldl processFactory (newManager (early.foldl processFactory Reg.start) std sock)

/-! ## The manager -/

inductive Kind | module | device | other
  deriving DecidableEq

/-- A child of the manager: its thread is named when it has one. -/
structure Obj where
  kind : Kind
  name : Name
  cls : Name
  req : Name
  thrd : Option Name
  deriving DecidableEq

structure Thrd where
  name : Name
  cls : Name
  deriving DecidableEq

inductive Layout | minimal | other
  deriving DecidableEq

structure St where
  objs : List Obj
  thrds : List Thrd
  lastDev : Name

/-- State after construction: the thread of the manager. -/
def St.start : St := ⟨[], [⟨mgrThread, typeThread⟩], []⟩

/-- `FOR_EACH_FACTORY` with a `break` at the first result, `Manager.cxx:812-822`. -/
def ask {α : Type} (f : Factory → Option α) : List Factory → Option α
  | [] => none
  | x :: l => match f x with
    | some r => some r
    | none => ask f l

/-- First child with the name (`FindItem`, `Manager.cxx:697-711`; empty names are not
searched). -/
def findItem (s : St) (n : Name) : Option Obj :=
  if n = [] then none else s.objs.find? (fun o => o.name == n)

/-- `FindModule`/`FindDevice`, `Manager.cxx:713-716, 734-739`: the reference stays empty when
the item has another type. -/
def findKind (s : St) (k : Kind) (n : Name) : Option Obj :=
  match findItem s n with
  | some o => if o.kind = k then some o else none
  | none => none

/-- `FindThread` without class, `Manager.cxx:1899-1908`. -/
def findThread (ts : List Thrd) (n : Name) : Option Thrd :=
  ts.find? (fun t => t.name == n)

/-- `CompatibleClass` of `Thread` (`Thread.cxx:428-433`), `SocketThread`
(`SocketThread.cxx:1130-1134`) and `verbs::Thread` (`plugins/verbs/src/Thread.cxx:140-144`). -/
def compat (t : Thrd) (cl : Name) : Bool :=
  cl == [] || cl == typeThread || cl == t.cls

/-- `dabc::format("%s_%d", thrdname, basecnt)`. -/
def numbered (n : Name) (k : Nat) : Name := n ++ '_' :: Nat.toDigits 10 k

inductive Look
  | reuse (t : Thrd)
  | fresh (n : Name)
  | exit

/-- Loop of `DoCreateThread`, `Manager.cxx:1925-1942`. `fuel` is `1000 - basecnt`. -/
def search (ts : List Thrd) (name cl : Name) : Nat → Nat → Name → Look
  | 0, _, newname => match findThread ts newname with
    | some _ => .exit
    | none => .fresh newname
  | fuel + 1, basecnt, newname => match findThread ts newname with
    | none => .fresh newname
    | some t =>
      if compat t cl then .reuse t
      else search ts name cl fuel (basecnt + 1) (numbered name basecnt)

inductive Res (α : Type)
  | ret (s : St) (a : α)
  | exit

/-- `DoCreateThread`, `Manager.cxx:1923-1970`. `starts`: result of `Start(10, …)`. -/
def createThread (fs : List Factory) (s : St) (name cl : Name) (starts : Bool) :
    Res (Option Thrd) :=
  match search s.thrds name cl 1000 0 name with
  | .exit => .exit
  | .reuse t => .ret s (some t)
  | .fresh n => match ask (fun f => f.thread cl) fs with
    | none => .ret s none
    | some c =>
      if starts then .ret { s with thrds := s.thrds ++ [⟨n, c⟩] } (some ⟨n, c⟩)
      else .ret s none

/-- `ManagerRef::CreateThread`, `Manager.cxx:1988-1993`, with the branch of the command
(1127-1141): the thread is looked up with the name written into the command. -/
def refCreateThread (fs : List Factory) (s : St) (name cl : Name) (starts : Bool) :
    Res (Option Thrd) :=
  match createThread fs s name cl starts with
  | .exit => .exit
  | .ret s1 none => .ret s1 none
  | .ret s1 (some t) => .ret s1 (findThread s1.thrds t.name)

/-- Name chosen by `MakeThreadForWorker`, `Worker.cxx:304-314`. -/
def workerThreadName (thrdname worker : Name) : Name :=
  if thrdname ≠ [] then thrdname
  else if worker ≠ [] then worker else "Thread".toList

/-- `AssignToThread`, `Worker.cxx:338-343`: the class has to be the same. -/
def assign (req : Name) (t : Thrd) : Option Name :=
  if req ≠ [] ∧ req ≠ t.cls then none else some t.name

/-- `MakeThreadForWorker`, `Worker.cxx:302-319`: gives the name of the thread which the worker
got. -/
def makeThread (fs : List Factory) (s : St) (thrdname worker req : Name) (starts : Bool) :
    Res (Option Name) :=
  match refCreateThread fs s (workerThreadName thrdname worker) req starts with
  | .exit => .exit
  | .ret s1 none => .ret s1 none
  | .ret s1 (some t) => .ret s1 (assign req t)

/-- Thread name for a module or device, `Manager.cxx:844-853, 971-980`. -/
def threadName (lay : Layout) (cfg obj : Name) : Name :=
  if cfg ≠ [] then cfg
  else match lay with
    | .minimal => mgrThread
    | .other => obj ++ "Thrd".toList

/-- A new object gets its thread (`Manager.cxx:855, 982`). The constructor has already made it
a child of the manager, creating the thread does not look at the children. -/
def addObj (fs : List Factory) (lay : Layout) (s : St) (k : Kind) (name cls req cfg : Name)
    (starts : Bool) : Res Unit :=
  match makeThread fs s (threadName lay cfg name) name req starts with
  | .exit => .exit
  | .ret s1 t => .ret { s1 with objs := s1.objs ++ [⟨k, name, cls, req, t⟩] } ()

/-- `DoCreateModule` and its command, `Manager.cxx:824-861, 884-890`. -/
def createModule (fs : List Factory) (lay : Layout) (s : St) (cls name cfg : Name)
    (starts : Bool) : Res Bool :=
  match findKind s .module name with
  | some _ => .ret s true
  | none => match ask (fun f => f.module cls) fs with
    | none => .ret s false
    | some (c, req) => match addObj fs lay s .module name c req cfg starts with
      | .exit => .exit
      | .ret s1 _ => .ret s1 true

/-- `ManagerRef::CreateModule`, `Manager.cxx:1981-1986`. -/
def refCreateModule (fs : List Factory) (lay : Layout) (s : St) (cls name cfg : Name)
    (starts : Bool) : Res (Option Obj) :=
  match createModule fs lay s cls name cfg starts with
  | .exit => .exit
  | .ret s1 true => .ret s1 (findKind s1 .module name)
  | .ret s1 false => .ret s1 none

/-- Name of the device, `Manager.cxx:945-946`. -/
def deviceName (cls name : Name) : Name := if name = [] then cls else name

/-- `Manager.cxx:986-989`. -/
def noteDevice (s : St) (dev : Name) : St := if dev = [] then s else { s with lastDev := dev }

/-- Command to create a device, `Manager.cxx:943-990`. -/
def createDevice (fs : List Factory) (lay : Layout) (s : St) (cls name cfg : Name)
    (starts : Bool) : Res Bool :=
  match findKind s .device (deviceName cls name) with
  | some o =>
    if cls = o.cls then .ret (noteDevice s (deviceName cls name)) true
    else .ret s false
  | none => match ask (fun f => f.device cls) fs with
    | none => .ret s false
    | some (c, req) =>
      match addObj fs lay s .device (deviceName cls name) c req cfg starts with
      | .exit => .exit
      | .ret s1 _ => .ret (noteDevice s1 (deviceName cls name)) true

/-- Answer to the commands which destroy a module or device, `Manager.cxx:991-999,
1177-1187`. -/
def deleteItem (s : St) (k : Kind) (name : Name) : Bool := (findKind s k name).isSome

/-! ## Runs -/

inductive Op
  | thread (name cl : Name) (starts : Bool)
  | module (cls name cfg : Name) (starts : Bool)
  | device (cls name cfg : Name) (starts : Bool)
  /-- another object becomes child of the manager -/
  | other (name : Name)
  /-- the first child with the name is removed -/
  | objGone (name : Name)
  /-- a thread is removed -/
  | thrdGone (name : Name)

def forget {α : Type} : Res α → Option St
  | .ret s _ => some s
  | .exit => none

/-- One step; `none`: the process has ended. -/
def step (fs : List Factory) (lay : Layout) (s : St) : Op → Option St
  | .thread n cl b => forget (refCreateThread fs s n cl b)
  | .module c n cfg b => forget (createModule fs lay s c n cfg b)
  | .device c n cfg b => forget (createDevice fs lay s c n cfg b)
  | .other n => some { s with objs := s.objs ++ [⟨.other, n, [], [], none⟩] }
  | .objGone n => some { s with objs := s.objs.eraseP (fun o => o.name == n) }
  | .thrdGone n => some { s with thrds := s.thrds.eraseP (fun t => t.name == n) }

def run (fs : List Factory) (lay : Layout) (s : St) : List Op → Option St
  | [] => some s
  | o :: l => match step fs lay s o with
    | none => none
    | some s1 => run fs lay s1 l

end Verif.Create
