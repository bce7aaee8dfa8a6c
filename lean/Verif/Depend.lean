/-!
# Model of dependencies between objects in the manager

Code: `base/src/Manager.cxx:60-78` (`DependPair`), 425-504 (`ProcessDestroyQueue`), 666-682
(`ProcessEvent`), 1317-1361 (`DestroyObject`), 1493-1538 (`RegisterDependency`,
`UnregisterDependency`), `base/src/ReferencesVector.cxx:160-172` (`Clear`).

Every step is one section under `fMgrMutex` together with what follows from it.  The calls of
different threads come in any order.  `ProcessDestroyQueue` is called in the thread of the manager
only (and by `HaltManager`), so what it does after the mutex is released is one step as well: calls
of other threads in between act on the list and the queue, which it does not look at any more.

Simplified: objects are numbers, no null pointers; a reference can be taken on the objects passed
(`Reference` throws for an object in its destructor); the receivers of parameter events are only
their objects (the events themselves are C75).
-/

namespace Verif.Depend

/-- `DependPair`; `fire & 1` and `fire & 2` -/
structure Pair where
  src : Nat
  tgt : Nat
  fsrc : Bool
  ftgt : Bool
deriving DecidableEq

/-- What the manager does with objects. -/
inductive Act where
  /-- command `ObjectDestroyed` accepted by the thread of worker `src` -/
  | command (src tgt : Nat)
  /-- direct call of `src->ObjectDestroyed(tgt)` -/
  | call (src tgt : Nat)
  /-- the pair is dropped because `src` is destroyed -/
  | drop (src tgt : Nat)
  /-- the receiver of parameter events is removed -/
  | forget (r : Nat)
  /-- `Destroy` of the reference in the queue -/
  | destroy (o : Nat)
deriving DecidableEq

structure St where
  /-- `fDepend` -/
  deps : List Pair
  /-- `fDestroyQueue` -/
  queue : Option (List Nat)
  /-- events `evntDestroyObj` in the queue of the thread -/
  pending : Nat
  /-- objects in `fParEventsReceivers` -/
  receivers : List Nat
  log : List Act
deriving DecidableEq

inductive Op where
  | register (src tgt : Nat) (bidi : Bool)
  | unregister (src tgt : Nat) (bidi : Bool)
  /-- a receiver of parameter events is added (Manager.cxx:1214-1240) -/
  | listen (r : Nat)
  /-- `DestroyObject` -/
  | destroy (o : Nat)
  /-- the thread takes the event `evntDestroyObj`; which objects are workers accepting commands -/
  | event (w : Nat → Bool)
  /-- `ProcessDestroyQueue` called by `HaltManager` -/
  | halt (w : Nat → Bool)

/-- `fDepend->push_back` (Manager.cxx:1500-1507). -/
def add (d : List Pair) (src tgt : Nat) : List Pair := d ++ [⟨src, tgt, false, false⟩]

/-- Manager.cxx:1493-1512 -/
def register (d : List Pair) (src tgt : Nat) (bidi : Bool) : List Pair :=
  let d := add d src tgt
  if bidi then add d tgt src else d

/-- First record of the pair is erased (Manager.cxx:1521-1530). -/
def remove (d : List Pair) (src tgt : Nat) : List Pair :=
  d.eraseP (fun p => p.src = src && p.tgt = tgt)

/-- Manager.cxx:1514-1538 -/
def unregister (d : List Pair) (src tgt : Nat) (bidi : Bool) : List Pair :=
  let d := remove d src tgt
  if bidi then remove d tgt src else d

/-- Marks of the pairs (Manager.cxx:1331-1346). -/
def mark (o : Nat) (p : Pair) : Pair :=
  { p with fsrc := p.fsrc || decide (p.src = o), ftgt := p.ftgt || decide (p.tgt = o) }

/-- Manager.cxx:1317-1361 -/
def destroyObject (s : St) (o : Nat) : St :=
  { s with deps := s.deps.map (mark o),
           queue := some (s.queue.getD [] ++ [o]),
           pending := if s.queue.isNone then s.pending + 1 else s.pending }

/-- How `src` is told (Manager.cxx:465-479). -/
def tell (w : Nat → Bool) (p : Pair) : Act :=
  if w p.src then .command p.src p.tgt else .call p.src p.tgt

/-- Manager.cxx:425-504 -/
def process (w : Nat → Bool) (s : St) : St :=
  let told := (s.deps.filter (·.ftgt)).map (tell w)
  let dropped := (s.deps.filter (fun p => !p.ftgt && p.fsrc)).map (fun p => Act.drop p.src p.tgt)
  let s' := { s with deps := s.deps.filter (fun p => !(p.ftgt || p.fsrc)), queue := none,
                     log := s.log ++ told ++ dropped }
  match s.queue with
  | none => s'
  | some v =>
    { s' with receivers := s.receivers.filter (fun r => !v.contains r),
              log := s'.log ++ (s.receivers.filter (fun r => v.contains r)).map .forget ++ v.map .destroy }

def step (s : St) : Op → St
  | .register a b bi => { s with deps := register s.deps a b bi }
  | .unregister a b bi => { s with deps := unregister s.deps a b bi }
  | .listen r => { s with receivers := s.receivers ++ [r] }
  | .destroy o => destroyObject s o
  | .event w => if s.pending = 0 then s else process w { s with pending := s.pending - 1 }
  | .halt w => process w s

def init : St := ⟨[], none, 0, [], []⟩

def run (s : St) (ops : List Op) : St := ops.foldl step s

end Verif.Depend
