/-!
# Model of the items of a module

`Module::CreateTimer`, base/src/Module.cxx:109-127, `CreateUserItem`, 203-217, `CreatePoolHandle`, 608-627,
`AddModuleItem`, 629-649, `RemoveModuleItem`, 651-696, `CreateInput`, 704-724, `CreateOutput`, 727-747, the functions
which find items by name, 101-107, 160-182, 219-225, and which produce their events, 234-238, 764-783;
`ModuleAsync::ProcessItemEvent`, base/src/ModuleAsync.cxx:49-83, and the choice of the item in
`ProcessInputEvent`, 110-114, `ProcessOutputEvent`, 135-139, `ProcessPoolEvent`, 161-167; the functions `Activate…`, 102-158.

Items are named by their number in `fItems`: numbers are never used again.  Left out: parameters and queues of the
items (C95), threads of timers, the configuration, parameters for the rate of ports.
-/

namespace Verif.ModuleItems

/-- `EModuleItemType`, base/dabc/ModuleItem.h:29-37. -/
inductive Kind where
  | inp | out | pool | timer | conn | user
  deriving DecidableEq, Repr

/-- `fItemType`, the name of the object, `fSubId`, and `fSysTimer` of timers. -/
structure Item where
  kind : Kind
  name : List Char
  sub : Nat
  sys : Bool
  deriving DecidableEq, Repr

/-- `fItems`; `fInputs`, `fOutputs`, `fPools`, `fTimers`, `fUsers` with item numbers instead of pointers;
`fSysTimerIndex`. -/
structure M where
  items : List (Option Item)
  vec : Kind → List Nat
  sysIdx : Option Nat

/-- A new module. -/
def fresh : M := ⟨[], fun _ => [], none⟩

/-- `GetItem`, base/dabc/Module.h:198. -/
def itemOf (its : List (Option Item)) (id : Nat) : Option Item := (its[id]?).join

/-- `FindInput` and so on. -/
def find (m : M) (k : Kind) (name : List Char) : Option Nat :=
  if name = [] then none
  else (m.vec k).findIdx? fun id => match itemOf m.items id with | some it => decide (it.name = name) | none => false

/-- `AddModuleItem`; `none`: the program exits, base/src/Module.cxx:640-643. -/
def add (m : M) (it : Item) : Option (Nat × M) :=
  if m.items.length > 65534 then none else some (m.items.length, { m with items := m.items ++ [some it] })

/-- `CreateInput` and so on, with the index they return (`none`: `(unsigned) -1`).  `ok`: the queue of a port is not 0,
the memory pool exists. -/
def create (m : M) (k : Kind) (name : List Char) (ok : Bool) : Option (Option Nat × M) :=
  match find m k name with
  | some i => some (some i, m)
  | none =>
    if ok then
      let n := (m.vec k).length
      let valid := match m.sysIdx with | some i => decide (i < (m.vec .timer).length) | none => false
      let sys := decide (k = .timer) && !valid && ['S', 'y', 's'].isPrefixOf name
      (add m ⟨k, name, n, sys⟩).map fun r =>
        (some n, { r.2 with vec := fun k' => if k' = k then m.vec k ++ [r.1] else m.vec k', sysIdx := if sys then some n else m.sysIdx })
    else some (none, m)

/-- The timer for reconnects, base/src/Module.cxx:886-889: in no list besides `fItems`. -/
def addConn (m : M) (name : List Char) : Option M := (add m ⟨.conn, name, 0, false⟩).map Prod.snd

/-- `SetItemSubId`. -/
def setSub (its : List (Option Item)) (id n : Nat) : List (Option Item) := its.modify id (Option.map fun it => { it with sub := n })

/-- A loop of `RemoveModuleItem`, base/src/Module.cxx:655-661, from position `n` on.  After `erase` the counter moves on:
the element which is now at position `n` is skipped (`skip`). -/
def renum (x : Nat) : Nat → Bool → List Nat → List (Option Item) → List Nat × List (Option Item)
  | _, _, [], its => ([], its)
  | n, true, a :: l, its => let r := renum x (n + 1) false l its; (a :: r.1, r.2)
  | n, false, a :: l, its =>
    if a = x then renum x n true l its
    else let r := renum x (n + 1) false l (setSub its a n); (a :: r.1, r.2)

def remKind (x : Nat) (m : M) (k : Kind) : M :=
  let r := renum x 0 false (m.vec k) m.items
  { m with items := r.2, vec := fun k' => if k' = k then r.1 else m.vec k' }

/-- `RemoveModuleItem`, called by the destructor of the item. -/
def remove (m : M) (x : Nat) : M :=
  let m := [Kind.inp, .out, .pool, .timer, .user].foldl (remKind x) m
  { m with items := m.items.set x none }

/-- Operations on the items of a module. -/
inductive Op where
  | create (k : Kind) (name : List Char) (ok : Bool) | addConn (name : List Char) | remove (x : Nat)
  deriving DecidableEq, Repr

/-- One operation; `none`: not possible, or the program exits. -/
def step (m : M) : Op → Option M
  | .create k name ok => if k = .conn then none else (create m k name ok).map Prod.snd
  | .addConn name => addConn m name
  | .remove x => match itemOf m.items x with | some _ => some (remove m x) | none => none

def run : M → List Op → Option M
  | m, [] => some m
  | m, op :: ops => (step m op).bind fun m => run m ops

/-! ## Events -/

/-- Codes of events, base/dabc/ModuleItem.h:39-53. -/
inductive Code where
  | input | output | inputReinj | outputReinj | timeout | user
  deriving DecidableEq, Repr

/-- Code and item of the events which are produced for the item with index `i`: `ProduceInputEvent`, `ProduceOutputEvent`,
`ProducePoolEvent`, `ProduceUserItemEvent`; a timer produces its own (`none`: no such item). -/
def produce (m : M) (k : Kind) (i : Nat) : Option (Code × Nat) :=
  match (m.vec k)[i]? with
  | none => none
  | some id =>
    match k with
    | .inp | .pool => some (.input, id)
    | .out => some (.output, id)
    | .timer => some (.timeout, id)
    | .user => some (.user, id)
    | .conn => none

/-- `ActivateInput`, `ActivateOutput`, `ActivatePool`: events of ports with data. -/
def activate (m : M) (k : Kind) (i : Nat) : Option (Code × Nat) :=
  match (m.vec k)[i]? with
  | none => none
  | some id =>
    match k with
    | .inp => some (.inputReinj, id)
    | .out | .pool => some (.outputReinj, id)
    | _ => none

/-- Kind and index of the function which `ModuleAsync::ProcessItemEvent` calls; `none`: null pointer. -/
def dispatch (m : M) (c : Code) (id : Nat) : Option (Kind × Nat) :=
  match itemOf m.items id with
  | none => none
  | some it =>
    match c with
    | .input | .inputReinj => some (if it.kind = .pool then .pool else .inp, it.sub)
    | .output | .outputReinj => some (.out, it.sub)
    | .timeout => some (.timer, it.sub)
    | .user => some (.user, it.sub)

/-- Kind, index and item which are served by an event; `none`: null pointer.  Timers and user items: the module gets the
index only. -/
def deliver (m : M) (c : Code) (id : Nat) : Option (Kind × Nat × Option Nat) :=
  match dispatch m c id with
  | none => none
  | some (k, i) =>
    match (m.vec k)[i]? with
    | some id => some (k, i, some id)
    | none => if k = .timer ∨ k = .user then some (k, i, none) else none

/-- The timer whose timeout is processed with the timeout of the module, base/src/Module.cxx:554-560. -/
def sysTimer (m : M) : Option Nat := m.sysIdx.bind fun i => (m.vec .timer)[i]?

end Verif.ModuleItems
