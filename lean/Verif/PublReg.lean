import Verif.Spec.Hierarchy

/-!
# Model of the registration of hierarchies at the publisher

base/src/Publisher.cxx:204-254 (requests in `ProcessTimeout`), 312-360 (`ApplyEntryDiff`), 363-379 (`ReplyCommand`), 638-700 (registration), 739-763
(removal of a worker), base/src/Worker.cxx:703-724 (answer), base/src/Hierarchy.cxx:1117-1131 (`RemoveEmptyFolders`), base/src/Object.cxx:742-819
(`GetFolder`).

Only hierarchies of the own node.  A path is the list of its names (how it is found in a string is in C88); the prefixes `$MGR$`
and `$CONTEXT$` are left out.  The hierarchy of the publisher is a client in the sense of `Verif.Hierarchy`, following names; its own versions are not
modelled.  Commands on their way are two lists, which can be worked on in any order: requests at the workers, and answers.
-/

namespace Verif.PublReg
open Verif.Hierarchy
variable {D X : Type}

/-! ## Folders -/

/-- `GetFolder(path)`. -/
def subT : List String → T D X → Option (T D X)
  | [], t => some t
  | n :: p, .node _ _ _ ch => match ch.find? (fun c => c.name = n) with
    | none => none
    | some c => subT p c

/-- Change of the first child with this name. -/
def setFirst (n : String) (c' : T D X) : List (T D X) → List (T D X)
  | [] => []
  | c :: cs => if c.name = n then c' :: cs else c :: setFirst n c' cs

/-- Change of the folder at the path, nothing when there is none. -/
def modT (f : T D X → T D X) : List String → T D X → T D X
  | [], t => f t
  | n :: p, .node nm dns val ch => match ch.find? (fun c => c.name = n) with
    | none => .node nm dns val ch
    | some c => .node nm dns val (setFirst n (modT f p c) ch)

/-- `GetFolder(path, true)`: missing folders are created at the end. -/
def ensure [Inhabited D] [Inhabited X] : List String → T D X → T D X
  | [], t => t
  | n :: p, .node nm dns val ch => match ch.find? (fun c => c.name = n) with
    | none => .node nm dns val (ch ++ [ensure p (.empty n)])
    | some c => .node nm dns val (setFirst n (ensure p c) ch)

/-- `Destroy()` of the folder at the path. -/
def destroy : List String → T D X → T D X
  | [], t => t
  | [n], .node nm dns val ch => .node nm dns val (ch.eraseP fun c => c.name = n)
  | n :: m :: p, .node nm dns val ch => match ch.find? (fun c => c.name = n) with
    | none => .node nm dns val ch
    | some c => .node nm dns val (setFirst n (destroy (m :: p) c) ch)

/-- `RemoveEmptyFolders(path)`, base/src/Hierarchy.cxx:1117-1131: the folder and all folders above which become empty, but not the top. -/
def removeEmpty : List String → T D X → T D X
  | [], t => t
  | [n], .node nm dns val ch => .node nm dns val (ch.eraseP fun c => c.name = n)
  | n :: m :: p, .node nm dns val ch => match ch.find? (fun c => c.name = n) with
    | none => .node nm dns val ch
    | some c =>
      if subT (m :: p) c = none then .node nm dns val ch
      else
        let c' := removeEmpty (m :: p) c
        if c'.ch = [] then .node nm dns val (ch.eraseP fun c => c.name = n)
        else .node nm dns val (setFirst n c' ch)

/-! ## Entries and commands -/

/-- `PublisherEntry`, base/dabc/Publisher.h:90-124, of a local hierarchy; `hier` stands for the pointer. -/
structure Entry where
  id : Nat
  path : List String
  worker : String
  hier : Nat
  version : Nat := 0
  waiting : Bool := false

/-- `CmdPublisher` on its way to the worker, base/src/Publisher.cxx:233-244. -/
structure Req where
  id : Nat
  hier : Nat
  version : Nat

/-- `CmdPublisher` on its way back, with changes and new version, or failed. -/
structure Rep (D X : Type) where
  id : Nat
  res : Option (Msg D X × Nat)

/-- The publisher (`fLocal`, `fPublishers`, `fCnt`), the commands under way and the hierarchies of the workers. -/
structure St (D X : Type) where
  loc : T D X
  ents : List Entry := []
  cnt : Nat := 1
  reqs : List Req := []
  reps : List (Rep D X) := []
  srv : Nat → H D X

/-- `SetField` at the item itself. -/
def setRoot (f : D → D) : T D X → T D X
  | .node n dns val ch => .node n (f dns) val ch

/-- REGISTER, base/src/Publisher.cxx:638-683. -/
def register [Inhabited D] [Inhabited X] (st : St D X) (path : List String) (worker : String) (hier : Nat) : Bool × St D X :=
  if st.ents.any (fun e => e.path = path) then (false, st)
  else if (subT path st.loc).isSome then (false, st)
  else (true, { st with ents := st.ents ++ [{ id := st.cnt, path := path, worker := worker, hier := hier }], cnt := st.cnt + 1,
                        loc := ensure path st.loc })

/-- UNREGISTER, base/src/Publisher.cxx:685-700. -/
def unregister (st : St D X) (path : List String) (worker : String) : Bool × St D X :=
  if st.ents.any (fun e => e.path = path ∧ e.worker = worker) then
    (true, { st with loc := if (subT path st.loc).isSome then removeEmpty path st.loc else st.loc,
                     ents := st.ents.eraseP fun e => e.path = path ∧ e.worker = worker })
  else (false, st)

/-- REMOVE WORKER, base/src/Publisher.cxx:739-763. -/
def removeWorker (st : St D X) (worker : String) : St D X :=
  { st with
    loc := st.ents.foldl (fun t e => if e.worker = worker then destroy e.path t else t) st.loc
    ents := st.ents.filter fun e => e.worker ≠ worker }

/-- `ProcessTimeout`: a request for each entry which has none, base/src/Publisher.cxx:204-244. -/
def timeout (st : St D X) : St D X :=
  { st with
    reqs := st.reqs ++ (st.ents.filter fun e => !e.waiting).map fun e => ⟨e.id, e.hier, e.version⟩
    ents := st.ents.map fun e => { e with waiting := true } }

/-- The worker executes the request, base/src/Worker.cxx:703-724. -/
def answer (st : St D X) (i : Nat) : St D X :=
  match st.reqs[i]? with
  | none => st
  | some r => { st with reqs := st.reqs.eraseIdx i,
                        reps := st.reps ++ [⟨r.id, some (stream .names r.version (st.srv r.hier), (st.srv r.hier).data.nodeVer)⟩] }

/-- The request fails: there is no such worker, or it takes too long. -/
def fail (st : St D X) (i : Nat) : St D X :=
  match st.reqs[i]? with
  | none => st
  | some r => { st with reqs := st.reqs.eraseIdx i, reps := st.reps ++ [⟨r.id, none⟩] }

/-- `ReplyCommand` and `ApplyEntryDiff`, base/src/Publisher.cxx:312-379; `prod w` sets the name of the worker as producer. -/
def reply [Inhabited D] [Inhabited X] (prod : String → D → D) (st : St D X) (i : Nat) : St D X :=
  match st.reps[i]? with
  | none => st
  | some r =>
    let st := { st with reps := st.reps.eraseIdx i }
    match st.ents.find? (fun e => e.id = r.id) with
    | none => st
    | some e => match r.res with
      | none => { st with ents := st.ents.map fun x => if x.id = r.id then { x with waiting := false } else x }
      | some (m, v) => { st with
          ents := st.ents.map fun x => if x.id = r.id then { x with waiting := false, version := v } else x
          loc := modT (fun t => setRoot (prod e.worker) (apply m t)) e.path st.loc }

end Verif.PublReg
