/-!
# Reading configuration values of objects

Model of `dabc::ConfigIO` (base/src/ConfigIO.cxx:42-290) with the functions `Find` of the classes of objects
(base/src/Object.cxx:929-932, Worker.cxx:608-618, Module.cxx:516-528, MemoryPool.cxx:157-169, Device.cxx:87-99,
Application.cxx:435-444, Manager.cxx:1880-1893).

A node is its name, attributes and childs; a comment is a node whose name is its text.  The pointers `fCurrItem` and
`fCurrChld` are places in the tree: a place is a node and, for every node on the way up to the root, that node and
the nodes which follow in its list of childs.  `ResolveEnv` (replacement of variables, C69; here it returns) and
`fnmatch` are parameters.
-/

namespace Verif.ConfigIO

abbrev Text := List Char

inductive Node where
  | mk (name : Text) (attrs : List (Text × Text)) (kids : List Node)

namespace Node

def name : Node → Text | mk n _ _ => n
def attrs : Node → List (Text × Text) | mk _ a _ => a
def kids : Node → List Node | mk _ _ k => k

end Node

/-- `Xml::GetAttr`: the first attribute with the name. -/
def getAttr (n : Node) (a : Text) : Option Text := (n.attrs.find? (·.1 = a)).map (·.2)

/-- `ConfigBase::FindChild` (ConfigBase.cxx:183-192). -/
def findChild (n : Node) (name : Text) : Option Node := n.kids.find? (·.name = name)

/-- What `Find` of an object does: `never` - an object without parent, which returns false at once; `tag` - a loop of
`FindItem` with the name and `CheckAttr` for each of the attributes with its value. -/
inductive Finder where
  | never
  | tag (name : Text) (checks : List (Text × Text))
  deriving DecidableEq, Repr

/-- `Object::Find`. -/
def ofObject (hasParent : Bool) (name : Text) : Finder := if hasParent then .tag name [] else .never

/-- `Worker::Find`, and with the tags `Module`, `MemoryPool` and `Device` the functions of these classes. -/
def ofWorker (hasParent : Bool) (tag name : Text) : Finder :=
  if hasParent then .tag tag [("name".toList, name)] else .never

/-- `Application::Find`. -/
def ofApplication (cls : Text) : Finder :=
  .tag "Application".toList (if cls = "Application".toList then [] else [("class".toList, cls)])

/-- `Manager::Find`. -/
def ofManager (host name : Text) : Finder :=
  .tag "Context".toList ((if host = [] then [] else [("host".toList, host)]) ++
    (if host = name then [] else [("name".toList, name)]))

/-- `res` is `ResolveEnv`, `fnm` is `fnmatch` with pattern and text. -/
structure Cfg where
  res : Text → Text
  fnm : Text → Text → Bool

/-- `item` is `fCurrItem`, `up` the way to the root (each node with the childs which follow the node below), `chld` the
nodes which follow `fCurrChld` (`none` if `fCurrChld` is null). -/
structure St where
  item : Node
  up : List (Node × List Node)
  chld : Option (List Node)

/-- Childs which are looked at next, lines 46-49. -/
def cand (s : St) : List Node := s.chld.getD s.item.kids

/-- Lines 51-58. -/
def search (name : Text) : List Node → Option (Node × List Node)
  | [] => none
  | k :: ks => if k.name = name then some (k, ks) else search name ks

/-- `FindItem` (42-62). -/
def findItem (name : Text) (s : St) : Bool × St :=
  match search name (cand s) with
  | some (k, r) => (true, { item := k, up := (s.item, r) :: s.up, chld := none })
  | none => (false, { s with chld := none })

/-- Lines 73-75: attribute with its variables replaced. -/
def attrText (c : Cfg) (n : Node) (a : Text) : Text :=
  match getAttr n a with
  | some t => c.res t
  | none => []

/-- Lines 71-86 for a value which is given. -/
def attrFits (c : Cfg) (strict : Bool) (n : Node) (a : Text × Text) : Bool :=
  if strict then (if attrText c n a.1 = [] then false else attrText c n a.1 == a.2)
  else if attrText c n a.1 = [] then true
  else attrText c n a.1 == a.2 || c.fnm (attrText c n a.1) a.2

/-- Back to the parent: `fCurrChld = fCurrItem; fCurrItem = GetParent(fCurrItem)`; `none` if there is no parent. -/
def pop (s : St) : Option St :=
  match s.up with
  | [] => none
  | (p, r) :: up => some { item := p, up := up, chld := some r }

/-- `CheckAttr` (64-97); the last case - no parent to go back to - does not occur behind `FindItem`. -/
def checkAttr (c : Cfg) (strict : Bool) (a : Text × Text) (s : St) : Bool × St :=
  if s.chld.isSome then (false, s)
  else if attrFits c strict s.item a then (true, s)
  else (false, (pop s).getD s)

/-- All calls of `CheckAttr` in one turn of `Find`. -/
def checkAttrs (c : Cfg) (strict : Bool) : List (Text × Text) → St → Bool × St
  | [], s => (true, s)
  | a :: as, s =>
    match checkAttr c strict a s with
    | (true, s) => checkAttrs c strict as s
    | (false, s) => (false, s)

/-- The loop of `Find`; the first argument is the number of turns. -/
def findLoop (c : Cfg) (strict : Bool) (name : Text) (checks : List (Text × Text)) : Nat → St → Bool × St
  | 0, s => (false, s)
  | n + 1, s =>
    match findItem name s with
    | (false, s) => (false, s)
    | (true, s) =>
      match checkAttrs c strict checks s with
      | (true, s) => (true, s)
      | (false, s) => findLoop c strict name checks n s

/-- `Find` of an object; every turn of the loop uses up a child. -/
def find (c : Cfg) (strict : Bool) (f : Finder) (s : St) : Bool × St :=
  match f with
  | .never => (false, s)
  | .tag name checks => findLoop c strict name checks ((cand s).length + 1) s

/-- The loop of lines 188-281.  `fs` gives `Find` of the object at a level, `d` is `max_depth`; `visit` is what
lines 205-254 do with a node which is found for all levels: the result goes on, or ends the function.  `none`: the
loop does not end. -/
def walk {σ ρ : Type} (c : Cfg) (strict : Bool) (fs : Nat → Finder) (d : Nat) (visit : σ → Node → σ ⊕ ρ) :
    Nat → Nat → St → σ → Option (σ ⊕ ρ)
  | 0, _, _, _ => none
  | n + 1, level, s, acc =>
    match find c strict (fs level) s with
    | (true, s') =>
      match level with
      | l + 1 => walk c strict fs d visit n l s' acc
      | 0 =>
        match visit acc s'.item with
        | .inr r => some (.inr r)
        | .inl acc =>
          match pop s' with
          | none => some (.inl acc)
          | some s'' => walk c strict fs d visit n 0 s'' acc
    | (false, s') =>
      if s'.chld.isSome then some (.inl acc)
      else if d < level + 1 then some (.inl acc)
      else match pop s' with
        | none => some (.inl acc)
        | some s'' => walk c strict fs d visit n (level + 1) s'' acc

/-- `FindSubItem` (112-121): `acc` are the characters since the last `/`. -/
def subItem : Option Node → Text → Text → Option Node
  | n, acc, [] => if acc = [] then n else n.bind (findChild · acc)
  | n, acc, c :: r => if c = '/' then subItem (n.bind (findChild · acc)) [] r else subItem n (acc ++ [c]) r

/-- What is read for a field: `SetStr` or `SetStrVect`. -/
inductive Val where
  | str (t : Text)
  | vect (ts : List Text)
  deriving DecidableEq, Repr

/-- `ConfigIO::ResolveEnv` (123-130): an empty value is not replaced. -/
def resolve (c : Cfg) (t : Text) : Text := if t = [] then [] else c.res t

/-- Value of a field in a node, lines 205-236. -/
def fieldVal (c : Cfg) (item : Text) (n : Node) : Option Val :=
  let itemnode := subItem (some n) [] item
  let attr := match itemnode.bind (getAttr · "value".toList) with
    | some v => some v
    | none => getAttr n item
  match attr with
  | some v => some (.str (resolve c v))
  | none =>
    let kids : List Node := match itemnode with
      | none => []
      | some i => i.kids
    let arr : List Text := (kids.filter (·.name = "item".toList)).filterMap (fun k => (getAttr k "value".toList).map (resolve c))
    if arr = [] then none else some (.vect arr)

def visitField (c : Cfg) (item : Text) (acc : Unit) (n : Node) : Unit ⊕ Val :=
  match fieldVal c item n with
  | some v => .inr v
  | none => .inl acc

/-- `if (!fieldsmap->HasField(name)) fieldsmap->Field(name).SetStr(...)`. -/
def addField (c : Cfg) (m : List (Text × Text)) (p : Text × Text) : List (Text × Text) :=
  if m.any (·.1 = p.1) then m else m ++ [(p.1, resolve c p.2)]

/-- Name and value of a child, lines 251-254. -/
def fieldPair (k : Node) : Option (Text × Text) :=
  match getAttr k "name".toList, getAttr k "value".toList with
  | some a, some v => some (a, v)
  | _, _ => none

/-- Names and values which lines 241-257 go through. -/
def fieldsOf (i : Node) : List (Text × Text) :=
  i.attrs ++ (i.kids.filter (·.name = "dabc:field".toList)).filterMap fieldPair

/-- Lines 238-259: `isany` and the fields. -/
def visitMap (c : Cfg) (item : Text) (acc : Bool × List (Text × Text)) (n : Node) : (Bool × List (Text × Text)) ⊕ Unit :=
  match subItem (some n) [] item with
  | none => .inl acc
  | some i => .inl (true, (fieldsOf i).foldl (addField c) acc.2)

/-- The start of a search mode, lines 169-187. -/
def start (n : Node) (up : List (Node × List Node)) : St := { item := n, up := up, chld := none }

/-- The first search mode, in the selected context; the level of the manager is left out. -/
def firstMode {σ ρ : Type} (c : Cfg) (fs : Nat → Finder) (maxlevel : Nat) (visit : σ → Node → σ ⊕ ρ) (n : Nat)
    (sel : Option (Node × List (Node × List Node))) (acc : σ) : Option (σ ⊕ ρ) :=
  match sel, maxlevel with
  | some (s, up), l + 1 => walk c true fs l visit n l (start s up) acc
  | _, _ => some (.inl acc)

/-- `ReadRecordField` (132-290) for an object with `Find` functions `fs` below the manager at level `maxlevel`;
`sel` is the selected context with the nodes above it, if there is one. -/
def readRecord {σ ρ : Type} (c : Cfg) (fs : Nat → Finder) (maxlevel : Nat) (visit : σ → Node → σ ⊕ ρ) (n : Nat)
    (sel : Option (Node × List (Node × List Node))) (root : Node) (acc : σ) : Option (σ ⊕ ρ) :=
  match firstMode c fs maxlevel visit n sel acc with
  | none => none
  | some (.inr r) => some (.inr r)
  | some (.inl acc) => walk c false fs maxlevel visit n maxlevel (start root []) acc

/-- The value of a field; `some none`: nothing found, the function returns false. -/
def readField (c : Cfg) (fs : Nat → Finder) (maxlevel : Nat) (item : Text) (n : Nat)
    (sel : Option (Node × List (Node × List Node))) (root : Node) : Option (Option Val) :=
  (readRecord c fs maxlevel (visitField c item) n sel root ()).map (fun r => match r with | .inl _ => none | .inr v => some v)

/-- The fields of a record, and if any node was found. -/
def readMap (c : Cfg) (fs : Nat → Finder) (maxlevel : Nat) (item : Text) (n : Nat)
    (sel : Option (Node × List (Node × List Node))) (root : Node) (m : List (Text × Text)) : Option (Bool × List (Text × Text)) :=
  (readRecord c fs maxlevel (visitMap c item) n sel root (false, m)).map (fun r => match r with | .inl a => a | .inr _ => (true, m))

end Verif.ConfigIO
