/-!
# Search in the configuration file

Model of the search functions of `dabc::ConfigBase` (base/src/ConfigBase.cxx:160-443) and of
`Configuration::NextCreationNode` and `LoadLibs` (base/src/Configuration.cxx:260-297).

A node is its address (`id`), name, attributes, value and childs.  A comment is a node whose name is its text
(base/src/XmlEngine.cxx:689-702), and `GetChild`/`GetNext` give it as any other node; the content of a node is
not in its childs.  Values of nodes (`GetNodeValue`, lines 284-290) have their variables replaced already.
`fnmatch` of the C library is a parameter.
-/

namespace Verif.ConfigFind

abbrev Text := List Char

inductive Node where
  | mk (id : Nat) (name : Text) (attrs : List (Text × Text)) (value : Text) (kids : List Node)

namespace Node

def id : Node → Nat | mk i _ _ _ _ => i
def name : Node → Text | mk _ n _ _ _ => n
def attrs : Node → List (Text × Text) | mk _ _ a _ _ => a
/-- `GetNodeValue` (284-290). -/
def value : Node → Text | mk _ _ _ v _ => v
def kids : Node → List Node | mk _ _ _ _ k => k

end Node

/-- `Xml::GetAttr`: the first attribute with the name. -/
def getAttr (n : Node) (a : Text) : Option Text := (n.attrs.find? (·.1 = a)).map (·.2)

/-- `FindChild` (183-192). -/
def findChild (n : Node) (name : Text) : Option Node := n.kids.find? (·.name = name)

/-- The loop of lines 203-216: `f` is called for every child until it finds something; what is left of `lastmatch`
goes from call to call. -/
def scan (f : Option Nat → Node → Option Nat × Option Node) : Option Nat → List Node → Option Nat × Option Node
  | last, [] => (last, none)
  | last, k :: ks =>
    match f last k with
    | (last, some r) => (last, some r)
    | (last, none) => scan f last ks

/-- Lines 206-208. -/
def test (last : Option Nat) (k : Node) : Option Nat × Option Node :=
  match last with
  | none => (none, some k)
  | some l => if l = k.id then (none, none) else (some l, none)

/-- `FindItemMatch` (194-219); the names which are given are a list. -/
def itemMatch : List Text → Option Nat → Node → Option Nat × Option Node
  | [], last, _ => (last, none)
  | [s], last, node => scan (fun last k => if k.name = s then test last k else (last, none)) last node.kids
  | s :: s' :: subs, last, node =>
    scan (fun last k => if k.name = s then itemMatch (s' :: subs) last k else (last, none)) last node.kids

/-- `IsWildcard` (392-397). -/
def isWildcard (t : Option Text) : Bool :=
  match t with
  | none => false
  | some t => t.contains '*' || t.contains '?'

/-- Lines 235-248: some attribute does not fit. -/
def differs (fnm : Text → Text → Bool) (node mask : Node) (a : Text) : Bool :=
  match getAttr node a, getAttr mask a with
  | some v, some m => !fnm m v
  | _, _ => false

/-- `NodeMaskMatch` (221-256). -/
def maskMatch (fnm : Text → Text → Bool) (node mask : Node) : Bool :=
  if node.name ≠ mask.name then false
  else if node.attrs.any (fun a => differs fnm node mask a.1) then false
  else if !node.attrs.isEmpty && !node.attrs.any (fun a => isWildcard (getAttr mask a.1)) then false
  else true

/-- `FindMatch` (259-282); `root` is `RootNode()`. -/
def findMatch (fnm : Text → Text → Bool) (root : Node) (last : Option Nat) (node : Node) (subs : List Text) : Option Node :=
  match itemMatch subs last node with
  | (_, some r) => some r
  | (last, none) =>
    (scan (fun last k => if maskMatch fnm node k then itemMatch subs last k else (last, none)) last root.kids).2

/-- `Find1` (304-320). -/
def find1 (fnm : Text → Text → Bool) (root : Node) (dflt : Text) : List Text → Node → Text
  | [], _ => dflt
  | s :: subs, node =>
    match findMatch fnm root none node (s :: subs) with
    | some r => if r.value = [] then dflt else r.value
    | none =>
      if subs = [] then dflt
      else match findChild node s with
        | some c => find1 fnm root dflt subs c
        | none => dflt

/-- `IsContextNode` (405-419). -/
def isContext (n : Node) : Bool :=
  decide (n.name = "Context".toList) && !isWildcard (getAttr n "host".toList) && !isWildcard (getAttr n "name".toList)

/-- `NumNodes` (334-347). -/
def numNodes (root : Node) : Nat := (root.kids.filter isContext).length

/-- Loop of `FindContext` (430-435) from counter `cnt` on. -/
def contextLoop (id : Nat) : Nat → List Node → Option Node
  | _, [] => none
  | cnt, k :: ks =>
    if isContext k then (if cnt = id then some k else contextLoop id (cnt + 1) ks)
    else contextLoop id cnt ks

/-- `FindContext` (422-438). -/
def findContext (root : Node) (id : Nat) : Option Node := contextLoop id 0 root.kids

/-- Calls of `FindMatch` each with the result of the call before, as in `FindN` (322-332): the first `n` results,
until nothing is found. -/
def calls (fnm : Text → Text → Bool) (root node : Node) (subs : List Text) : Nat → Option Nat → List Node
  | 0, _ => []
  | n + 1, last =>
    match findMatch fnm root last node subs with
    | none => []
    | some r => r :: calls fnm root node subs n (some r.id)

/-- `NextCreationNode` (Configuration.cxx:279-297): `none` is a call which does not return. -/
def nextCreation (fnm : Text → Text → Bool) (root node : Node) (name : Text) (check : Bool) : Nat → Option Nat → Option (Option Node)
  | 0, _ => none
  | n + 1, prev =>
    match findMatch fnm root prev node [name] with
    | none => some none
    | some r =>
      if getAttr r "auto".toList = some "false".toList then nextCreation fnm root node name check n (some r.id)
      else if !check then some (some r)
      else if isWildcard (getAttr r "name".toList) then nextCreation fnm root node name check n (some r.id)
      else some (some r)

/-- `LoadLibs` (Configuration.cxx:260-277): the libraries which are loaded, and if the function returns; all
libraries exist (a missing one ends the function, line 272). -/
def loadLibs (fnm : Text → Text → Bool) (root node : Node) : Nat → Option Nat → List Text × Bool
  | 0, _ => ([], false)
  | n + 1, last =>
    match findMatch fnm root last node ["Run".toList, "lib".toList] with
    | none => ([], true)
    | some r =>
      if r.value = [] then ([], true)
      else
        let p := loadLibs fnm root node n (some r.id)
        (r.value :: p.1, p.2)

end Verif.ConfigFind
