import Verif.Url
import Verif.FileName

/-!
# Model of the search of items in a published hierarchy and of the requests for them

`Object::SearchForChild` (base/src/Object.cxx:735-819) and the methods of `dabc::Publisher` which look for items and pass requests on
(base/src/Publisher.cxx:382-620, 804-907), with `Hierarchy::FindBinaryProducer` (base/src/Hierarchy.cxx:1098-1114).

A hierarchy is a tree of items, of which only the fields used here are kept.  A reference on an item knows the items above it, as
the code finds them with `GetParent()`.  Strings are lists of bytes without zero bytes.
-/

namespace Verif.PublTree
open Verif.Bytes Verif.Json Verif.Text Verif.Url Verif.FileName

abbrev Str := List Byte

/-- Fields of an item: `prop_producer`, `prop_auth` (its value as bool), `prop_kind`, `_UserFilePath`, `_UserFileMain`, `prop_more`. -/
structure Info where
  name : Str
  producer : Option Str := none
  auth : Option Bool := none
  kind : Str := []
  filePath : Str := []
  fileMain : Str := []
  more : Bool := false

inductive Tree where
  | node (info : Info) (kids : List Tree)

namespace Tree
def info : Tree → Info | node i _ => i
def kids : Tree → List Tree | node _ k => k
def name (t : Tree) : Str := t.info.name
end Tree

/-- A `Reference`: the item and the items above it, the nearest first. -/
structure Ref where
  cur : Tree
  up : List Tree

namespace Ref
/-- `while (GetParent() != 0) ref = GetParent()`, base/src/Object.cxx:750-751. -/
def top (r : Ref) : Ref := ⟨r.up.getLast?.getD r.cur, []⟩
/-- `Reference(ref()->GetParent())`. -/
def parent (r : Ref) : Option Ref :=
  match r.up with
  | [] => none
  | p :: ps => some ⟨p, ps⟩
/-- `fObjectChilds->FindObject(name, len)`, base/src/ReferencesVector.cxx:174-181. -/
def child (r : Ref) (n : Str) : Option Ref := (r.cur.kids.find? fun t => t.name = n).map fun t => ⟨t, r.cur :: r.up⟩
/-- The item itself and all above, the nearest first. -/
def chain (r : Ref) : List Tree := r.cur :: r.up
end Ref

def slash : Byte := 47
def dot : Byte := 46

/-- `SearchForChild(ref, name, firsttime, false)`, base/src/Object.cxx:742-811, with a bound for the number of calls; `none`: empty
reference. -/
def search : Nat → Bool → Option Ref → Str → Option Ref
  | 0, _, _, _ => none
  | _ + 1, _, none, _ => none
  | n + 1, first, some r, name =>
    if name = [] then some r
    else if name.head? = some slash ∧ first = true then search n false (some r.top) name.tail
    else
      let name := name.dropWhile (· = slash)
      if name = [] then some r
      else if name = [dot, dot] then r.parent
      else if name.take 3 = [dot, dot, slash] then search n false r.parent (name.drop 3)
      else if name = [dot] then some r
      else if name.take 2 = [dot, slash] then search n false (some r) (name.drop 2)
      else
        let tok := name.takeWhile (· ≠ slash)
        let rest := name.drop tok.length
        let newref := r.child tok
        if rest = [] then newref else search n false newref rest.tail

/-- `GetFolder(name)` and `FindChild(name)` called for the top of a hierarchy, base/src/Object.cxx:735-740, 814-819. -/
def getFolder (t : Tree) (name : Str) : Option Ref := search (name.length + 2) true (some ⟨t, []⟩) name

/-- Names joined with slashes, as `FillFullName` does, base/src/Object.cxx:1061-1073. -/
def join : List Str → Str
  | [] => []
  | [n] => n
  | n :: ns => n ++ slash :: join ns

/-- Loop of `FindBinaryProducer`, base/src/Hierarchy.cxx:1104-1111; `rel` are the names from below the current item down to the item
asked for, `got` is what was found before. -/
def producerLoop (topmost : Bool) : List Tree → List Str → Option (Str × Str) → Option (Str × Str)
  | [], _, got => got
  | t :: ts, rel, got =>
    match t.info.producer with
    | some p => if topmost then producerLoop topmost ts (t.name :: rel) (some (p, join rel)) else some (p, join rel)
    | none => producerLoop topmost ts (t.name :: rel) got

/-- `FindBinaryProducer(request_name, topmost)`; `none`: nothing found, the name is empty and `request_name` is not changed. -/
def findProducer (topmost : Bool) (r : Ref) : Option (Str × Str) := producerLoop topmost r.chain [] none

/-! ## The publisher -/

/-- `PublisherEntry`, base/dabc/Publisher.h:90-124, as far as requests are concerned; `hier` stands for the pointer on the hierarchy. -/
structure Entry where
  id : Nat
  path : Str
  worker : Str
  fulladdr : Str
  hier : Nat
  isLocal : Bool
  rem : Tree

/-- State of the publisher: `fLocal`, `fGlobal`, `fPublishers`. -/
structure Publ where
  loc : Tree
  glob : Option Tree
  entries : List Entry

/-- `GetWorkItem(path, islocal)`, base/src/Publisher.cxx:382-392. -/
def Publ.top (p : Publ) : Tree := p.glob.getD p.loc
def workItem (p : Publ) (path : Str) : Option Ref :=
  if path = [] ∨ path = [slash] then some ⟨p.top, []⟩ else getFolder p.top path

/-- Result of `IdentifyItem`: the value returned and the arguments which it sets. -/
structure Ident where
  ok : Bool
  isLocal : Bool := true
  producer : Str := []
  request : Str := []
  deriving DecidableEq

/-- The names set for an item which was found, lines 402-405, 417-421; value returned at line 426. -/
def found (asproducer isLocal : Bool) (h : Ref) (item : Str) : Ident :=
  let pr : Str × Str := if asproducer then (findProducer (!isLocal) h).getD ([], []) else (item, [])
  { ok := pr.1 ≠ [] || asproducer, isLocal := isLocal, producer := pr.1, request := pr.2 }

/-- First remote hierarchy with the item, lines 410-414. -/
def findRemote (es : List Entry) (item : Str) : Option Ref :=
  ((es.filter fun e => !e.isLocal).filterMap fun e => getFolder e.rem item).head?

/-- Rest of the name appended to the request, lines 443-445. -/
def addSub (request sub : Str) : Str :=
  if sub ≠ [] ∧ request ≠ [] ∧ request.getLast? ≠ some slash then request ++ slash :: sub else request ++ sub

/-- `IdentifyItem(asproducer, itemname, islocal, producer_name, request_name)` for names which are empty before,
base/src/Publisher.cxx:394-449, with a bound for the number of calls. -/
def identify (p : Publ) (asproducer : Bool) : Nat → Str → Ident
  | 0, _ => { ok := false }
  | n + 1, item =>
    if asproducer = true ∧ item = [] then { ok := false }
    else
      match getFolder p.loc item with
      | some h => found asproducer true h item
      | none =>
        match findRemote p.entries item with
        | some h => found asproducer false h item
        | none =>
          if item.length < 2 then { ok := asproducer }
          else
            match rfind [slash] item.dropLast with
            | none => { ok := false }
            | some pos =>
              if pos = 0 ∧ asproducer = true then { ok := false }
              else
                let r := identify p asproducer n (item.take (pos + 1))
                if r.ok then { r with request := addSub r.request (item.drop (pos + 1)) } else r

def identifyItem (p : Publ) (asproducer : Bool) (item : Str) : Ident := identify p asproducer (item.length + 1) item

/-- Where `RedirectCommand` sends a command: refused, to a worker of this node with a hierarchy and a name in it, or to the publisher
of another node. -/
inductive Goal where
  | refused
  | worker (receiver : Str) (hier : Nat) (subitem : Str)
  | node (receiver : Str)
  deriving DecidableEq

def dfltName : Str := lit "/publ"

/-- `RedirectCommand(cmd, itemname)`, base/src/Publisher.cxx:452-509; `none`: undefined behaviour in the decomposition of the address. -/
def redirect (m : Mgr) (p : Publ) (analyzed : Bool) (item : Str) : Option Goal :=
  let r := identifyItem p true item
  if !r.ok then some .refused
  else
    (decomposeAddr m r.producer).map fun
    | none => .refused
    | some (producerLocal, server, pitem) =>
      if r.isLocal || producerLocal then
        match p.entries.find? fun e => e.isLocal && (e.worker = pitem || e.worker = slash :: pitem) with
        | some e => .worker e.worker e.hier r.request
        | none => .refused
      else if analyzed then .refused
      else .node (composeAddr m server dfltName)

/-- `CreateExeCmd(path, query)`, base/src/Publisher.cxx:512-524, 610: receiver of the command and name of the item for it. -/
def exeTarget (p : Publ) (path : Str) : Option (Str × Str) :=
  match workItem p path with
  | none => none
  | some d =>
    if d.cur.info.kind ≠ lit "DABC.Command" then none
    else
      match findProducer p.glob.isSome d with
      | none => none
      | some (pr, req) => if pr = [] then none else some (pr, req)

/-- `CmdUIKind`, base/src/Publisher.cxx:831-863: kind is `__user__`, `path`, `fname`; `none`: false. -/
def uiKind (p : Publ) (uri : Str) : Option (Bool × Str × Str) :=
  let r : Ident := if uri = [] then { ok := true } else identifyItem p false uri
  if !r.ok then none
  else
    let h := workItem p r.producer
    let info : Info := (h.map fun x => x.cur.info).getD { name := [] }
    if r.isLocal && info.kind = lit "DABC.HTML" then
      some (true, info.filePath, if r.request = [] then info.fileMain else r.request)
    else
      match rfind [slash] r.request with
      | some pos =>
        if pos + 1 ≠ r.request.length then some (false, r.producer ++ r.request.take pos, r.request.drop (pos + 1))
        else some (false, r.producer, r.request)
      | none => some (false, r.producer, r.request)

/-- Loop of `CmdNeedAuth`, base/src/Publisher.cxx:871-878. -/
def authLoop : List Tree → Option Bool
  | [] => none
  | t :: ts =>
    match t.info.auth with
    | some a => some a
    | none => authLoop ts

/-- `CmdNeedAuth`, base/src/Publisher.cxx:865-883: 1, 0 or -1. -/
def needAuth (p : Publ) (path : Str) : Int :=
  match workItem p path with
  | none => -1
  | some h =>
    match authLoop h.chain with
    | some true => 1
    | some false => 0
    | none => -1

/-- `CmdGetNamesList`, base/src/Publisher.cxx:804-820, is passed on when the item is not known or can tell more. -/
inductive Names where
  | own (r : Ref)
  | passed (g : Option Goal)

def namesList (m : Mgr) (p : Publ) (analyzed : Bool) (path query : Str) : Names :=
  match workItem p path with
  | some h => if h.cur.info.more || (find (lit "more") query).isSome then .passed (redirect m p analyzed path) else .own h
  | none => .passed (redirect m p analyzed path)

end Verif.PublTree
