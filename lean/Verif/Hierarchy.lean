/-!
# Model of the versions and of the streaming of a hierarchy of items

base/src/Hierarchy.cxx:224-400 (`HierarchyContainer::Stream`), 690-783 (marking of changes), 899-932,
base/dabc/Hierarchy.h:155-245, base/src/Object.cxx:570-660 (adding and removing childs).

The fields of an item are two opaque values: the fields with names starting with "_" (`dns`) and all others (`val`).
That they survive streaming, and that the change flags tell about all changes, are properties C12 and C50.
History and binary data are left out; no item is permanent and reading is not disabled for any item.
-/

namespace Verif.Hierarchy

/-- Members of `HierarchyContainer`, base/dabc/Hierarchy.h:163-173; `fch`: `Fields().WasChanged()`, `fnames`:
`Fields().WasChangedWith("_")`. -/
structure Data (D X : Type) where
  name : String
  dns : D
  val : X
  fch : Bool := false
  fnames : Bool := false
  nodeCh : Bool := false
  namesCh : Bool := false
  childsCh : Bool := false
  nodeVer : Nat := 0
  namesVer : Nat := 0
  childsVer : Nat := 0

/-- An item with its childs. -/
inductive H (D X : Type) where
  | node (d : Data D X) (ch : List (H D X))

variable {D X : Type}

def H.data : H D X → Data D X | .node d _ => d
def H.ch : H D X → List (H D X) | .node _ ch => ch
def H.name (h : H D X) : String := h.data.name

/-- `ChangeBits`, base/src/Hierarchy.cxx:670-674. -/
structure Mask where
  value : Bool := false
  names : Bool := false
  childs : Bool := false

/-- `mask != 0` -/
def Mask.any (m : Mask) : Bool := m.value || m.names || m.childs
def Mask.or (a b : Mask) : Mask := ⟨a.value || b.value, a.names || b.names, a.childs || b.childs⟩

/-- Flags set because of changes of childs, base/src/Hierarchy.cxx:701-706. -/
def Data.childMask (d : Data D X) (m : Mask) : Data D X :=
  { d with nodeCh := d.nodeCh || m.any, namesCh := d.namesCh || m.names, childsCh := d.childsCh || m.value || m.childs }

/-- Second part of `MarkVersionIfChanged`, base/src/Hierarchy.cxx:701-740; `stamp` changes the time field when
`fAutoTime` is set. -/
def Data.mark (ver : Nat) (stamp : X → X) (d : Data D X) (m : Mask) : Data D X × Mask :=
  let d := d.childMask m
  let d := if d.fch then { d with nodeCh := true, namesCh := d.namesCh || d.fnames } else d
  if d.nodeCh then
    ({ d with
        nodeVer := ver
        namesVer := if d.namesCh then ver else d.namesVer
        childsVer := if d.childsCh then ver else d.childsVer
        val := stamp d.val
        fch := false, fnames := false, nodeCh := false, namesCh := false, childsCh := false },
      ⟨true, m.names || d.namesCh, m.childs || d.childsCh⟩)
  else (d, m)

mutual
/-- `MarkVersionIfChanged(ver, tm, true)`, base/src/Hierarchy.cxx:690-741. -/
def markAll (ver : Nat) (stamp : X → X) : H D X → H D X × Mask
  | .node d ch =>
    let r := markList ver stamp ch
    let e := d.mark ver stamp r.2
    (.node e.1 r.1, e.2)
/-- Loop over the childs, lines 694-699. -/
def markList (ver : Nat) (stamp : X → X) : List (H D X) → List (H D X) × Mask
  | [] => ([], {})
  | x :: xs =>
    let a := markAll ver stamp x
    let b := markList ver stamp xs
    (a.1 :: b.1, a.2.or b.2)
end

/-- `MarkChangedItems(tm)` of the item at the end of the path (child numbers from the top), base/src/Hierarchy.cxx:757-783,
with the mask found for the item. -/
def markAt (ver : Nat) (stamp : X → X) : List Nat → H D X → H D X × Mask
  | [], h => markAll ver stamp h
  | i :: p, .node d ch =>
    match ch[i]? with
    | none => (.node d ch, {})
    | some x =>
      let r := markAt ver stamp p x
      if r.2.any then
        let d1 := { d with nodeCh := true, namesCh := d.namesCh || r.2.names, childsCh := d.childsCh || r.2.value || r.2.childs }
        (.node (d1.mark ver stamp {}).1 (ch.set i r.1), r.2)
      else (.node d (ch.set i r.1), r.2)

/-- `GetNextVersion()`, base/src/Hierarchy.cxx:743-754. -/
def nextVersion (top : H D X) : Nat := top.data.nodeVer + 1

/-! ## Changes -/

/-- Change of the item at the end of a path. -/
def modAt (f : H D X → H D X) : List Nat → H D X → H D X
  | [], h => f h
  | i :: p, .node d ch =>
    match ch[i]? with
    | none => .node d ch
    | some x => .node d (ch.set i (modAt f p x))

/-- `_ChildsChanged()`, base/dabc/Hierarchy.h:240. -/
def Data.childsChanged (d : Data D X) : Data D X := { d with namesCh := true, childsCh := true, nodeCh := true }

/-- Change of fields. -/
def setVal (x : X) : H D X → H D X
  | .node d ch => .node { d with val := x, fch := true } ch
def setDns (y : D) : H D X → H D X
  | .node d ch => .node { d with dns := y, fch := true, fnames := true } ch

/-- New child without fields (`AddChild`, `AddChildAt`). -/
def create [Inhabited D] [Inhabited X] (pos : Nat) (name : String) : H D X → H D X
  | .node d ch => .node d.childsChanged (ch.take pos ++ .node { name := name, dns := default, val := default } [] :: ch.drop pos)

/-- `RemoveChildAt(n)`. -/
def removeChild (n : Nat) : H D X → H D X
  | .node d ch => if n < ch.length then .node d.childsChanged (ch.eraseIdx n) else .node d ch

/-! ## Streaming -/

/-- `stream_NamesList` or `stream_Full`. -/
inductive Kind where
  | names | full
  deriving DecidableEq

/-- Stored fields: with kind `names` only those with prefix "_". -/
def content (k : Kind) (dns : D) (val : X) : D × Option X := (dns, if k = .full then some val else none)

/-- An item in the stream: name (written by the parent), fields and childs. -/
inductive Msg (D X : Type) where
  | mk (name : String) (fields : Option (D × Option X)) (ch : Option (List (Msg D X)))

/-- Versions deciding about fields and childs, base/src/Hierarchy.cxx:241-260. -/
def fver (k : Kind) (d : Data D X) : Nat := if k = .full then d.nodeVer else d.namesVer
def cver (k : Kind) (d : Data D X) : Nat := if k = .full then d.childsVer else d.namesVer

mutual
/-- `Stream` into the buffer, base/src/Hierarchy.cxx:236-296. -/
def stream (k : Kind) (version : Nat) : H D X → Msg D X
  | .node d ch => .mk d.name (if fver k d ≥ version then some (content k d.dns d.val) else none)
      (if cver k d ≥ version then some (streamList k version ch) else none)
def streamList (k : Kind) (version : Nat) : List (H D X) → List (Msg D X)
  | [] => []
  | x :: xs => stream k version x :: streamList k version xs
end

/-- The hierarchy of the client; its own flags and versions do not matter. -/
inductive T (D X : Type) where
  | node (name : String) (dns : D) (val : X) (ch : List (T D X))

def T.name : T D X → String | .node n _ _ _ => n
def T.ch : T D X → List (T D X) | .node _ _ _ ch => ch

/-- New item on the client side. -/
def T.empty [Inhabited D] [Inhabited X] (n : String) : T D X := .node n default default []

/-- Search of a child by name and removal of the skipped ones, base/src/Hierarchy.cxx:362-383: found child and rest. -/
def findSplit (n : String) : List (T D X) → Option (T D X × List (T D X))
  | [] => none
  | c :: cs => if c.name = n then some (c, cs) else findSplit n cs

mutual
/-- `Stream` from the buffer, base/src/Hierarchy.cxx:297-397. -/
def apply [Inhabited D] [Inhabited X] : Msg D X → T D X → T D X
  | .mk _ f c, .node n dns val ch =>
    .node n (match f with | some (y, _) => y | none => dns) (match f with | some (_, some x) => x | _ => val)
      (match c with | some ms => applyList ms ch | none => ch)
/-- Loop over the stored childs, lines 346-396. -/
def applyList [Inhabited D] [Inhabited X] : List (Msg D X) → List (T D X) → List (T D X)
  | [], _ => []
  | .mk n f c :: ms, cs =>
    match findSplit n cs with
    | none => apply (.mk n f c) (.empty n) :: applyList ms cs
    | some (d, post) => apply (.mk n f c) d :: applyList ms post
end

end Verif.Hierarchy
