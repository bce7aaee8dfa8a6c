/-!
# Model of the iterator over objects

`dabc::Iterator`, base/src/Iterator.cxx:20-94 and base/dabc/Iterator.h.  The tree of objects is not changed while it is used, names and
references are left out.
-/

namespace Verif.ObjIter

/-- Object with its childs. -/
inductive Tree
  | node (id : Nat) (ch : List Tree)

def Tree.id : Tree → Nat
  | .node i _ => i

def Tree.childs : Tree → List Tree
  | .node _ c => c

/-- `fCurrent`, and `fFolders` with `fIndexes`, the innermost first. -/
structure It where
  top : Option Tree
  max : Int
  cur : Option Tree
  st : List (Tree × Nat)

/-- Constructor, base/src/Iterator.cxx:20-38. -/
def new (top : Option Tree) (max : Int) : It := ⟨top, max, none, []⟩

/-- Loop over the parents, base/src/Iterator.cxx:67-83. -/
def climb : List (Tree × Nat) → Option Tree × List (Tree × Nat)
  | [] => (none, [])
  | (f, i) :: st => match f.childs[i + 1]? with
    | some c => (some c, (f, i + 1) :: st)
    | none => climb st

/-- `next`, base/src/Iterator.cxx:44-89. -/
def next (it : It) (inside : Bool) : It :=
  match it.cur with
  | none => { it with cur := it.top, st := [] }
  | some t =>
    let child := if inside && (it.max < 0 || it.st.length < it.max) then t.childs[0]? else none
    match child with
    | some c => { it with cur := some c, st := (t, 0) :: it.st }
    | none => { it with cur := (climb it.st).1, st := (climb it.st).2 }

/-- Positions from the top object to the current one. -/
def It.path (it : It) : List Nat := (it.st.map (·.2)).reverse

/-- `level()`. -/
def It.level (it : It) : Nat := it.st.length

/-- `parent(lvl)`, base/src/Iterator.cxx:91-94. -/
def It.parent (it : It) (lvl : Nat) : Option Tree := (it.st.reverse[lvl]?).map (·.1)

/-- Results of `n` calls; the user decides with `g` whether the childs of an object are visited. -/
def calls (g : List Nat → Bool) : Nat → It → List (Option (List Nat × Nat)) × It
  | 0, it => ([], it)
  | n + 1, it =>
    let it := next it (g it.path)
    let r := calls g n it
    (it.cur.map (fun t => (it.path, t.id)) :: r.1, r.2)

end Verif.ObjIter
