import Verif.ObjIter

/-! Specification for C101: the objects of a tree in order, parents before their childs. -/

namespace Verif.ObjIter.Spec
open Verif.ObjIter

mutual
/-- Objects at and below a position, with their positions. -/
def pre (g : List Nat → Bool) (max : Int) (p : List Nat) : Tree → List (List Nat × Nat)
  | .node id ch => (p, id) :: (if g p = true ∧ (max < 0 ∨ (p.length : Int) < max) then preL g max p 0 ch else [])

/-- The same for childs from the position `i` on. -/
def preL (g : List Nat → Bool) (max : Int) (p : List Nat) (i : Nat) : List Tree → List (List Nat × Nat)
  | [] => []
  | t :: ts => pre g max (p ++ [i]) t ++ preL g max p (i + 1) ts
end

/-- The object at a position. -/
def at_ : Tree → List Nat → Option Tree
  | t, [] => some t
  | t, i :: p => match t.childs[i]? with
    | some c => at_ c p
    | none => none

end Verif.ObjIter.Spec
