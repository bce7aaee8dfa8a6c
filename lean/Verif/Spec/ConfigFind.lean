import Verif.ConfigFind

/-!
# What belongs to a context
-/

namespace Verif.ConfigFind.Spec

/-- Nodes which a path of names leads to, in the order of the file. -/
def items : List Text → Node → List Node
  | [], _ => []
  | [s], node => node.kids.filter (·.name = s)
  | s :: subs, node => (node.kids.filter (·.name = s)).flatMap (items subs)

/-- `mask` gives values to `node`: it has the same name, no attribute of the node contradicts it, and at least one
attribute of the node (if there are any) has wildcards in the mask. -/
def Mask (fnm : Text → Text → Bool) (node mask : Node) : Prop :=
  node.name = mask.name ∧
  (∀ a v m, (a, v) ∈ node.attrs → getAttr node a = some v → getAttr mask a = some m → fnm m v = true) ∧
  (node.attrs ≠ [] → ∃ a v m, (a, v) ∈ node.attrs ∧ getAttr mask a = some m ∧ ('*' ∈ m ∨ '?' ∈ m))

open Classical in
/-- All nodes for a path: first of the node itself, then of the masks in the order of the file. -/
noncomputable def all (fnm : Text → Text → Bool) (root node : Node) (subs : List Text) : List Node :=
  items subs node ++ (root.kids.filter (fun k => decide (Mask fnm node k))).flatMap (items subs)

mutual
/-- Addresses of all nodes of a tree. -/
def ids : Node → List Nat
  | .mk i _ _ _ ks => i :: idsList ks
def idsList : List Node → List Nat
  | [] => []
  | k :: ks => ids k ++ idsList ks
end

def Wild (n : Node) (a : Text) : Prop := ∃ v, getAttr n a = some v ∧ ('*' ∈ v ∨ '?' ∈ v)

/-- A context: `host` and `name` have no wildcards. -/
def Context (n : Node) : Prop := n.name = "Context".toList ∧ ¬ Wild n "host".toList ∧ ¬ Wild n "name".toList

open Classical in
noncomputable def contexts (root : Node) : List Node := root.kids.filter (fun k => decide (Context k))

/-- Nothing is created for a node with `auto="false"` and, if wanted, for a node whose name has wildcards. -/
def Creates (check : Bool) (n : Node) : Prop :=
  getAttr n "auto".toList ≠ some "false".toList ∧ (check = true → ¬ Wild n "name".toList)

/-- The node has attributes, and no attribute has wildcards. -/
def Named (n : Node) : Prop := n.attrs ≠ [] ∧ ∀ a v, (a, v) ∈ n.attrs → '*' ∉ v ∧ '?' ∉ v

end Verif.ConfigFind.Spec
