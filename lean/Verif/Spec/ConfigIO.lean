import Verif.ConfigIO

/-!
# Where the configuration of an object stands
-/

namespace Verif.ConfigIO.Spec

/-- Value of an attribute with its variables replaced, empty if there is none. -/
def attr (c : Cfg) (n : Node) (a : Text) : Text := ((getAttr n a).map c.res).getD []

/-- A node belongs to an object: it has the name and the attributes which the object wants.  In the selected context
the attributes must be there and be equal; elsewhere they may be missing or have wildcards. -/
def Belongs (c : Cfg) (strict : Bool) (f : Finder) (n : Node) : Prop :=
  ∃ name checks, f = .tag name checks ∧ n.name = name ∧ ∀ a v, (a, v) ∈ checks →
    (attr c n a ≠ [] ∧ attr c n a = v) ∨
    (strict = false ∧ (attr c n a = [] ∨ c.fnm (attr c n a) v = true))

open Classical in
/-- Nodes for an object: nodes below `n` on the way over nodes which belong to the objects at the levels
`l - 1`, ..., `0`, in the order of the file. -/
noncomputable def places (c : Cfg) (strict : Bool) (fs : Nat → Finder) : Nat → Node → List Node
  | 0, n => [n]
  | l + 1, n => (n.kids.filter (fun k => decide (Belongs c strict (fs l) k))).flatMap (places c strict fs l)

/-- Nodes in the selected context; the object at `maxlevel` is the context itself. -/
noncomputable def selPlaces (c : Cfg) (fs : Nat → Finder) (maxlevel : Nat) : Option Node → List Node
  | none => []
  | some s => if maxlevel = 0 then [] else places c true fs maxlevel s

/-- All nodes for an object: first in the selected context, then in all contexts with wildcards. -/
noncomputable def allPlaces (c : Cfg) (fs : Nat → Finder) (maxlevel : Nat) (sel : Option Node) (root : Node) : List Node :=
  selPlaces c fs maxlevel sel ++ places c false fs (maxlevel + 1) root

/-- First node with a name. -/
def First (l : List Node) (a : Text) (x : Node) : Prop := ∃ p q, l = p ++ x :: q ∧ x.name = a ∧ ∀ z ∈ p, z.name ≠ a

/-- A path of names leads from a node to a node. -/
inductive Leads : Node → List Text → Node → Prop
  | nil (n) : Leads n [] n
  | cons (n m a r i) : First n.kids a m → Leads m r i → Leads n (a :: r) i

/-- The path as text. -/
def pathText (names : List Text) : Text := (names.intersperse ['/']).flatten

/-- Value of an attribute, with variables replaced. -/
def value (c : Cfg) (n : Node) (a : Text) (t : Text) : Prop := ∃ x, getAttr n a = some x ∧ t = if x = [] then [] else c.res x

/-- Values of the items of a list, in their order. -/
inductive Items (c : Cfg) : List Node → List Text → Prop
  | nil : Items c [] []
  | take (k ks t ts) : k.name = "item".toList → value c k "value".toList t → Items c ks ts → Items c (k :: ks) (t :: ts)
  | leave (k ks ts) : (k.name ≠ "item".toList ∨ getAttr k "value".toList = none) → Items c ks ts → Items c (k :: ks) ts

/-- A node gives a value for a path: attribute `value` at the end of the path; otherwise an attribute of the node
itself; otherwise the items at the end of the path. -/
def Gives (c : Cfg) (n : Node) (names : List Text) (v : Val) : Prop :=
  (∃ i t, Leads n names i ∧ value c i "value".toList t ∧ v = .str t) ∨
  ((∀ i, Leads n names i → getAttr i "value".toList = none) ∧ ∃ t, value c n (pathText names) t ∧ v = .str t) ∨
  ((∀ i, Leads n names i → getAttr i "value".toList = none) ∧ getAttr n (pathText names) = none ∧
    ∃ i ts, Leads n names i ∧ Items c i.kids ts ∧ ts ≠ [] ∧ v = .vect ts)

/-- A node `<dabc:field name="a" value="v"/>`. -/
def IsField (k : Node) (a v : Text) : Prop :=
  k.name = "dabc:field".toList ∧ getAttr k "name".toList = some a ∧ getAttr k "value".toList = some v

/-- Field of a record in its node: attribute, otherwise the first child which defines it. -/
def FieldIn (i : Node) (a v : Text) : Prop :=
  getAttr i a = some v ∨
  (getAttr i a = none ∧ ∃ p k q, i.kids = p ++ k :: q ∧ IsField k a v ∧ ∀ z ∈ p, ∀ w, ¬ IsField z a w)

end Verif.ConfigIO.Spec
