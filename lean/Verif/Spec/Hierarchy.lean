import Verif.Hierarchy

/-! # What is expected of versions and of a client following a hierarchy -/

namespace Verif.Hierarchy
variable {D X : Type}

/-- What can be seen of a hierarchy. -/
inductive V (D X : Type) where
  | node (name : String) (c : D × Option X) (ch : List (V D X))

mutual
/-- The hierarchy of the server as it should be seen with the given kind. -/
def H.view (k : Kind) : H D X → V D X
  | .node d ch => .node d.name (content k d.dns d.val) (viewL k ch)
def viewL (k : Kind) : List (H D X) → List (V D X)
  | [] => []
  | x :: xs => x.view k :: viewL k xs
end

mutual
/-- The hierarchy of the client. -/
def T.view (k : Kind) : T D X → V D X
  | .node n dns val ch => .node n (content k dns val) (tviewL k ch)
def tviewL (k : Kind) : List (T D X) → List (V D X)
  | [] => []
  | x :: xs => x.view k :: tviewL k xs
end

mutual
/-- Some change in the item or below was not marked yet. -/
def H.dirty : H D X → Bool
  | .node d ch => d.fch || d.nodeCh || dirtyL ch
def dirtyL : List (H D X) → Bool
  | [] => false
  | x :: xs => x.dirty || dirtyL xs
end

/-- Item at the end of a path. -/
def sub : List Nat → H D X → Option (H D X)
  | [], h => some h
  | i :: p, .node _ ch => match ch[i]? with
    | none => none
    | some x => sub p x

/-- The item of the client with the same names as the server has along the path. -/
def clientAt : List Nat → H D X → T D X → Option (T D X)
  | [], _, t => some t
  | i :: p, .node _ ch, t => match ch[i]? with
    | none => none
    | some x => match t.ch.find? (fun d => d.name = x.name) with
      | none => none
      | some d => clientAt p x d

/-- Server, client and the version of the last transfer. -/
structure Sys (D X : Type) where
  s : H D X
  c : T D X
  v : Nat

inductive HOp (D X : Type) where
  | setVal (p : List Nat) (x : X)
  | setDns (p : List Nat) (y : D)
  | create (p : List Nat) (pos : Nat) (name : String)
  | remove (p : List Nat) (n : Nat)
  | mark (p : List Nat)
  | fetch

/-- One action; with `fetch` the client gets the changes since its version as in base/src/Worker.cxx:702-719 and
base/src/Publisher.cxx:334-349. -/
def Sys.step [Inhabited D] [Inhabited X] (k : Kind) (stamp : X → X) (sys : Sys D X) : HOp D X → Sys D X
  | .setVal p x => { sys with s := modAt (Hierarchy.setVal x) p sys.s }
  | .setDns p y => { sys with s := modAt (Hierarchy.setDns y) p sys.s }
  | .create p pos name => { sys with s := modAt (Hierarchy.create pos name) p sys.s }
  | .remove p n => { sys with s := modAt (removeChild n) p sys.s }
  | .mark p => { sys with s := (markAt (nextVersion sys.s) stamp p sys.s).1 }
  | .fetch => { sys with c := apply (stream k sys.v sys.s) sys.c, v := sys.s.data.nodeVer }

/-- The name of a new child is used neither by another child nor by an item which the client has at this place.
When only the names are followed, there are no unmarked changes of names above the marked item. -/
def HLegal (k : Kind) (sys : Sys D X) : HOp D X → Prop
  | .create p _ name => (∀ x, sub p sys.s = some x → ∀ y ∈ x.ch, y.name ≠ name) ∧
      ∀ d, clientAt p sys.s sys.c = some d → ∀ y ∈ d.ch, y.name ≠ name
  | .mark p => k = .full ∨ ∀ q, q <+: p → q ≠ p → ∀ y, sub q sys.s = some y → y.data.namesCh = false ∧ y.data.fnames = false
  | _ => True

/-- Everything reachable from an empty hierarchy and an empty client. -/
inductive HReach [Inhabited D] [Inhabited X] (k : Kind) (stamp : X → X) : Sys D X → Prop
  | init (name : String) : HReach k stamp ⟨.node { name := name, dns := default, val := default } [], .empty name, 0⟩
  | step {sys} (op : HOp D X) : HReach k stamp sys → HLegal k sys op → HReach k stamp (sys.step k stamp op)

/-- Marking at `p` concerns the item at `q`: a parent of a changed item, or a changed item below. -/
def Touched (s : H D X) (p q : List Nat) : Prop :=
  (q <+: p ∧ ∃ x, sub p s = some x ∧ x.dirty = true) ∨ (p <+: q ∧ ∃ y, sub q s = some y ∧ y.dirty = true)

end Verif.Hierarchy
