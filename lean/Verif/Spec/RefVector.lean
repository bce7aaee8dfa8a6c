import Verif.RefVector

/-!
# Specification: a list of objects
-/

namespace Verif.RefVector

/-- Operations; references given to the vector are never null unless said. -/
inductive Op where
  | add (ref : Option Nat)
  | addAt (ref : Option Nat) (pos : Nat)
  | remove (obj : Option Nat)
  | removeAt (n : Nat)
  | takeRef (n : Nat)
  /-- `ref` is the reference into which the result goes. -/
  | extract (n : Nat) (ref : Option Nat)
  | extractObj (obj ref : Option Nat)
  | takeLast
  | clear (owner : Bool)

/-- What the caller sees: an answer and a reference. -/
structure Out where
  ok : Bool
  ref : Option Nat
  deriving DecidableEq, Repr

/-- The operation of the code. -/
def Op.step (w : W) : Op → Option (Out × W)
  | .add r => (RefVector.add w r).map fun q => (⟨q.1, if q.1 then none else r⟩, q.2)
  | .addAt r p => (RefVector.addAt w r p).map fun q => (⟨q.1, if q.1 then none else r⟩, q.2)
  | .remove o => (RefVector.remove w o).map fun q => (⟨q.1, none⟩, q.2)
  | .removeAt n => (RefVector.removeAt w n).map fun w => (⟨true, none⟩, w)
  | .takeRef n => (RefVector.takeRef w n).map fun q => (⟨true, q.1⟩, q.2)
  | .extract n r => (RefVector.extractRef w n r).map fun q => (⟨q.1, q.2.1⟩, q.2.2)
  | .extractObj o r => (RefVector.extractObj w o r).map fun q => (⟨q.1, q.2.1⟩, q.2.2)
  | .takeLast => (RefVector.takeLast w).map fun q => (⟨true, q.1⟩, q.2)
  | .clear b => (RefVector.clear w b).map fun w => (⟨true, none⟩, w)

def run (w : W) : List Op → Option (List Out × W)
  | [] => some ([], w)
  | op :: l =>
    match op.step w with
    | none => none
    | some (o, w) => (run w l).map fun q => (o :: q.1, q.2)

/-- The list afterwards. -/
def Op.list (l : List Nat) : Op → List Nat
  | .add none => l
  | .add (some o) => l ++ [o]
  | .addAt none _ => l
  | .addAt (some o) p => l.take p ++ o :: l.drop p
  | .remove none => l
  | .remove (some o) => l.filter (· ≠ o)
  | .removeAt n => l.take n ++ l.drop (n + 1)
  | .takeRef n => l.take n ++ l.drop (n + 1)
  | .extract n _ => l.take n ++ l.drop (n + 1)
  | .extractObj none _ => l
  | .extractObj (some o) _ => l.erase o
  | .takeLast => l.dropLast
  | .clear _ => []

/-- What the caller gets. -/
def Op.out (l : List Nat) : Op → Out
  | .add r => ⟨r.isSome, none⟩
  | .addAt r _ => ⟨r.isSome, none⟩
  | .remove o => ⟨o.isSome && !l.isEmpty, none⟩
  | .removeAt _ => ⟨true, none⟩
  | .takeRef n => ⟨true, l[n]?⟩
  | .extract n r => if n < l.length then ⟨true, l[n]?⟩ else ⟨false, r⟩
  | .extractObj o r =>
    match o with
    | some o => if o ∈ l then ⟨true, some o⟩ else ⟨false, r⟩
    | none => ⟨false, r⟩
  | .takeLast => ⟨true, l.getLast?⟩
  | .clear _ => ⟨true, none⟩

/-- References which are given back. -/
def Op.gone (l : List Nat) : Op → List Nat
  | .remove (some o) => l.filter (· = o)
  | .removeAt n => l[n]?.toList
  | .extract n r => if n < l.length then r.toList else []
  | .extractObj (some o) r => if o ∈ l then r.toList else []
  | .clear false => l
  | _ => []

/-- Objects which are destroyed. -/
def Op.killed (l : List Nat) : Op → List Nat
  | .clear true => l
  | _ => []

/-- The list after some operations. -/
def lists (l : List Nat) (ops : List Op) : List Nat := ops.foldl Op.list l

/-- The vector holds exactly these objects. -/
def Holds (w : W) (l : List Nat) : Prop := w.vec = l.map some

/-- References which enter with an operation. -/
def Op.given : Op → List Nat
  | .add r => r.toList
  | .addAt r _ => r.toList
  | .extract _ r => r.toList
  | .extractObj _ r => r.toList
  | _ => []

end Verif.RefVector
