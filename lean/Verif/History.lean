import Verif.FieldsMap

/-!
# Model of the history of a hierarchy item

base/src/Hierarchy.cxx:42-111 (`HistoryContainer::Stream`), 603-628 and 690-741, base/dabc/Hierarchy.h:46-95.
One item with its fields; changes of the childs enter as a flag.  The history was switched on with
`EnableHistory` (a capacity `cap`), the queue of history items is a list, oldest first (see the model of `Queue`).
-/

namespace Verif.Record
open Verif.Bytes Verif.Stream

/-- `prop_time`, base/src/Hierarchy.cxx:35. -/
def timeName : Name := [116, 105, 109, 101]

/-- `HierarchyContainer` with its `HistoryContainer`. -/
structure Node where
  fields : Fields := {}
  nodeChanged : Bool := false
  ver : Nat := 0
  autoTime : Bool := false
  cap : Nat := 0
  prev : Option Fields := none
  hist : List (Nat × FMap) := []

/-- `AddHistory(diff)`, base/src/Hierarchy.cxx:603-610. -/
def Node.addHistory (s : Node) (diff : FMap) : Node :=
  if s.cap = 0 then s
  else { s with hist := (if s.hist.length ≥ s.cap then s.hist.tail else s.hist) ++ [(s.ver, diff)] }

/-- `MarkVersionIfChanged(ver, tm, …)`, base/src/Hierarchy.cxx:690-741; `child` tells if a child was changed, `tm` is
the time used in line 723. -/
def Node.mark (s : Node) (ver : Nat) (tm : Word) (child : Bool) : Node :=
  let fch := s.fields.wasChanged
  if s.nodeChanged || child || fch then
    let s := { s with ver := ver, fields := if s.autoTime then s.fields.set timeName (.datime tm) else s.fields }
    let s := if s.cap > 0 && fch then
        let s' := match s.prev with
          | some p => s.addHistory (p.makeAsDiffTo s.fields.map).map
          | none => s
        { s' with prev := some s.fields.clone }
      else s
    { s with fields := s.fields.clearFlags, nodeChanged := false }
  else s

/-- `ExtractHistoryStep(fields, step)`, base/src/Hierarchy.cxx:612-621.  `none`: a queue item outside of the stored
items is accessed, its pointer to the fields is null. -/
def Node.extractStep (txt : Val → List Name) (s : Node) (fields : Fields) (step : Nat) : Option (Fields × Bool) :=
  if s.cap ≤ step then some (fields, false)
  else (s.hist[s.cap - step - 1]?).map fun h => (fields.applyDiff txt h.2, true)

/-- Up to `k+1` calls of `HistoryIter::next()`, base/src/Hierarchy.cxx:1193-1212: fields shown after these calls. -/
def Node.iterate (txt : Val → List Name) (s : Node) : Nat → Option (Fields × Bool)
  | 0 => some (s.fields.clone, true)
  | k + 1 => (s.iterate txt k).bind fun r => if r.2 then s.extractStep txt r.1 k else some r

/-- Items written by `HistoryContainer::Stream(s, version, hlimit)`, base/src/Hierarchy.cxx:59-82; second component: `cross_boundary`. -/
def streamItems (hist : List (Nat × FMap)) (version hlimit : Nat) : List (Nat × FMap) × Bool :=
  let sel := hist.drop (if hlimit > 0 ∧ hist.length > hlimit then hist.length - hlimit else 0)
  (sel.filter fun h => !(version > 0 && h.1 ≤ version),
   sel.foldl (fun b h => if version > 0 && h.1 ≤ version then h.1 < version else b) false)

/-- A change of an item. -/
inductive NOp where
  | set (n : Name) (v : Val)
  | remove (n : Name)
  | setModified
  | mark (ver : Nat) (tm : Word) (child : Bool)

/-- One change. -/
def Node.step (s : Node) : NOp → Node
  | .set n v => { s with fields := s.fields.set n v }
  | .remove n => { s with fields := s.fields.remove n }
  | .setModified => { s with nodeChanged := true }
  | .mark ver tm child => s.mark ver tm child

end Verif.Record
