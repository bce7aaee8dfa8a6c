import Verif.Queue

/-! Specification for properties C01-C04: ideal queues as plain lists, independent of the ring. -/

namespace Verif.Queue
variable {α : Type} [DecidableEq α]

/-- Ideal unbounded FIFO; the list is the content, oldest first.  `none`: the user made a call
without defined meaning (pop/peek on an empty queue, wrong index, `Allocate(0)`; `Full` has no
meaning for an unbounded queue). -/
def fifoStep (l : List α) : Op α → Option (Out α × List α)
  | .push v => some (.unit, l ++ [v])
  | .pop => match l with | [] => none | a :: l => some (.val a, l)
  | .popOnly => some (.unit, l.drop 1)
  | .front => l.head?.map fun a => (.val a, l)
  | .back => l.getLast?.map fun a => (.val a, l)
  | .item i => l[i]?.map fun a => (.val a, l)
  | .size => some (.nat l.length, l)
  | .empty => some (.bool l.isEmpty, l)
  | .full => none
  | .removeItem i => some (.bool (decide (i < l.length)), l.eraseIdx i)
  | .remove v => some (.unit, l.filter (· ≠ v))
  | .reset => some (.unit, [])
  | .expand _ => some (.unit, l)
  | .allocate n => if n = 0 then none else some (.unit, [])

/-- Ideal FIFO bounded by `N`: a push into a full queue is refused, the content stays. -/
def boundedStep (s : List α × Nat) : Op α → Option (Out α × (List α × Nat))
  | .push v => some (.unit, if s.1.length < s.2 then (s.1 ++ [v], s.2) else s)
  | .full => some (.bool (decide (s.1.length = s.2)), s)
  | .expand n => some (.unit, (s.1, max 16 (if n ≤ s.2 then 2 * s.2 else n)))
  | .allocate n => if n = 0 then none else some (.unit, ([], n))
  | op => (fifoStep s.1 op).map fun (o, l) => (o, (l, s.2))

/-- Outputs of a whole call sequence on an ideal queue. -/
def specRun {σ : Type} (stp : σ → Op α → Option (Out α × σ)) : σ → List (Op α) → Option (List (Out α) × σ)
  | s, [] => some ([], s)
  | s, op :: ops => do
    let (o, s) ← stp s op
    let (os, s) ← specRun stp s ops
    some (o :: os, s)

/-- What the user sees of a queue through `Size()` and `Item(i)`. -/
def Content (q : Q α) (l : List α) : Prop :=
  q.size = l.length ∧ ∀ i, i < l.length → q.item i = l[i]?

/-- Queue states a user can produce from a new queue without calling `Allocate(0)`. -/
def Reachable (canexpand : Bool) (q : Q α) : Prop :=
  ∃ cap ops outs, (∀ op ∈ ops, op ≠ Op.allocate 0) ∧ run canexpand (Q.empty.init cap) ops = some (outs, q)

end Verif.Queue
