/-!
# Model of `dabc::Queue<T, canexpand>`  (base/dabc/Queue.h, lines 40-329)

The array `fQueue[0..fCapacity)` is the function `mem` (index = pointer - `fQueue`); a cell that was
never written is `none`.  `fBorder` is the index `cap`.  Every operation returns an `Option`:
`none` means that the C++ code has undefined behaviour here (access outside the array, read of a
never written cell, unsigned underflow of `fSize` on an empty queue, or a loop that does not end).

Simplified: sizes are natural numbers (no 32-bit overflow of the capacity), allocation never fails,
element copies are plain value copies.
-/

namespace Verif.Queue

/-- Data members of `dabc::Queue`, base/dabc/Queue.h:85-91.  `head`, `tail` are `fHead - fQueue`,
`fTail - fQueue`. -/
structure Q (α : Type) where
  mem : Nat → Option α
  cap : Nat
  size : Nat
  head : Nat
  tail : Nat
  initSize : Nat

variable {α : Type}

/-- Default constructor, base/dabc/Queue.h:96 with the member initialisers 85-91. -/
def Q.empty : Q α := { mem := fun _ => none, cap := 0, size := 0, head := 0, tail := 0, initSize := 0 }

/-- Read access `*(fQueue + i)`. -/
def Q.rd (q : Q α) (i : Nat) : Option α := if i < q.cap then q.mem i else none

/-- Write access `*(fQueue + i) = v`. -/
def Q.wr (q : Q α) (i : Nat) (v : α) : Option (Q α) :=
  if i < q.cap then some { q with mem := fun j => if j = i then some v else q.mem j } else none

/-- `if (++p == fBorder) p = fQueue`, used everywhere in base/dabc/Queue.h (e.g. 179, 219, 255). -/
def Q.next (q : Q α) (i : Nat) : Nat := if i + 1 = q.cap then 0 else i + 1

/-- `p = fTail + indx; if (p >= fBorder) p -= fCapacity`, base/dabc/Queue.h:194-195, 286-287. -/
def Q.at (q : Q α) (indx : Nat) : Nat :=
  if q.tail + indx ≥ q.cap then q.tail + indx - q.cap else q.tail + indx

/-- `Allocate(capacity)`, base/dabc/Queue.h:115-132.  Note that for `capacity == 0` the members
`fSize`, `fHead` and `fTail` keep their values. -/
def Q.allocate (q : Q α) (capacity : Nat) : Q α :=
  let q := if q.cap > 0 then { q with cap := 0, mem := fun _ => none } else q
  if capacity > 0 then { q with cap := capacity, size := 0, mem := fun _ => none, head := 0, tail := 0 } else q

/-- `Init(capacity)`, base/dabc/Queue.h:109-113; also the constructor 98-101. -/
def Q.init (q : Q α) (capacity : Nat) : Q α := Q.allocate { q with initSize := capacity } capacity

/-- `CopyTo(tgt)`, base/dabc/Queue.h:136-147: content of the freshly allocated target array. -/
def Q.copyTo (q : Q α) : Nat → Option α :=
  if q.size > 0 then
    if q.head > q.tail then
      fun i => if i < q.head - q.tail then q.mem (q.tail + i) else none
    else
      let sz := q.cap - q.tail
      fun i => if i < sz then q.mem (q.tail + i) else if i < sz + q.head then q.mem (i - sz) else none
  else fun _ => none

/-- `Expand(newcapacity)`, base/dabc/Queue.h:150-168. -/
def Q.expand (q : Q α) (newcapacity : Nat := 0) : Q α :=
  let n := if newcapacity ≤ q.cap then q.cap * 2 else newcapacity
  let n := if n < 16 then 16 else n
  { q with mem := q.copyTo, cap := n, head := q.size, tail := 0 }

/-- `MakePlaceForNext()`, base/dabc/Queue.h:210-213: the (possibly expanded) queue, or `none` when
the method returns false. -/
def Q.makePlace (canexpand : Bool) (q : Q α) : Option (Q α) :=
  if q.size < q.cap then some q else if canexpand then some q.expand else none

/-- `Push(val)` / `PushRef(val)`, base/dabc/Queue.h:215-224, 240-249. -/
def Q.push (canexpand : Bool) (q : Q α) (v : α) : Option (Q α) :=
  match q.makePlace canexpand with
  | some q => do
      let q ← q.wr q.head v
      some { q with head := q.next q.head, size := q.size + 1 }
  | none => some q

/-- `PopOnly()`, base/dabc/Queue.h:251-257. -/
def Q.popOnly (q : Q α) : Q α :=
  if q.size > 0 then { q with size := q.size - 1, tail := q.next q.tail } else q

/-- `Pop()`, base/dabc/Queue.h:259-268.  On an empty queue `fSize--` wraps to 2^32-1: undefined here. -/
def Q.pop (q : Q α) : Option (α × Q α) := do
  if q.size = 0 then none else
  let v ← q.rd q.tail
  some (v, { q with size := q.size - 1, tail := q.next q.tail })

/-- `Front()`, base/dabc/Queue.h:270-276. -/
def Q.front (q : Q α) : Option α := q.rd q.tail

/-- `Item(indx)`, base/dabc/Queue.h:280-289. -/
def Q.item (q : Q α) (indx : Nat) : Option α := q.rd (q.at indx)

/-- `Back()`, base/dabc/Queue.h:304-310; `fSize-1` on an empty queue wraps: undefined here. -/
def Q.back (q : Q α) : Option α := if q.size = 0 then none else q.item (q.size - 1)

/-- `Reset()`, base/dabc/Queue.h:312-317. -/
def Q.reset (q : Q α) : Q α := { q with head := 0, tail := 0, size := 0 }

/-- Loop of `RemoveItem`, base/dabc/Queue.h:197-203.  Returns the final `tgt`; running out of fuel
(no end within `fCapacity` rounds) is a loop that never ends. -/
def Q.removeItemLoop (q : Q α) (tgt : Nat) : Nat → Option (Q α × Nat)
  | 0 => none
  | fuel + 1 =>
    let src := q.next tgt
    if src = q.head then some (q, tgt) else do
      let v ← q.rd src
      let q ← q.wr tgt v
      q.removeItemLoop src fuel

/-- `RemoveItem(indx)`, base/dabc/Queue.h:190-208. -/
def Q.removeItem (q : Q α) (indx : Nat) : Option (Bool × Q α) :=
  if indx ≥ q.size then some (false, q) else do
    let (q, tgt) ← q.removeItemLoop (q.at indx) q.cap
    some (true, { q with head := tgt, size := q.size - 1 })

/-- Loop of `Remove`, base/dabc/Queue.h:176-183.  Returns final queue, `i_tgt` and `i_src`. -/
def Q.removeLoop [DecidableEq α] (value : α) (q : Q α) (tgt src : Nat) : Nat → Option (Q α × Nat × Nat)
  | 0 => none
  | fuel + 1 => do
    let x ← q.rd src
    let (q, tgt) ← if x ≠ value then
        (do let q ← if tgt ≠ src then q.wr tgt x else some q
            some (q, q.next tgt))
      else some ({ q with size := q.size - 1 }, tgt)
    let src := q.next src
    if src = q.head then some (q, tgt, src) else q.removeLoop value tgt src fuel

/-- `Remove(value)`, base/dabc/Queue.h:170-188. -/
def Q.remove [DecidableEq α] (q : Q α) (value : α) : Option (Bool × Q α) :=
  if q.size = 0 then some (false, q) else do
    let (q, tgt, src) ← q.removeLoop value q.tail q.tail q.cap
    some (decide (tgt ≠ src), { q with head := tgt })

/-- Iterator position: `item` and `loop`, base/dabc/Queue.h:49-50. -/
abbrev Iter := Nat × Nat

/-- `operator++`, base/dabc/Queue.h:67-71. -/
def Q.iterNext (q : Q α) (it : Iter) : Iter := if it.1 + 1 = q.cap then (0, it.2 + 1) else (it.1 + 1, it.2)

/-- `begin()`, base/dabc/Queue.h:327. -/
def Q.iterBegin (q : Q α) : Iter := (q.tail, 0)

/-- `end()`, base/dabc/Queue.h:328. -/
def Q.iterEnd (q : Q α) : Iter := (q.head, if q.head > q.tail then 0 else 1)

/-- The loop `for (it = begin(); it != end(); ++it) visit(*it())`, started at `it`. `none`: a read
outside of the array or of a never written cell, or no end within `fuel` rounds. -/
def Q.iterFrom (q : Q α) (it : Iter) : Nat → Option (List α)
  | 0 => none
  | fuel + 1 =>
    if it = q.iterEnd then some [] else do
      let v ← q.rd it.1
      let l ← q.iterFrom (q.iterNext it) fuel
      some (v :: l)

/-- Visit a whole queue with its iterator. -/
def Q.iterate (q : Q α) (fuel : Nat) : Option (List α) := q.iterFrom q.iterBegin fuel

/-- Calls a user can make. -/
inductive Op (α : Type) where
  | push (v : α) | pop | popOnly | front | back | item (i : Nat) | size | empty | full
  | removeItem (i : Nat) | remove (v : α) | reset | expand (n : Nat) | allocate (n : Nat)

/-- What a call returns to the user. -/
inductive Out (α : Type) where
  | unit | val (v : α) | nat (n : Nat) | bool (b : Bool)
  deriving DecidableEq

/-- One call on the queue.  For `Remove` the returned flag is not part of the output here
(it is the subject of property C03). -/
def step [DecidableEq α] (canexpand : Bool) (q : Q α) : Op α → Option (Out α × Q α)
  | .push v => do let q ← q.push canexpand v; some (.unit, q)
  | .pop => do let (v, q) ← q.pop; some (.val v, q)
  | .popOnly => some (.unit, q.popOnly)
  | .front => do let v ← q.front; some (.val v, q)
  | .back => do let v ← q.back; some (.val v, q)
  | .item i => do let v ← q.item i; some (.val v, q)
  | .size => some (.nat q.size, q)
  | .empty => some (.bool (q.size == 0), q)
  | .full => some (.bool (q.cap == q.size), q)
  | .removeItem i => do let (b, q) ← q.removeItem i; some (.bool b, q)
  | .remove v => do let (_, q) ← q.remove v; some (.unit, q)
  | .reset => some (.unit, q.reset)
  | .expand n => some (.unit, q.expand n)
  | .allocate n => some (.unit, q.allocate n)

/-- A whole sequence of calls; the outputs in order, and the final queue. -/
def run [DecidableEq α] (canexpand : Bool) : Q α → List (Op α) → Option (List (Out α) × Q α)
  | q, [] => some ([], q)
  | q, op :: ops => do
    let (o, q) ← step canexpand q op
    let (os, q) ← run canexpand q ops
    some (o :: os, q)

end Verif.Queue
