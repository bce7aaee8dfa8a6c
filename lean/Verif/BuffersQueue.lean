/-!
# Model of `dabc::BuffersQueue`  (base/dabc/BuffersQueue.h:39-106, base/src/BuffersQueue.cxx:20-41)

A `dabc::Buffer` is a reference handle; it is modelled as `Option β`, `none` being a null buffer.
`tgt << src` moves the handle: the source becomes null.  `none` as result of a model function means
undefined behaviour (index outside of the vector, modulo by zero, endless loop).
-/

namespace Verif.BuffersQueue

/-- Data members, base/dabc/BuffersQueue.h:42-46.  `vect i` is the content of `vect[i]`, `cap` is `vect.size()`. -/
structure BQ (β : Type) where
  vect : Nat → Option β
  cap : Nat
  front : Nat
  tail : Nat
  size : Nat

variable {β : Type}

/-- Constructor, base/dabc/BuffersQueue.h:49-57. -/
def BQ.create (capacity : Nat) : BQ β := { vect := fun _ => none, cap := capacity, front := 0, tail := 0, size := 0 }

/-- `PushBuffer(buf)`, base/dabc/BuffersQueue.h:61-68.  Returns the result, the caller's variable after
the call and the queue. -/
def BQ.push (q : BQ β) (buf : Option β) : Option (Bool × Option β × BQ β) :=
  if q.size = q.cap then some (false, buf, q)
  else if q.tail < q.cap then
    some (true, none, { q with vect := fun i => if i = q.tail then buf else q.vect i, size := q.size + 1, tail := (q.tail + 1) % q.cap })
  else none

/-- `PopBuffer(buf)`, base/dabc/BuffersQueue.h:70-77.  Returns the result, the caller's variable after
the call (given the one before) and the queue. -/
def BQ.pop (q : BQ β) (buf : Option β) : Option (Bool × Option β × BQ β) :=
  if q.size = 0 then some (false, buf, q)
  else if q.front < q.cap then
    some (true, q.vect q.front, { q with vect := fun i => if i = q.front then none else q.vect i, size := q.size - 1, front := (q.front + 1) % q.cap })
  else none

/-- `Item(n)`, base/dabc/BuffersQueue.h:93-96. -/
def BQ.item (q : BQ β) (n : Nat) : Option (Option β) :=
  if q.cap = 0 then none else some (q.vect ((n + q.front) % q.cap))

/-- `TotalBuffersSize()`, base/dabc/BuffersQueue.h:98-104; `sz` is `Buffer::GetTotalSize` (0 for null). -/
def BQ.totalSize (sz : β → Nat) (q : BQ β) : Nat :=
  ((List.range q.size).map fun n => ((q.vect ((n + q.front) % q.cap)).map sz).getD 0).sum

/-- `Cleanup()`, base/src/BuffersQueue.cxx:20-27. -/
def BQ.cleanup (q : BQ β) : Nat → Option (BQ β)
  | 0 => none
  | fuel + 1 => if q.size > 0 then do
      let (_, _, q) ← q.pop none
      q.cleanup fuel
    else some q

/-- `Cleanup(Mutex*)`, base/src/BuffersQueue.cxx:29-41: stops when the popped buffer is null. -/
def BQ.cleanupM (q : BQ β) : Nat → Option (BQ β)
  | 0 => none
  | fuel + 1 => do
      let (buf, q) ← if q.size > 0 then (do let (_, b, q) ← q.pop none; some (b, q)) else some (none, q)
      if buf.isSome then q.cleanupM fuel else some q

/-- Calls of a user.  `cleanup` and `cleanupM` are the two clean-up methods. -/
inductive Op (β : Type) where
  | push (b : Option β) | pop | item (n : Nat) | size | cleanup | cleanupM

/-- Results of calls: flag together with the caller's buffer variable, a buffer, a number. -/
inductive Out (β : Type) where
  | unit | flag (ok : Bool) (buf : Option β) | buf (b : Option β) | nat (n : Nat)
  deriving DecidableEq

/-- One call; `pop` is called with a null buffer variable. -/
def step (q : BQ β) : Op β → Option (Out β × BQ β)
  | .push b => do let (r, b, q) ← q.push b; some (.flag r b, q)
  | .pop => do let (r, b, q) ← q.pop none; some (.flag r b, q)
  | .item n => do let b ← q.item n; some (.buf b, q)
  | .size => some (.nat q.size, q)
  | .cleanup => do let q ← q.cleanup (q.size + 1); some (.unit, q)
  | .cleanupM => do let q ← q.cleanupM (q.size + 1); some (.unit, q)

/-- A sequence of calls. -/
def run : BQ β → List (Op β) → Option (List (Out β) × BQ β)
  | q, [] => some ([], q)
  | q, op :: ops => do
    let (o, q) ← step q op
    let (os, q) ← run q ops
    some (o :: os, q)

end Verif.BuffersQueue
