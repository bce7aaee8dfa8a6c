import Verif.BuffersQueue

/-! Specification for C05: a list of buffer handles bounded by `N`. -/

namespace Verif.BuffersQueue
variable {β : Type}

/-- Ideal bounded FIFO of buffers.  `none`: the call has no defined meaning. -/
def specStep (N : Nat) (l : List (Option β)) : Op β → Option (Out β × List (Option β))
  | .push b => if l.length < N then some (.flag true none, l ++ [b]) else some (.flag false b, l)
  | .pop => match l with | [] => some (.flag false none, []) | b :: l => some (.flag true b, l)
  | .item n => l[n]?.map fun b => (.buf b, l)
  | .size => some (.nat l.length, l)
  | .cleanup => some (.unit, [])
  | .cleanupM => some (.unit, (l.dropWhile Option.isSome).drop 1)

/-- Outputs of a call sequence on the ideal queue. -/
def specRun (N : Nat) : List (Option β) → List (Op β) → Option (List (Out β) × List (Option β))
  | l, [] => some ([], l)
  | l, op :: ops => do
    let (o, l) ← specStep N l op
    let (os, l) ← specRun N l ops
    some (o :: os, l)

end Verif.BuffersQueue
