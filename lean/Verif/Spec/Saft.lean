import Verif.Saft
/-!
# Reference for timing events
-/

namespace Verif.Saft.Spec
open Verif.Bytes Verif.Saft

/-- The events which saftlib told, in order. -/
def told : List Act → List Sig
  | [] => []
  | .event g :: as => g :: told as
  | _ :: as => told as

/-- What is to be delivered for an event, besides the number of overflows: for inputs 5000 ns earlier; the text has at most 13 characters. -/
def plain (g : Sig) : TE :=
  match g.descr with
  | none => ⟨g.event, g.param, g.deadline, g.executed, g.flags.setWidth 64, 0, [87, 82, 95, 69, 118, 101, 110, 116]⟩
  | some t => ⟨g.event, g.param, g.deadline - 5000, g.executed, g.flags.setWidth 64, 0, t.take 13⟩

/-- Number of overflows told before the last event; `n` before the first action, `l` when there is no event. -/
def overflows : List Act → BitVec 64 → BitVec 64 → BitVec 64
  | [], _, l => l
  | .event _ :: as, n, _ => overflows as n n
  | .overflow m :: as, _, l => overflows as m l
  | _ :: as, n, l => overflows as n l

/-- All events delivered or waiting. -/
def all (s : S) : List TE := s.sent.flatMap (·.data) ++ s.queue

/-- Sizes of buffers which the pool gave. -/
def caps : List Act → List Nat
  | [] => []
  | .size c :: as => c :: caps as
  | _ :: as => caps as

end Verif.Saft.Spec
