import Verif.SlowSend
/-!
# Reference for producers of slow control events
-/

namespace Verif.SlowSend.Spec
open Verif.Bytes Verif.SlowData Verif.SlowSend

/-- Rounds in which the flag was read and differs from the flag read before; `f` is the flag before the first round. -/
def changed (f : Int) : List Poll → List Poll
  | [] => []
  | p :: ps =>
    match p.flag with
    | none => changed f ps
    | some g => if g = f then changed f ps else p :: changed g ps

/-- The entries marked in the other list. -/
def marked {α : Type} (xs : List α) (bs : List Bool) : List α := ((xs.zip bs).filter (·.2)).map (·.1)

/-- Records with consecutive 32-bit numbers, also stored in the record. -/
def numbered : Nat → List R → List (Nat × R)
  | _, [] => []
  | k, r :: rs => (k % 2 ^ 32, { r with id := k % 2 ^ 32 }) :: numbered (k + 1) rs

/-- The records of calls with the outcome `written`. -/
def writtenOnes : List (R × Env) → List Out → List R
  | x :: xs, .written :: os => x.1 :: writtenOnes xs os
  | _ :: xs, _ :: os => writtenOnes xs os
  | _, _ => []

/-- Time of the last buffer sent, 0 before. -/
def lastTime (sent : List (Nat × Buf)) : Nat := (sent.getLast?.map (·.1)).getD 0

/-- All events made, first those sent. -/
def events (m : M) : List (Nat × R) := m.sent.flatMap (fun p => p.2.evs) ++ (m.buf.map (·.evs)).getD []

/-- The last value reported for an integer with the name. -/
def lastLong (name : List Byte) : List FOp → Option (BitVec 64)
  | [] => none
  | .long n v :: ops => (lastLong name ops).or (if n = name then some v else none)
  | _ :: ops => lastLong name ops

def lastDouble (name : List Byte) : List FOp → Option (BitVec 64)
  | [] => none
  | .double n v :: ops => (lastDouble name ops).or (if n = name then some v else none)
  | _ :: ops => lastDouble name ops

/-- No timer in between. -/
def Reports (ops : List FOp) : Prop := ∀ e, FOp.timer e ∉ ops

end Verif.SlowSend.Spec
