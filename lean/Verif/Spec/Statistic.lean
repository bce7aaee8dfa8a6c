import Verif.Statistic

/-! Specification for C99: statistic of a list of values. -/

namespace Verif.Statistic.Spec
open Verif.Statistic

/-- All values are filled, the first one first. -/
def fills (a : Avg) (zs : List ℚ) : Avg := zs.foldl Avg.fill a

/-- Arithmetic mean. -/
def meanOf (zs : List ℚ) : ℚ := zs.sum / zs.length

/-- Mean square of the distance to the mean. -/
def varOf (zs : List ℚ) : ℚ := (zs.map fun z => (z - meanOf zs) * (z - meanOf zs)).sum / zs.length

/-- The value is strictly inside of the bin `i` of `n` bins between `lo` and `hi`; bins count from 1. -/
def inside (lo hi : ℚ) (n i : Nat) (z : ℚ) : Prop :=
  1 ≤ i ∧ i ≤ n ∧ lo + (i - 1) * ((hi - lo) / n) < z ∧ z < lo + i * ((hi - lo) / n)

/-- Packets with size and time. -/
def packets (r : Rate) (ps : List (Int × ℚ)) : Rate := ps.foldl (fun r p => r.packet p.1 p.2) r

/-- Packets which are not older than the start. -/
def after (t : ℚ) (ps : List (Int × ℚ)) : List (Int × ℚ) := ps.filter fun p => decide (t ≤ p.2)

end Verif.Statistic.Spec
