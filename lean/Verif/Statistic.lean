import Mathlib.Data.Rat.Floor

/-!
# Model of the statistic classes

`Average`, base/src/statistic.cxx:301-372, `Ratemeter`, 177-259, and the arithmetic of `CpuStatistic::Measure`,
65-142 (`/proc/stat` with one line per CPU, read before).  Floating point numbers are rational numbers here.  Left out:
files, output, `SaveRatesInFile`, the square root in `Dev`, numbers of processes and memory.
-/

namespace Verif.Statistic

/-- `lrint`: nearest integer, from the middle to the even one. -/
def lrint (q : ℚ) : ℤ :=
  if q - ⌊q⌋ < 1 / 2 then ⌊q⌋ else if 1 / 2 < q - ⌊q⌋ then ⌊q⌋ + 1 else if ⌊q⌋ % 2 = 0 then ⌊q⌋ else ⌊q⌋ + 1

/-! ## Average -/

/-- Fields of `Average`; `hist` is empty without histogram, else it has `nhist + 2` elements. -/
structure Avg where
  num : Nat
  sum1 : ℚ
  sum2 : ℚ
  min : ℚ
  max : ℚ
  hist : List Nat
  lo : ℚ
  hi : ℚ
  deriving DecidableEq

/-- Constructor, base/src/statistic.cxx:301-308. -/
def Avg.new : Avg := ⟨0, 0, 0, 0, 0, [], 0, 1⟩

/-- `AllocateHist`, base/src/statistic.cxx:316-327. -/
def Avg.allocate (a : Avg) (nbins : Int) (lo hi : ℚ) : Avg :=
  if nbins > 0 ∧ hi > lo then { a with hist := List.replicate (nbins.toNat + 2) 0, lo := lo, hi := hi }
  else { a with hist := [] }

/-- `Reset`, base/src/statistic.cxx:330-340. -/
def Avg.reset (a : Avg) : Avg := { a with num := 0, sum1 := 0, sum2 := 0, min := 0, max := 0, hist := a.hist.map fun _ => 0 }

/-- Number of bins. -/
def Avg.nhist (a : Avg) : Nat := a.hist.length - 2

/-- The element of the histogram for a value, base/src/statistic.cxx:357-364; `none`: "Bin error". -/
def Avg.bin (a : Avg) (z : ℚ) : Option Nat :=
  if z < a.lo then some 0
  else if z ≥ a.hi then some (a.nhist + 1)
  else
    let b := lrint ((z - a.lo) / (a.hi - a.lo) * a.nhist + 1 / 2)
    if b > 0 ∧ b ≤ a.nhist then some b.toNat else none

/-- `Fill`, base/src/statistic.cxx:343-366. -/
def Avg.fill (a : Avg) (z : ℚ) : Avg :=
  { a with
    min := if a.num = 0 then z else if z > a.max then a.min else if z < a.min then z else a.min
    max := if a.num = 0 then z else if z > a.max then z else a.max
    num := a.num + 1
    sum1 := a.sum1 + z
    sum2 := a.sum2 + z * z
    hist := if a.hist = [] then [] else match a.bin z with | some b => a.hist.modify b (· + 1) | none => a.hist }

/-- `Mean`, base/dabc/statistic.h:127. -/
def Avg.mean (a : Avg) : ℚ := if a.num > 0 then a.sum1 / a.num else 0

/-- What is under the square root of `Dev`, base/src/statistic.cxx:368-372. -/
def Avg.dev2 (a : Avg) : ℚ := if a.num ≤ 1 then 0 else a.sum2 / a.num - a.mean * a.mean

/-! ## Ratemeter -/

/-- Fields of `Ratemeter`; `points` is empty without measurement. -/
structure Rate where
  first : ℚ
  last : ℚ
  num : Nat
  total : Int
  interval : ℚ
  points : List ℚ
  deriving DecidableEq

/-- Constructor and `Reset`. -/
def Rate.new : Rate := ⟨0, 0, 0, 0, 0, []⟩

/-- `DoMeasure`, base/src/statistic.cxx:249-259. -/
def Rate.measure (interval : ℚ) (npoints : Nat) (first : ℚ) : Rate := { Rate.new with first := first, interval := interval, points := List.replicate npoints 0 }

/-- `Packet` with a given time, base/src/statistic.cxx:190-212. -/
def Rate.packet (r : Rate) (size : Int) (now : ℚ) : Rate :=
  let upd (r : Rate) : Rate :=
    if r.interval > 0 then
      let n := lrint ((now - r.first) / r.interval)
      if n ≥ 0 ∧ n < r.points.length then { r with points := r.points.modify n.toNat (· + size / r.interval) } else r
    else r
  if r.first ≤ 0 then upd { r with first := now, last := 0, num := 0, total := 0 }
  else if now ≥ r.first then upd { r with last := now, num := r.num + 1, total := r.total + size }
  else r

/-- `GetTotalTime`. -/
def Rate.time (r : Rate) : ℚ := r.last - r.first

/-- `GetRate`, without the factor for MB. -/
def Rate.rate (r : Rate) : ℚ := if r.num < 2 ∨ r.time ≤ 0 then 0 else r.total / r.time

/-! ## CPU -/

/-- `SingleCpu`, base/dabc/statistic.h:36-39. -/
structure Cpu where
  user : Nat
  sys : Nat
  idle : Nat
  userUtil : ℚ
  sysUtil : ℚ
  cpuUtil : ℚ
  deriving DecidableEq

/-- `unsigned long`. -/
def W : Nat := 2 ^ 64

/-- Subtraction of `unsigned long`. -/
def sub (a b : Nat) : Nat := (a + (W - b)) % W

/-- One line with user, nice, system and idle time, base/src/statistic.cxx:91-122. -/
def Cpu.next (last : Option Cpu) (user nice sys idle : Nat) : Cpu :=
  let user := (user + nice) % W
  let d := match last with | none => (0, 0, 0) | some c => (sub user c.user, sub sys c.sys, sub idle c.idle)
  let total := (d.1 + d.2.1 + d.2.2) % W
  if total > 0 then ⟨user, sys, idle, d.1 / total, d.2.1 / total, ((d.1 + d.2.1) % W : Nat) / total⟩
  else ⟨user, sys, idle, 0, 0, 0⟩

end Verif.Statistic
