import Verif.Profiler
/-! # Time spent in the slots of a profiler -/

namespace Verif.Profiler
open Verif.Bytes

/-- Periods of a guard with `size` slots: `Periods size slot t calls ps e` when the guard is in
`slot` since `t`; `ps`: slot and duration of each period, `e`: time up to which is counted. A slot
which does not exist ends the account. -/
inductive Periods (size : Nat) : Nat → Clk → List Call → List (Nat × Clk) → Clk → Prop
  | nil {n t} : Periods size n t [] [] t
  | out {n t l} : size ≤ n → Periods size n t l [] t
  | next {n t c l ps e} : n < size → c.lvl = 0 → Periods size (n + 1) c.now l ps e →
      Periods size n t (c :: l) ((n, c.now - t) :: ps) e
  | jump {n t c l ps e} : n < size → c.lvl ≠ 0 → Periods size c.lvl c.now l ps e →
      Periods size n t (c :: l) ((n, c.now - t) :: ps) e

/-- Time of a slot. -/
def timeIn (n : Nat) (ps : List (Nat × Clk)) : Clk :=
  ps.foldr (fun x s => if x.1 = n then x.2 + s else s) 0

/-- Time of all slots. -/
def total (ps : List (Nat × Clk)) : Clk := ps.foldr (fun x s => x.2 + s) 0

/-- Sum of what is in the entries of a profiler. -/
def allSums (p : Prof) : Clk := p.entries.foldr (fun e s => e.sum + s) 0

end Verif.Profiler
