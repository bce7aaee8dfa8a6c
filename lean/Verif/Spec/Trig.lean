import Verif.Trig

/-! # Specification of the order of trigger numbers -/

namespace Verif.Trig

/-- Going `d` steps from `a` on a circle of `R` numbers leads to `b`. -/
def Leads (R a b : Nat) (d : Int) : Prop := ((a : Int) + d) % (R : Int) = b

/-- Steps forward from `t0` to `t`. -/
def steps (R t0 t : Nat) : Nat := (t + R - t0) % R

/-- All numbers are less than half of the circle ahead of `t0`. -/
def Window (R t0 : Nat) (l : List Word) : Prop := t0 < R ∧ ∀ t ∈ l, t.toNat < R ∧ 2 * steps R t0 t.toNat < R

end Verif.Trig
