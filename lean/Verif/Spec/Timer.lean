import Verif.Timer

/-!
# What is expected from a timer
-/

namespace Verif.Timer

/-- Times of the calls. -/
def ticks : List Ev → List Int
  | [] => []
  | .tick t _ :: l => t :: ticks l
  | _ :: l => ticks l

/-- The calls `l` of a timer with the period `p` started at `t`: call number k (from 0) is after `t + (k+1) p` and after the
call before it. -/
def NotEarly (t p : Int) (l : List Int) : Prop :=
  (∀ (k : Nat) x, l[k]? = some x → t + (k + 1) * p < x) ∧
  ∀ (k : Nat) x y, l[k]? = some x → l[k + 1]? = some y → x < y

/-- Is the timer started after this history (`b`: before it)? -/
def started : Bool → List Ev → Bool
  | b, [] => b
  | _, .start _ :: l => started true l
  | _, .stop :: l => started false l
  | b, .tick _ _ :: l => started b l

/-- Nothing but time, events and checks; the handler of the module only takes time. -/
def Quiet : Op → Prop
  | .wait _ => True
  | .event => True
  | .check h => ∀ i ∈ h, ∃ d, i = .wait d
  | _ => False

end Verif.Timer
