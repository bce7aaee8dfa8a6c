import Verif.Param

/-!
# What a rate or an average has to show

The values set and the time passed are cut into windows; one report belongs to one window.
-/

namespace Verif.Param.Spec

/-- A part of the history: the values set and the time. -/
structure Window where
  vals : List Rat
  dur : Rat

/-- The window is long enough to be reported: not shorter than the interval and than a microsecond. -/
def Window.full (w : Window) (interval : Rat) : Prop := interval ≤ w.dur ∧ 1 / 1000000 ≤ w.dur

instance (w : Window) (i : Rat) : Decidable (w.full i) := inferInstanceAs (Decidable (_ ∧ _))

/-- What is to be reported. -/
def Window.report (w : Window) : Kind → Rat
  | .rate => w.vals.sum / w.dur
  | .average => if w.vals = [] then 0 else w.vals.sum / w.vals.length
  | .none => 0

/-- The windows of an asynchronous statistic: they end with a timeout.  The second part is the window not yet
finished. -/
def asyncWindows (interval : Rat) (w : Window) : List Op → List Window × Window
  | [] => ([], w)
  | .set _ (some x) :: ops => asyncWindows interval ⟨w.vals ++ [x], w.dur⟩ ops
  | .timeout _ d :: ops =>
    if Window.full ⟨w.vals, w.dur + d⟩ interval then
      (⟨w.vals, w.dur + d⟩ :: (asyncWindows interval ⟨[], 0⟩ ops).1, (asyncWindows interval ⟨[], 0⟩ ops).2)
    else asyncWindows interval ⟨w.vals, w.dur + d⟩ ops
  | _ :: ops => asyncWindows interval w ops

/-- The windows of a synchronous statistic: they end with a value, `start` is the end of the window before or the time
of the first value. -/
def syncWindows (interval : Rat) (start : Option Rat) (vals : List Rat) : List Op → List Window × List Rat
  | [] => ([], vals)
  | .set now (some x) :: ops =>
    if Window.full ⟨vals ++ [x], now - start.getD now⟩ interval then
      (⟨vals ++ [x], now - start.getD now⟩ :: (syncWindows interval (some now) [] ops).1,
        (syncWindows interval (some now) [] ops).2)
    else syncWindows interval (some (start.getD now)) (vals ++ [x]) ops
  | _ :: ops => syncWindows interval start vals ops

/-- The values set. -/
def values : List Op → List Rat
  | [] => []
  | .set _ (some x) :: ops => x :: values ops
  | _ :: ops => values ops

/-- The time passed, by the timeouts. -/
def time : List Op → Rat
  | [] => 0
  | .timeout _ d :: ops => d + time ops
  | _ :: ops => time ops

/-- Calls which do not configure the parameter anew. -/
def Uses : Op → Prop
  | .statistic .. => False
  | .disable => False
  | .synchron .. => False
  | _ => True

/-- Calls which do not configure the parameter anew and set no empty value. -/
def Feeds : Op → Prop
  | .set _ none => False
  | op => Uses op

/-- The values of the modified events. -/
def reported : List Out → List (Option Rat)
  | [] => []
  | .modified _ v :: os => v :: reported os
  | _ :: os => reported os

/-- The times of the modified events. -/
def times : List Out → List Rat
  | [] => []
  | .modified t _ :: os => t :: times os
  | _ :: os => times os

/-- How often the worker is informed. -/
def tellings : List Out → List (Option Rat)
  | [] => []
  | .told v :: os => v :: tellings os
  | _ :: os => tellings os

/-- The last value set, the empty value included. -/
def lastSet : Option Rat → List Op → Option Rat
  | v, [] => v
  | _, .set _ x :: ops => lastSet x ops
  | v, _ :: ops => lastSet v ops

end Verif.Param.Spec
