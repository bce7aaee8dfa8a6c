import Verif.StreamMerge
/-!
# Histograms seen as tables of values
-/

namespace Verif.StreamMerge

variable {α : Type}

/-- Value `k` in the array of item `i`. -/
def value (h : List (Item α)) (i k : Nat) : Option α := match h[i]? with
  | none => none
  | some x => match x.bins with
    | none => none
    | some b => b[k]?

/-- Both items have the same description: name, kind, size of the array. -/
def Item.alike (x y : Item α) : Prop :=
  x.name = y.name ∧ x.hist = y.hist ∧ x.kind = y.kind ∧ x.bins.map List.length = y.bins.map List.length

/-- Both modules booked the same histograms. -/
def SameLayout (a b : List (Item α)) : Prop :=
  a.length = b.length ∧ ∀ (i : Nat) (x y : Item α), a[i]? = some x → b[i]? = some y → x.alike y

/-- Number of values describing the axes of item `i`. -/
def axes (h : List (Item α)) (i : Nat) : Nat := match h[i]? with
  | none => 0
  | some x => if x.kind = "ROOT.TH1D" then 3 else 6

/-- Item `i` is a histogram. -/
def isHist (h : List (Item α)) (i : Nat) : Bool := match h[i]? with
  | none => false
  | some x => x.hist

def plus [Add α] : Option α → Option α → Option α
  | some a, some b => some (a + b)
  | _, _ => none

/-- Sum of the values in all modules, from the first one to the last one. -/
def total [Add α] (h : List (Item α)) (hs : List (List (Item α))) (i k : Nat) : Option α :=
  hs.foldl (fun s g => plus s (value g i k)) (value h i k)

end Verif.StreamMerge
