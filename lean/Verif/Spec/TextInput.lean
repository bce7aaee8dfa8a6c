import Verif.TextInput

/-! Specification for C100: text files as lines, the events for them. -/

namespace Verif.TextInput.Spec
open Verif.TextInput

/-- The lines of a text. -/
def lines : List Char → List (List Char)
  | [] => [[]]
  | c :: cs => if c = '\n' then [] :: lines cs else match lines cs with
    | [] => [[c]]
    | l :: ls => (c :: l) :: ls

/-- Only blanks and tabs. -/
def Blank (l : List Char) : Prop := ∀ c ∈ l, c = ' ' ∨ c = '\t'

instance (l : List Char) : Decidable (Blank l) := by unfold Blank; infer_instance

/-- Lines with data of a file with `h` header lines. -/
def dataLines (h : Nat) (f : List Char) : List (List Char) := ((lines f).drop h).filter fun l => decide (¬ Blank l)

/-- Events for data, numbers from `k` on. -/
def number (k : Nat) : List (List Nat) → List Ev
  | [] => []
  | d :: ds => ⟨k, some d⟩ :: number ((k + 1) % W) ds

/-- Files which can be used: longer than the header, lines shorter than the buffer, and every line with data has its numbers. -/
structure Good (c : Cfg) (t : List Char) : Prop where
  header : c.header < (lines t).length
  short : ∀ l ∈ lines t, l.length < c.buflen
  data : ∀ l ∈ dataLines c.header t, ∃ ws, fill c.signed c.num l = some ws

/-- The numbers of all data lines. -/
def datas (c : Cfg) (ts : List (List Char)) : List (List Nat) := (ts.flatMap (dataLines c.header)).map fun l => (fill c.signed c.num l).getD []

/-- Events with data among the delivered ones. -/
def withData (es : List Ev) : List Ev := es.filter fun e => e.sub.isSome

/-- The events one expects. -/
def expected (c : Cfg) (ts : List (List Char)) : List Ev := number 0 (datas c ts)

/-- The last line with data is complete and nothing follows it: the text ends with its line end. -/
def EndsBare (h : Nat) (t : List Char) : Prop := ∃ ls l, (lines t).drop h = ls ++ [l, []] ∧ ¬ Blank l

/-- Nothing at all behind the header. -/
def OnlyHeader (h : Nat) (t : List Char) : Prop := (lines t).drop h = [[]]

/-- The last line is a line with data. -/
def EndsWithData (h : Nat) (t : List Char) : Prop := ∃ ls l, (lines t).drop h = ls ++ [l] ∧ ¬ Blank l

/-- White space between numbers. -/
def White (c : Char) : Prop := c = ' ' ∨ c = '\t' ∨ c = '\n' ∨ c = '\r' ∨ c = '\x0b' ∨ c = '\x0c'

/-- Decimal digits of a number. -/
def dec (n : Nat) : List Char := if h : n < 10 then [Char.ofNat (48 + n)] else dec (n / 10) ++ [Char.ofNat (48 + n % 10)]
termination_by n
decreasing_by omega

/-- Text of an integer. -/
def text (v : Int) : List Char := if v < 0 then '-' :: dec v.natAbs else dec v.natAbs

/-- A line: every number with the white space in front of it. -/
def line (vs : List (List Char × Int)) : List Char := vs.flatMap fun p => p.1 ++ text p.2

end Verif.TextInput.Spec
