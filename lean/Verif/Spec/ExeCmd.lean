import Verif.ExeCmd
import Verif.Spec.Url
import Verif.Spec.TextForm
/-!
# What the query of a command means
-/

namespace Verif.ExeCmd
open Verif.Bytes Verif.Json Verif.Url

def Letter (b : Byte) : Prop := (97 ≤ b.toNat ∧ b.toNat ≤ 122) ∨ (65 ≤ b.toNat ∧ b.toNat ≤ 90)

/-- Text of a value and what it means: a number, a text in quotes, a list of numbers in quotes, a word. -/
inductive Means (C : Conv) : List Byte → V → Prop
  | nat {t} : Digits t → natVal t < 2 ^ 31 → Means C t (.int (natVal t))
  | neg {t} : Digits t → natVal t ≤ 2 ^ 31 → Means C (45 :: t) (.int (-(natVal t : Int)))
  | quoted {q s} : q = 39 ∨ q = 34 → 37 ∉ s → s.head? ≠ some 91 → Means C (q :: (s ++ [q])) (.str s)
  | ints {q t l} : q = 39 ∨ q = 34 → 37 ∉ t → TextForm.Spec.Body t l →
      (∀ x ∈ l, Digits x ∧ natVal x < 2 ^ 31 ∧ ∃ d, C.dbl x = some d ∧ C.toInt d = natVal x) →
      Means C (q :: (91 :: (t ++ [93]) ++ [q])) (.ints (l.map fun x => (natVal x : Int)))
  | word {b s} : Letter b → 37 ∉ s → 0 ∉ s → C.dbl (b :: s) = none → Means C (b :: s) (.str (b :: s))

/-- Parameter: name, text of the value, value. -/
structure Par where
  name : List Byte
  text : List Byte
  val : V

/-- Option for the parameter. -/
def Par.opt (p : Par) : List Byte := p.name ++ [61] ++ p.text

structure Par.Ok (C : Conv) (p : Par) : Prop where
  name : p.name ≠ []
  eq : 61 ∉ p.name
  tmout : p.name ≠ lit "tmout"
  means : Means C p.text p.val
  opt : OptText p.opt

/-- Value of a parameter: the last one which was given counts. -/
def last (ps : List Par) (name : List Byte) : Option V := (ps.reverse.find? (fun p => p.name = name)).map (·.val)

end Verif.ExeCmd
