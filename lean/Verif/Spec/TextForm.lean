import Verif.TextForm

/-!
# Text of arrays
-/

namespace Verif.TextForm.Spec
open Verif.Bytes

def Spaces (t : List Byte) : Prop := ∀ b ∈ t, b = 32

/-- Text of one element and its value: in quotes, or a word. -/
inductive Elem : List Byte → List Byte → Prop
  | quoted (q : Byte) (v : List Byte) (hq : q = 34 ∨ q = 39) (hv : q ∉ v) : Elem (q :: (v ++ [q])) v
  | bare (v : List Byte) (h0 : v ≠ []) (hc : ∀ b ∈ v, b ≠ 44 ∧ b ≠ 93) (h1 : ∀ b, v.head? = some b → b ≠ 32 ∧ b ≠ 34 ∧ b ≠ 39)
      (h2 : v.getLast? ≠ some 32) : Elem v v

/-- Elements separated by commas, with spaces around them. -/
inductive Body : List Byte → List (List Byte) → Prop
  | one (a t v b : List Byte) (ha : Spaces a) (hb : Spaces b) (h : Elem t v) : Body (a ++ t ++ b) [v]
  | more (a t v b rest : List Byte) (l : List (List Byte)) (ha : Spaces a) (hb : Spaces b) (h : Elem t v) (hr : Body rest l) :
      Body (a ++ t ++ b ++ 44 :: rest) (v :: l)

/-- Text which is printed as it is: no quotes, backslashes, slashes, control or other characters. -/
def Plain (s : List Byte) : Prop := ∀ b ∈ s, 32 ≤ b.toNat ∧ b.toNat ≤ 126 ∧ b ≠ 34 ∧ b ≠ 92 ∧ b ≠ 47

end Verif.TextForm.Spec
