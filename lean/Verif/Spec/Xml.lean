import Verif.Xml

/-!
# Which texts stand for which documents

A part of the XML grammar: elements, attributes in double quotes without
blanks around `=`, processing instructions of the form of elements, comments,
the five predefined entities; character data only before other childs, and
only its part from the first visible character on counts.
-/

namespace Verif.Xml.Spec

open Verif.Xml

def White (w : Str) : Prop := ∀ c ∈ w, c = 32 ∨ c = 9 ∨ c = 10 ∨ c = 13

def Letter (c : Nat) : Prop := (97 ≤ c ∧ c ≤ 122) ∨ (65 ≤ c ∧ c ≤ 90) ∨ c = 95

def NameChar (c : Nat) : Prop := Letter c ∨ (48 ≤ c ∧ c ≤ 57) ∨ c = 58 ∨ c = 45 ∨ c = 46

def Name : Str → Prop
  | [] => False
  | c :: r => Letter c ∧ ∀ x ∈ r, NameChar x

/-- Not the declaration of a name space (`xmlns:…`). -/
def NoNs (n : Str) : Prop := ∀ r, r ≠ [] → n ≠ [120, 109, 108, 110, 115, 58] ++ r

/-- The text codes the value: entities stand for the special characters, and `<`, `&` (in attributes also `"`)
only come up that way. -/
inductive Coded (quote : Bool) : Str → Str → Prop
  | nil : Coded quote [] []
  | plain {v t} (c : Nat) : c ≠ 60 → c ≠ 38 → c ≠ 0 → (quote = true → c ≠ 34) → Coded quote v t →
      Coded quote (c :: v) (c :: t)
  | lt {v t} : Coded quote v t → Coded quote (60 :: v) ([38, 108, 116, 59] ++ t)
  | gt {v t} : Coded quote v t → Coded quote (62 :: v) ([38, 103, 116, 59] ++ t)
  | amp {v t} : Coded quote v t → Coded quote (38 :: v) ([38, 97, 109, 112, 59] ++ t)
  | quot {v t} : Coded quote v t → Coded quote (34 :: v) ([38, 113, 117, 111, 116, 59] ++ t)
  | apos {v t} : Coded quote v t → Coded quote (39 :: v) ([38, 97, 112, 111, 115, 59] ++ t)

inductive Attrs : List (Str × Str) → Str → Prop
  | nil : Attrs [] []
  | cons {w n v t as b} : White w → w ≠ [] → Name n → NoNs n → Coded true v t → Attrs as b →
      Attrs ((n, v) :: as) (w ++ n ++ [61, 34] ++ t ++ [34] ++ b)

/-- A comment. -/
def Remark (t : Str) : Prop := t ≠ [] ∧ ¬ [45, 45, 62] <:+: t ∧ 0 ∉ t

/-- The text of character data begins with a visible ASCII character. -/
def Visible (t : Str) : Prop := ∃ c r, t = c :: r ∧ 32 < c ∧ c < 128

/-- The texts of a list of nodes. -/
inductive Nodes : Forest → Str → Prop
  | nil : Nodes .nil []
  | comment {t w f b} : Remark t → White w → Nodes f b →
      Nodes (.comment t f) ([60, 33, 45, 45] ++ t ++ [45, 45, 62] ++ w ++ b)
  | short {n as a w w' f b} : Name n → Attrs as a → White w → White w' → Nodes f b →
      Nodes (.elem false n as .nil f) ([60] ++ n ++ a ++ w ++ [47, 62] ++ w' ++ b)
  | pi {n as a w w' f b} : Name n → Attrs as a → White w → White w' → Nodes f b →
      Nodes (.elem true n as .nil f) ([60, 63] ++ n ++ a ++ w ++ [63, 62] ++ w' ++ b)
  | long {n as a w wi k bi wc w' f b} : Name n → Attrs as a → White w → White wi → Nodes k bi → White wc → White w' →
      Nodes f b →
      Nodes (.elem false n as k f)
        ([60] ++ n ++ a ++ w ++ [62] ++ (wi ++ bi) ++ ([60, 47] ++ n ++ wc ++ [62]) ++ w' ++ b)
  | data {n as a w wi v t k bi wc w' f b} : Name n → Attrs as a → White w → White wi → Coded false v t → Visible t →
      Nodes k bi → White wc → White w' → Nodes f b →
      Nodes (.elem false n as (.text v k) f)
        ([60] ++ n ++ a ++ w ++ [62] ++ (wi ++ t ++ bi) ++ ([60, 47] ++ n ++ wc ++ [62]) ++ w' ++ b)

/-- The text of a document. -/
def Doc (f : Forest) (s : Str) : Prop := f ≠ .nil ∧ ∃ w b, White w ∧ Nodes f b ∧ s = w ++ b

/-! ## Documents which may be saved -/

def GoodAttr (a : Str × Str) : Prop := Name a.1 ∧ NoNs a.1 ∧ 0 ∉ a.2

/-- Content which needs no coding. -/
def Plain (t : Str) : Prop := Visible t ∧ 60 ∉ t ∧ 38 ∉ t ∧ 0 ∉ t

/-- `first`: the list is the list of childs of an element. With a layout, content must be the only child. -/
def Savable (layout : Bool) : Bool → Forest → Prop
  | _, .nil => True
  | first, .text t n => first = true ∧ Plain t ∧ (layout = true → n = .nil) ∧ Savable layout false n
  | _, .comment t n => Remark t ∧ Savable layout false n
  | _, .elem pi name as k n =>
    Name name ∧ (∀ a ∈ as, GoodAttr a) ∧ (pi = true → k = .nil) ∧ Savable layout true k ∧ Savable layout false n

/-! ## What every parsed document looks like -/

def Shape : Bool → Forest → Prop
  | _, .nil => True
  | first, .text t n => first = true ∧ t ≠ [] ∧ Shape false n
  | _, .comment t n => ¬ [45, 45, 62] <:+: t ∧ Shape false n
  | _, .elem pi name as k n =>
    Name name ∧ (∀ a ∈ as, Name a.1 ∧ NoNs a.1) ∧ (pi = true → k = .nil) ∧ Shape true k ∧ Shape false n

/-- Content needs no coding, comments are not empty, and there are no zeros. -/
def Clean : Forest → Prop
  | .nil => True
  | .text t n => Plain t ∧ Clean n
  | .comment t n => t ≠ [] ∧ 0 ∉ t ∧ Clean n
  | .elem _ _ as k n => (∀ a ∈ as, 0 ∉ a.2) ∧ Clean k ∧ Clean n

/-- `e` begins with the first element of the document. -/
inductive FirstElem : Forest → Forest → Prop
  | here {n as k f} : FirstElem (.elem false n as k f) (.elem false n as k f)
  | text {t f e} : FirstElem f e → FirstElem (.text t f) e
  | comment {t f e} : FirstElem f e → FirstElem (.comment t f) e
  | pi {n as k f e} : FirstElem f e → FirstElem (.elem true n as k f) e

end Verif.Xml.Spec
