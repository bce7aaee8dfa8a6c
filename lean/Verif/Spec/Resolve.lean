import Verif.Resolve

/-!
# What the variables in a text mean
-/

namespace Verif.Resolve.Spec

/-- A text with variables. -/
inductive Piece where
  | lit (s : Text)
  /-- `${v}`: value of the variable -/
  | var (v : Text)
  /-- `#${v}`: number of entries of its value -/
  | count (v : Text)
  /-- `${v}#`: one entry of its value -/
  | elem (v : Text)
  /-- `${}`: nothing -/
  | empty
  deriving DecidableEq, Repr

/-- Text of a piece, as the user writes it. -/
def Piece.text : Piece → Text
  | .lit s => s
  | .var v => ['$', '{'] ++ v ++ ['}']
  | .count v => ['#', '$', '{'] ++ v ++ ['}']
  | .elem v => ['$', '{'] ++ v ++ ['}', '#']
  | .empty => ['$', '{', '}']

def text (ps : List Piece) : Text := ps.flatMap Piece.text

/-- Array with entries `xs`. -/
def array (xs : List Text) : Text := ['['] ++ (xs.intersperse [',']).flatten ++ [']']

/-- What number of entries means: nothing - 0, an array - number of its entries, other text - 1. -/
def IsCount (value c : Text) : Prop :=
  (value = [] ∧ c = ['0']) ∨
  (∃ xs, xs ≠ [] ∧ (∀ x ∈ xs, ',' ∉ x) ∧ value = array xs ∧ c = Nat.toDigits 10 xs.length) ∨
  (value ≠ [] ∧ (∀ s, value ≠ ['['] ++ s ++ [']']) ∧ c = ['1'])

/-- What an entry means: entry of an array, or the text itself as entry 0; other entries are empty. -/
def IsElem (id : Nat) (value x : Text) : Prop :=
  (∃ xs, xs ≠ [] ∧ (∀ y ∈ xs, ',' ∉ y) ∧ value = array xs ∧ x = xs.getD id []) ∨
  ((∀ s, value ≠ ['['] ++ s ++ [']']) ∧ x = if id = 0 then value else [])

/-- What a text means if the variables have the values `val`. -/
inductive Means (val : Text → Text) (id : Int) : List Piece → Text → Prop
  | nil : Means val id [] []
  | lit (s ps t) : Means val id ps t → Means val id (.lit s :: ps) (s ++ t)
  | var (v ps t) : Means val id ps t → Means val id (.var v :: ps) (val v ++ t)
  | count (v c ps t) : IsCount (val v) c → Means val id ps t → Means val id (.count v :: ps) (c ++ t)
  | elem (v x ps t) : IsElem id.toNat (val v) x → Means val id ps t → Means val id (.elem v :: ps) (x ++ t)
  | empty (ps t) : Means val id ps t → Means val id (.empty :: ps) t

/-- There is no `${` in a text. -/
def Free (s : Text) : Prop := ∀ a b, s ≠ a ++ ['$', '{'] ++ b

/-- The variables are written so that the text can be read in one way only: names are not empty and have no
brace, no `#` stands by chance before or (if entries are wanted) behind a variable; `#` behind a variable asks
for an entry only if an entry is wanted and the variable has a value.  `pre` is what the pieces before mean. -/
def Clear (val : Text → Text) (id : Int) : Text → List Piece → Prop
  | _, [] => True
  | pre, .lit s :: ps => Clear val id (pre ++ s) ps
  | pre, .var v :: ps => v ≠ [] ∧ '}' ∉ v ∧ pre.getLast? ≠ some '#' ∧
      (0 ≤ id → val v ≠ [] → (text ps).head? ≠ some '#') ∧ Clear val id (pre ++ val v) ps
  | pre, .count v :: ps => v ≠ [] ∧ '}' ∉ v ∧ ∀ c, IsCount (val v) c → Clear val id (pre ++ c) ps
  | pre, .elem v :: ps => v ≠ [] ∧ '}' ∉ v ∧ pre.getLast? ≠ some '#' ∧ 0 ≤ id ∧ val v ≠ [] ∧
      ∀ x, IsElem id.toNat (val v) x → Clear val id (pre ++ x) ps
  | pre, .empty :: ps => Clear val id pre ps

def Piece.name? : Piece → Option Text
  | .lit _ => none
  | .var v => some v
  | .count v => some v
  | .elem v => some v
  | .empty => none

/-- First value of a variable in a list. -/
def First (l : List (Text × Text)) (v t : Text) : Prop :=
  ∃ a b, l = a ++ (v, t) :: b ∧ ∀ p ∈ a, p.1 ≠ v

def Absent (l : List (Text × Text)) (v : Text) : Prop := ∀ p ∈ l, p.1 ≠ v

/-- The text which defines a variable: the command line goes before the `Variables` of the file. -/
def Defines (e : Env) (v t : Text) : Prop := First e.cmd v t ∨ Absent e.cmd v ∧ First e.vars v t

/-- Values which are not given by such a text. -/
def Outer (e : Env) (v x : Text) : Prop :=
  (First e.own v x ∧ x ≠ []) ∨ ((Absent e.own v ∨ First e.own v []) ∧ x = e.sys v)

/-- `val` are the values of the variables: what the defining text means, and the value from outside if there is
no such text or it means nothing.  `rank` bounds how deep definitions go: a definition uses only variables of
smaller rank. -/
structure Values (e : Env) (val : Text → Text) (rank : Text → Nat) : Prop where
  given : ∀ v t, Defines e v t → ∃ ps r, t = text ps ∧ Means val (-1) ps r ∧ Free r ∧ Clear val (-1) [] ps ∧
    (∀ p ∈ ps, ∀ w, p.name? = some w → rank w < rank v) ∧ (r ≠ [] → val v = r) ∧ (r = [] → Outer e v (val v))
  other : ∀ v, (∀ t, ¬ Defines e v t) → Outer e v (val v)

end Verif.Resolve.Spec
