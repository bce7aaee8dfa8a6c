import Verif.Json

/-! # JSON (RFC 8259, ASCII text) and what the output should say -/

namespace Verif.Json
open Verif.Bytes Verif.Record

/-- JSON values; a number is its text. -/
inductive JV where
  | null | bool (b : Bool) | num (t : List Byte) | str (s : List Nat) | arr (l : List JV) | obj (l : List (List Nat × JV))

def Ws (t : List Byte) : Prop := ∀ b ∈ t, b = 32 ∨ b = 10 ∨ b = 9 ∨ b = 13

def isDigit (b : Byte) : Prop := 48 ≤ b.toNat ∧ b.toNat ≤ 57
def Digits (t : List Byte) : Prop := t ≠ [] ∧ ∀ b ∈ t, isDigit b

/-- number = [ minus ] int [ frac ] [ exp ] -/
def JNum (t : List Byte) : Prop :=
  ∃ sign int frac exp, t = sign ++ int ++ frac ++ exp ∧ (sign = [] ∨ sign = [45]) ∧ Digits int ∧ (int = [48] ∨ int.head? ≠ some 48) ∧
    (frac = [] ∨ ∃ d, frac = 46 :: d ∧ Digits d) ∧
    (exp = [] ∨ ∃ e s d, exp = e :: (s ++ d) ∧ (e = 101 ∨ e = 69) ∧ (s = [] ∨ s = [43] ∨ s = [45]) ∧ Digits d)

def hexVal (b : Byte) : Option Nat :=
  let n := b.toNat
  if 48 ≤ n ∧ n ≤ 57 then some (n - 48) else if 97 ≤ n ∧ n ≤ 102 then some (n - 87) else if 65 ≤ n ∧ n ≤ 70 then some (n - 55) else none

/-- Characters between the quotes of a string. -/
def decodeChars : List Byte → Option (List Nat)
  | [] => some []
  | 92 :: 117 :: a :: b :: c :: d :: rest =>
    match hexVal a, hexVal b, hexVal c, hexVal d, decodeChars rest with
    | some a, some b, some c, some d, some r => some ((a * 4096 + b * 256 + c * 16 + d) :: r)
    | _, _, _, _, _ => none
  | 92 :: e :: rest =>
    let ch := if e = 34 then some 34 else if e = 92 then some 92 else if e = 47 then some 47 else if e = 98 then some 8 else if e = 102 then some 12
      else if e = 110 then some 10 else if e = 114 then some 13 else if e = 116 then some 9 else none
    match ch, decodeChars rest with
    | some x, some r => some (x :: r)
    | _, _ => none
  | b :: rest =>
    if 32 ≤ b.toNat ∧ b.toNat < 128 ∧ b ≠ 34 ∧ b ≠ 92 then (decodeChars rest).map (b.toNat :: ·) else none

mutual
/-- The text is a JSON text of the value. -/
inductive IsJson : List Byte → JV → Prop
  | null : IsJson (lit "null") .null
  | true : IsJson (lit "true") (.bool true)
  | false : IsJson (lit "false") (.bool false)
  | num {t} : JNum t → IsJson t (.num t)
  | str {t s} : decodeChars t = some s → IsJson ([34] ++ t ++ [34]) (.str s)
  | arr0 {w} : Ws w → IsJson ([91] ++ w ++ [93]) (.arr [])
  | arr {t l} : IsElems t l → IsJson ([91] ++ t ++ [93]) (.arr l)
  | obj0 {w} : Ws w → IsJson ([123] ++ w ++ [125]) (.obj [])
  | obj {t l} : IsMembers t l → IsJson ([123] ++ t ++ [125]) (.obj l)
inductive IsElems : List Byte → List JV → Prop
  | one {w t w' v} : Ws w → IsJson t v → Ws w' → IsElems (w ++ t ++ w') [v]
  | cons {w t w' v r l} : Ws w → IsJson t v → Ws w' → IsElems r l → IsElems (w ++ t ++ w' ++ [44] ++ r) (v :: l)
inductive IsMembers : List Byte → List (List Nat × JV) → Prop
  | one {w k key w1 w2 t v w'} : Ws w → decodeChars k = some key → Ws w1 → Ws w2 → IsJson t v → Ws w' →
      IsMembers (w ++ [34] ++ k ++ [34] ++ w1 ++ [58] ++ w2 ++ t ++ w') [(key, v)]
  | cons {w k key w1 w2 t v w' r l} : Ws w → decodeChars k = some key → Ws w1 → Ws w2 → IsJson t v → Ws w' → IsMembers r l →
      IsMembers (w ++ [34] ++ k ++ [34] ++ w1 ++ [58] ++ w2 ++ t ++ w' ++ [44] ++ r) ((key, v) :: l)
end

/-- Value of the text of an integer. -/
def natVal (t : List Byte) : Nat := t.foldl (fun a b => a * 10 + (b.toNat - 48)) 0
def intVal : List Byte → Int
  | 45 :: t => -natVal t
  | t => natVal t

def chars (s : List Byte) : List Nat := s.map BitVec.toNat

/-- JSON value expected for a field. -/
def Means (F : Fmt) : Val → JV → Prop
  | .none, j => j = .null
  | .bool v, j => j = .bool (v != 0)
  | .int v, j => ∃ t, j = .num t ∧ intVal t = v.toInt
  | .uint v, j => ∃ t, j = .num t ∧ intVal t = v.toNat
  | .datime v, j => j = if F.date v = [] then .null else .str (chars (F.date v))
  | .double v, j => j = .num (F.g v)
  | .arrint l, j => ∃ ts : List (List Byte), j = .arr (ts.map .num) ∧ ts.map intVal = l.map BitVec.toInt
  | .arruint l, j => ∃ ts : List (List Byte), j = .arr (ts.map .num) ∧ ts.map intVal = l.map fun v => (v.toNat : Int)
  | .arrdouble l, j => j = .arr (l.map fun v => .num (F.g v))
  | .str s, j => j = .str (chars s)
  | .arrstr l, j => j = .arr (l.map fun s => .str (chars s))
  | .buffer _, _ => False
  | .reference n, j => j = if n then .null else .str (chars (lit "<Refernce>"))
  | .other _, j => j = .null

/-- What can be written: ASCII strings, formatted doubles which are JSON numbers, printable dates, no raw data. -/
def Ascii (s : List Byte) : Prop := ∀ b ∈ s, b.toNat < 128
def Printable (s : List Byte) : Prop := ∀ b ∈ s, 32 ≤ b.toNat ∧ b.toNat < 128 ∧ b ≠ 34 ∧ b ≠ 92
def Writable (F : Fmt) : Val → Prop
  | .double v => JNum (F.g v)
  | .arrdouble l => ∀ v ∈ l, JNum (F.g v)
  | .datime v => Printable (F.date v)
  | .str s => Ascii s
  | .arrstr l => ∀ s ∈ l, Ascii s
  | .buffer _ => False
  | _ => True

/-- Corresponding elements. -/
def All2 {α β : Type} (R : α → β → Prop) : List α → List β → Prop
  | [], l => l = []
  | a :: as, l => ∃ b bs, l = b :: bs ∧ R a b ∧ All2 R as bs

/-- Fields without name or with one of `` #&"'!@%^*()=-\/|~.,`` or a space in it do not appear. -/
def hidden : List Byte := [32, 35, 38, 34, 39, 33, 64, 37, 94, 42, 40, 41, 61, 45, 92, 47, 124, 126, 46, 44]
def Appears (n : Name) : Bool := n ≠ [] && n.all fun b => !hidden.contains b

/-- Fields which can be written: no control characters and only ASCII in the name; a writable value if it appears. -/
def FieldOk (F : Fmt) (e : Name × Val) : Prop := (∀ b ∈ e.1, 32 ≤ b.toNat ∧ b.toNat < 128) ∧ (Appears e.1 → Writable F e.2)

/-- Members expected for fields. -/
def MeansFields (F : Fmt) (l : List (Name × Val)) (ms : List (List Nat × JV)) : Prop :=
  All2 (fun e m => m.1 = chars e.1 ∧ Means F e.2 m.2) (l.filter fun e => Appears e.1) ms

def NumMember (key : String) (n : Nat) (m : List Nat × JV) : Prop := m.1 = chars (lit key) ∧ ∃ t, m.2 = .num t ∧ intVal t = n

/-- Members expected for the versions. -/
def MeansVersions (o : Opts) (top : Bool) (v1 v2 v3 : Nat) (ms : List (List Nat × JV)) : Prop :=
  ∃ a b, ms = a ++ b ∧ (if top then ∃ m, a = [m] ∧ NumMember "_version" v1 m else a = []) ∧
    (if o.version then ∃ m1 m2 m3, b = [m1, m2, m3] ∧ NumMember "node_ver" v1 m1 ∧ NumMember "dns_ver" v2 m2 ∧ NumMember "chld_ver" v3 m3 else b = [])

/-- Entries of the history to be shown: the newest `hlimit` ones, of them those after the requested version. -/
def newest (o : Opts) (l : List (Nat × List (Name × Val))) : List (Nat × List (Name × Val)) :=
  if o.hlimit = 0 then l else l.drop (l.length - o.hlimit)
def histShown (o : Opts) (l : List (Nat × List (Name × Val))) : List (Nat × List (Name × Val)) :=
  (newest o l).filter fun e => o.ver = 0 ∨ o.ver < e.1

/-- An array member, left out when there is nothing. -/
def arrMember (key : String) : List JV → List (List Nat × JV)
  | [] => []
  | j :: l => [(chars (lit key), .arr (j :: l))]

def MeansHistory (F : Fmt) (o : Opts) (hist : Option (List (Nat × List (Name × Val)) × Bool)) (ms : List (List Nat × JV)) : Prop :=
  match hist with
  | none => ms = []
  | some h => if o.history = false then ms = [] else
      ∃ l : List (List (List Nat × JV)),
        ms = (if h.2 = true ∨ ∃ e ∈ newest o h.1, e.1 < o.ver then [] else [(chars (lit "history_gap"), .bool true)]) ++ arrMember "history" (l.map .obj) ∧
        All2 (fun e m => MeansFields F e.2 m) (histShown o h.1) l

mutual
/-- JSON object expected for an item. -/
def MeansItem (F : Fmt) (o : Opts) (top : Bool) : Item → JV → Prop
  | .node name fields v1 v2 v3 hist ch, j => ∃ fs vs hs cs, j = .obj ([(chars (lit "_name"), .str (chars name))] ++ fs ++ vs ++ hs ++ arrMember "_childs" cs) ∧
      MeansFields F fields fs ∧ MeansVersions o top v1 v2 v3 vs ∧ MeansHistory F o hist hs ∧ (if o.noChilds then cs = [] else MeansList F o ch cs)
def MeansList (F : Fmt) (o : Opts) : List Item → List JV → Prop
  | [], l => l = []
  | x :: xs, l => ∃ j r, l = j :: r ∧ MeansItem F o false x j ∧ MeansList F o xs r
end

mutual
/-- Names without special characters and writable fields, everywhere. -/
def Good (F : Fmt) : Item → Prop
  | .node name fields _ _ _ hist ch => Printable name ∧ (∀ e ∈ fields, FieldOk F e) ∧
      (∀ h, hist = some h → ∀ x ∈ h.1, ∀ e ∈ x.2, FieldOk F e) ∧ GoodL F ch
def GoodL (F : Fmt) : List Item → Prop
  | [] => True
  | x :: xs => Good F x ∧ GoodL F xs
end

end Verif.Json
