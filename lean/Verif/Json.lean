import Verif.Record

/-!
# Model of the JSON output of fields, records and hierarchies

base/src/Record.cxx:792-918 (`NeedJsonReformat`, `JsonReformat`, `AsJson`), 145-290 (`HStore`), 1529-1541
(`RecordFieldsMap::SaveTo`), base/src/Hierarchy.cxx:113-150 (`History::SaveTo`), 403-437 (`HierarchyContainer::SaveTo`).

Text is a list of bytes.  The text made by `%g` for a double and the text of a date are parameters (`Fmt`).
-/

namespace Verif.Json
open Verif.Bytes Verif.Record

/-- ASCII text of a literal. -/
def lit (s : String) : List Byte := s.toList.map fun c => BitVec.ofNat 8 c.toNat

/-- Digit of `%x`. -/
def hexDigit (d : Nat) : Byte := if d < 10 then BitVec.ofNat 8 (48 + d) else BitVec.ofNat 8 (87 + d)

/-- The `k` last hexadecimal digits of a number. -/
def hexDigits : Nat → Nat → List Byte
  | 0, _ => []
  | k + 1, n => hexDigits k (n / 16) ++ [hexDigit (n % 16)]

/-- `format("%04x", n)` for a 32-bit number: at least four digits, no leading zeros before them. -/
def hex4 (n : Nat) : List Byte := (hexDigits 4 (n / 65536)).dropWhile (· = 48) ++ hexDigits 4 n

/-- One character in `JsonReformat`, base/src/Record.cxx:817-829; `char` is signed. -/
def esc (b : Byte) : List Byte :=
  if b = 10 then lit "\\n"
  else if b = 9 then lit "\\t"
  else if b = 34 then lit "\\\""
  else if b = 92 then lit "\\\\"
  else if b = 8 then lit "\\b"
  else if b = 12 then lit "\\f"
  else if b = 13 then lit "\\r"
  else if b = 47 then lit "\\/"
  else if b.toInt > 31 ∧ b.toInt < 127 then [b]
  else lit "\\u" ++ hex4 (b.signExtend 32).toNat

/-- `JsonReformat(str)`, base/src/Record.cxx:813-833. -/
def reformat (s : List Byte) : List Byte := s.flatMap esc

/-- `NeedJsonReformat(str)`, base/src/Record.cxx:792-811. -/
def needReformat (s : List Byte) : Bool :=
  s.any fun b => b = 10 || b = 9 || b = 34 || b = 92 || b = 8 || b = 12 || b = 13 || b = 47 || b.toInt < 32 || b.toInt > 126

/-- A string in quotes, base/src/Record.cxx:878-884, 890-896. -/
def quoted (s : List Byte) : List Byte := [34] ++ (if needReformat s then reformat s else s) ++ [34]

/-- Decimal digits of a number. -/
def decNat (n : Nat) : List Byte :=
  if n < 10 then [BitVec.ofNat 8 (48 + n)] else decNat (n / 10) ++ [BitVec.ofNat 8 (48 + n % 10)]

/-- `format("%ld", v)`; `format("%lu", v)` is `decNat`. -/
def decInt (v : Int) : List Byte := if v < 0 then 45 :: decNat v.natAbs else decNat v.natAbs

/-- Formatting of doubles (`%g`) and dates (`AsJSString(3)`). -/
structure Fmt where
  g : Word → List Byte
  date : Word → List Byte

/-- Elements with commas. -/
def commas : List (List Byte) → List Byte
  | [] => []
  | [x] => x
  | x :: y :: l => x ++ [44] ++ commas (y :: l)

def bracket (l : List (List Byte)) : List Byte := [91] ++ commas l ++ [93]

/-- `AsJson()`, base/src/Record.cxx:835-918.  Of a buffer the whole data is printed as one segment. -/
def asJson (F : Fmt) : Val → List Byte
  | .none => lit "null"
  | .bool v => if v ≠ 0 then lit "true" else lit "false"
  | .int v => decInt v.toInt
  | .datime v => if F.date v ≠ [] then [34] ++ F.date v ++ [34] else lit "null"
  | .uint v => decNat v.toNat
  | .double v => F.g v
  | .arrint l => bracket (l.map fun v => decInt v.toInt)
  | .arruint l => bracket (l.map fun v => decNat v.toNat)
  | .arrdouble l => bracket (l.map F.g)
  | .arrstr l => bracket (l.map quoted)
  | .str s => quoted s
  | .buffer b => bracket (b.map fun v => lit "0x" ++ hexDigits 2 v.toNat)
  | .reference isNull => if isNull then lit "null" else lit "\"<Refernce>\""
  | .other _ => lit "null"

/-! ## HStore -/

/-- `HStoreMask`, base/dabc/Record.h:167-174, and the limits. -/
structure Opts where
  compact : Nat
  version : Bool
  history : Bool
  noChilds : Bool
  ver : Nat
  hlimit : Nat

/-- Members of `HStore`, base/dabc/Record.h:181-188; the last elements of `numflds` and `numchilds` come first; `top` is the
bit `storemask_TopVersion`. -/
structure St where
  buf : List Byte
  lvl : Nat
  flds : List Int
  chs : List Nat
  top : Bool

def St.add (s : St) (t : List Byte) : St := { s with buf := s.buf ++ t }

/-- `NewLine()`, base/dabc/Record.h:192-196. -/
def nl (c : Nat) : List Byte := if c < 2 then [10] else if c < 3 then [32] else []

/-- `format("%*s", compact > 0 ? 0 : n, "")`; `n` is never negative where used. -/
def ind (c n : Nat) : List Byte := if c > 0 then [] else List.replicate n 32

def colon (c : Nat) : List Byte := if c = 2 then lit ": " else if c = 3 then lit ":" else lit " : "

/-- `SetField(field, value)` for JSON, base/src/Record.cxx:170-219; `none`: `back()` of an empty vector. -/
def St.setField (c : Nat) (s : St) (field value : List Byte) : Option St :=
  match s.flds with
  | [] => none
  | n :: fs =>
    if n < 0 then some s
    else some { s with
      buf := s.buf ++ ((if n > 0 then [44] else []) ++ nl c ++ ind c (s.lvl * 4 - 2) ++ [34] ++ field ++ [34] ++ colon c ++ value)
      flds := (n + 1) :: fs }

/-- `CreateNode(nodename)` for JSON, base/src/Record.cxx:145-168. -/
def St.createNode (c : Nat) (s : St) (name : Option (List Byte)) : Option St :=
  let s := { s with buf := s.buf ++ (ind c (s.lvl * 4) ++ [123]), lvl := s.lvl + 1, flds := 0 :: s.flds, chs := 0 :: s.chs }
  match name with
  | none => some s
  | some n => s.setField c (lit "_name") ([34] ++ n ++ [34])

/-- `BeforeNextChild(basename)` for JSON, base/src/Record.cxx:247-275. -/
def St.beforeChild (c : Nat) (s : St) (base : List Byte) : Option St :=
  match s.flds, s.chs with
  | n :: fs, k :: ks =>
    let comma := if n > 0 then [44] else []
    let t := if k = 0 then nl c ++ ind c (s.lvl * 4 - 2) ++ [34] ++ base ++ [34] ++ colon c ++ [91] else [44]
    some { s with buf := s.buf ++ (comma ++ t ++ nl c), flds := -1 :: fs, chs := (k + 1) :: ks }
  | _, _ => none

/-- `CloseChilds()` for JSON, base/src/Record.cxx:277-287. -/
def St.closeChilds (c : Nat) (s : St) : Option St :=
  match s.flds, s.chs with
  | _ :: fs, k :: ks =>
    if k > 0 then some { s with buf := s.buf ++ (nl c ++ ind c (s.lvl * 4 - 2) ++ [93]), flds := 1 :: fs, chs := 0 :: ks }
    else some s
  | _, _ => none

/-- `CloseNode(nodename)` for JSON, base/src/Record.cxx:221-245. -/
def St.closeNode (c : Nat) (s : St) : Option St :=
  (s.closeChilds c).bind fun s =>
    some { s with flds := s.flds.tail, chs := s.chs.tail, lvl := s.lvl - 1, buf := s.buf ++ (nl c ++ ind c ((s.lvl - 1) * 4) ++ [125]) }

/-! ## Records and hierarchies -/

/-- Characters which exclude a field from the output, base/src/Record.cxx:1536. -/
def badChars : List Byte := lit " #&\"'!@%^*()=-\\/|~.,"

/-- Field is written, base/src/Record.cxx:1533-1536. -/
def shown (n : Name) : Bool := n ≠ [] && !n.any fun b => badChars.contains b

/-- `RecordFieldsMap::SaveTo`, base/src/Record.cxx:1529-1541. -/
def saveFields (F : Fmt) (c : Nat) : List (Name × Val) → St → Option St
  | [], s => some s
  | (n, v) :: l, s => if shown n then (s.setField c n (asJson F v)).bind (saveFields F c l) else saveFields F c l s

/-- Item of a hierarchy: name, fields, the three versions, history (entries with version and fields, `fCrossBoundary`), childs. -/
inductive Item where
  | node (name : List Byte) (fields : List (Name × Val)) (nodeVer namesVer childsVer : Nat)
      (hist : Option (List (Nat × List (Name × Val)) × Bool)) (ch : List Item)

/-- Loop of `History::SaveTo`, base/src/Hierarchy.cxx:135-148. -/
def saveHist (F : Fmt) (o : Opts) : List (Nat × List (Name × Val)) → St → Option St
  | [], s => some s
  | (v, f) :: l, s =>
    if o.ver > 0 ∧ v ≤ o.ver then saveHist F o l s
    else (s.beforeChild o.compact (lit "history")).bind fun s => (s.createNode o.compact none).bind fun s =>
      (saveFields F o.compact f s).bind fun s => (s.closeNode o.compact).bind (saveHist F o l)

/-- Entries of the history looked at, base/src/Hierarchy.cxx:120-122. -/
def histPart (o : Opts) (l : List (Nat × List (Name × Val))) : List (Nat × List (Name × Val)) :=
  if o.hlimit > 0 ∧ l.length > o.hlimit then l.drop (l.length - o.hlimit) else l

/-- `History::SaveTo`, base/src/Hierarchy.cxx:113-150. -/
def saveHistory (F : Fmt) (o : Opts) (h : List (Nat × List (Name × Val)) × Bool) (s : St) : Option St :=
  let l := histPart o h.1
  let cross := h.2 || l.any fun e => e.1 < o.ver
  (if cross then some s else s.setField o.compact (lit "history_gap") (lit "true")).bind fun s =>
    (saveHist F o l s).bind fun s => s.closeChilds o.compact

/-- Only with `storemask_History`, base/src/Hierarchy.cxx:421-422. -/
def saveHistOpt (F : Fmt) (o : Opts) (hist : Option (List (Nat × List (Name × Val)) × Bool)) (s : St) : Option St :=
  match hist with | some h => if o.history then saveHistory F o h s else some s | none => some s

/-- Versions, base/src/Hierarchy.cxx:410-419. -/
def saveVersions (o : Opts) (nodeVer namesVer childsVer : Nat) (s : St) : Option St :=
  (if s.top then (s.setField o.compact (lit "_version") (decNat nodeVer)).map fun s => { s with top := false } else some s).bind fun s =>
    if o.version then
      (s.setField o.compact (lit "node_ver") (decNat nodeVer)).bind fun s =>
        (s.setField o.compact (lit "dns_ver") (decNat namesVer)).bind fun s => s.setField o.compact (lit "chld_ver") (decNat childsVer)
    else some s

mutual
/-- `HierarchyContainer::SaveTo(res, true)`, base/src/Hierarchy.cxx:403-437. -/
def save (F : Fmt) (o : Opts) : Item → St → Option St
  | .node name fields v1 v2 v3 hist ch, s =>
    (s.createNode o.compact (some name)).bind fun s => (saveFields F o.compact fields s).bind fun s =>
      (saveVersions o v1 v2 v3 s).bind fun s =>
        (saveHistOpt F o hist s).bind fun s =>
          (if o.noChilds then some s else saveList F o ch s).bind fun s => s.closeNode o.compact
def saveList (F : Fmt) (o : Opts) : List Item → St → Option St
  | [], s => some s
  | x :: xs, s => (s.beforeChild o.compact (lit "_childs")).bind fun s => (save F o x s).bind fun s => saveList F o xs s
end

/-- `SaveToJson(mask)`, base/src/Record.cxx:1658-1664, with limits set. -/
def saveToJson (F : Fmt) (o : Opts) (top : Bool) (x : Item) : Option (List Byte) :=
  (save F o x ⟨[], 0, [], [], top⟩).map St.buf

end Verif.Json
