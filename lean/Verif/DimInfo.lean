import Verif.Bytes
/-!
# Model of the decoding of DIM services

`dim::Monitor::infoHandler`, plugins/dim/src/Monitor.cxx:205-356, and the record of slow control values, 359-376.

Format strings are lists of characters without the null byte at the end.  Simplified: an item is the list of its fields; `int` has 4
bytes; the conversion from `float` to `double` is exact, so both are given by their bits; numbers in format strings stay below 2^31.
The handler does not know how many bytes the service has: reading behind them is a separate outcome.
-/

namespace Verif.DimInfo

open Verif.Bytes

/-- `dabc::RecordField` as made by the handler. -/
inductive Fld
  | int (v : Int)
  | ints (v : List Int)
  | flt (bits : Nat)
  | flts (bits : List Nat)
  | dbl (bits : Nat)
  | dbls (bits : List Nat)
  | str (s : List Byte)
  deriving DecidableEq, Repr

/-- `n` values with `k` bytes each; `none`: behind the end of the data. -/
def getVals (k : Nat) : Nat → List Byte → Option (List Nat)
  | 0, _ => some []
  | n + 1, l => if l.length < k then none else (getVals k n (l.drop k)).map (dec (l.take k) :: ·)

def toInt (bits : Nat) : Int := (BitVec.ofNat 32 bits).toInt

/-- String with at most `size` bytes, lines 326-335; `none`: no null byte, and behind the end of the data. -/
def getStr (size : Nat) (l : List Byte) : Option (List Byte) :=
  let s := (l.take size).takeWhile (· ≠ 0)
  if s.length = l.length ∧ l.length < size then none else some s

/-- `while ((*fmt>='0') && (*fmt<='9'))`, lines 289-292. -/
def digits : List Char → Nat → Nat × List Char
  | [], acc => (acc, [])
  | ch :: l, acc => if '0' ≤ ch ∧ ch ≤ '9' then digits l (acc * 10 + (ch.toNat - '0'.toNat)) else (acc, ch :: l)

/-- Field of kind `kind`; `none` in the first place: unknown kind. -/
def getFld (kind : Char) (size : Nat) (l : List Byte) : Option (Option Fld × List Byte) :=
  if kind = 'I' then
    some ((getVals 4 size l).map (fun v => if size = 1 then .int (toInt (v.headD 0)) else .ints (v.map toInt)), l.drop (4 * size))
  else if kind = 'F' then
    some ((getVals 4 size l).map (fun v => if size = 1 then .flt (v.headD 0) else .flts v), l.drop (4 * size))
  else if kind = 'D' then
    some ((getVals 8 size l).map (fun v => if size = 1 then .dbl (v.headD 0) else .dbls v), l.drop (8 * size))
  else if kind = 'C' then some ((getStr size l).map .str, l.drop size)
  else none

/-- Fields `fld0`, `fld1`, …, and whether memory behind the data was read. -/
structure Res where
  flds : List Fld
  outside : Bool
  deriving DecidableEq, Repr

/-- Loop over the format, lines 285-348; each turn takes at least one character. -/
def loop : Nat → List Char → List Byte → Res
  | 0, _, _ => ⟨[], false⟩
  | fuel + 1, fmt, l =>
    match fmt with
    | kind :: ':' :: rest =>
      let d := digits rest 0
      let rest := match d.2 with | ';' :: r => r | r => r
      if d.1 = 0 then ⟨[], false⟩
      else
        match getFld kind d.1 l with
        | none => ⟨[], false⟩
        | some (none, _) => ⟨[], true⟩
        | some (some f, l) =>
          let r := loop fuel rest l
          ⟨f :: r.flds, r.outside⟩
    | _ => ⟨[], false⟩

/-- Value for the slow control record: `fKind` 0, 1 or 2. -/
inductive Slow
  | no
  | long (v : Int)
  | flt (bits : Nat)
  | dbl (bits : Nat)
  deriving DecidableEq, Repr

/-- What one call of the handler does: field `value`, its kind, fields by number, slow control value, whether the item is marked as
changed, whether memory behind the data was read. -/
structure Upd where
  value : Option Fld := none
  kind : Option String := none
  flds : List Fld := []
  slow : Slow := .no
  changed : Bool := true
  outside : Bool := false
  deriving DecidableEq, Repr

/-- Single value. -/
def one (k : Nat) (l : List Byte) (f : Nat → Fld) (s : Nat → Slow) : Upd :=
  match getVals k 1 l with
  | some [v] => { value := some (f v), kind := some "rate", slow := s v }
  | _ => { outside := true }

def cstr (l : List Byte) : Upd :=
  match getStr (l.length + 1) l with
  | some s => { value := some (.str s), kind := some "log" }
  | none => { outside := true }

def oldRate : List Char := "F:1;I:1;F:1;F:1;F:1;F:1;C:16;C:16;C:16".toList
def oldInfo : List Char := "I:1;C:16;C:128".toList
def oldName : List Char := "DABC/".toList

/-- `infoHandler`, lines 242-355. -/
def handle (name fmt : List Char) (l : List Byte) : Upd :=
  if fmt = ['I'] then one 4 l (.int ∘ toInt) (.long ∘ toInt)
  else if fmt = ['F'] then one 4 l .flt .flt
  else if fmt = ['D'] then one 8 l .dbl .dbl
  else if fmt = ['C'] then cstr l
  else if fmt = oldRate ∧ name.take 5 = oldName then one 4 l .flt .flt
  else if fmt = oldInfo ∧ name.take 5 = oldName then cstr (l.drop 20)
  else if fmt.length > 2 then
    let r := loop fmt.length fmt l
    { flds := r.flds, outside := r.outside }
  else { changed := false }

end Verif.DimInfo
