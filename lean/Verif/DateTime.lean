import Verif.Text

/-!
# Model of `dabc::DateTime`, base/dabc/timing.h:190-258, base/src/timing.cxx:147-345

The two members are 32-bit numbers.  `time_t` has 64 bits.  `gmtime_r`, `timegm`, `strftime`, `snprintf` and `sscanf` are
functions of the C library and modelled by what they are documented to do: the calendar is the Gregorian one, a day has
86400 seconds.  Not modelled: local time, `AsDouble`, `DistanceTo`.  `SetDouble` is modelled for whole and fractional
numbers of seconds without the rounding of floating-point numbers.
-/

namespace Verif.DateTime
open Verif.Bytes Verif.Text

structure Time where
  sec : Nat
  nsec : Nat
  deriving DecidableEq, Repr

/-- Date in the calendar; months and days are counted from 1. -/
structure Date where
  year : Nat
  month : Nat
  day : Nat
  deriving DecidableEq, Repr

def leap (y : Nat) : Bool := y % 4 = 0 && (y % 100 ≠ 0 || y % 400 = 0)

def monthLen (y m : Nat) : Nat :=
  if m = 2 then (if leap y then 29 else 28)
  else if m = 4 ∨ m = 6 ∨ m = 9 ∨ m = 11 then 30 else 31

/-- The day after. -/
def tomorrow (d : Date) : Date :=
  if d.day < monthLen d.year d.month then { d with day := d.day + 1 }
  else if d.month < 12 then { d with month := d.month + 1, day := 1 }
  else { year := d.year + 1, month := 1, day := 1 }

/-- Day `n` after 1970-01-01. -/
def dateOf : Nat → Date
  | 0 => { year := 1970, month := 1, day := 1 }
  | n + 1 => tomorrow (dateOf n)

/-- `struct tm`. -/
structure Tm where
  date : Date
  hour : Nat
  min : Nat
  sec : Nat
  deriving DecidableEq, Repr

/-- `gmtime_r`. -/
def gmtime (t : Nat) : Tm :=
  { date := dateOf (t / 86400), hour := t % 86400 / 3600, min := t % 3600 / 60, sec := t % 60 }

/-- Days of the months before month `m`. -/
def daysBefore (y : Nat) : Nat → Nat
  | 0 => 0
  | 1 => 0
  | m + 1 => daysBefore y m + monthLen y m

/-- Leap years up to year `y`. -/
def leaps (y : Nat) : Int := (y / 4 : Nat) - (y / 100 : Nat) + (y / 400 : Nat)

/-- Days from 1970-01-01, also for a day outside of the month. -/
def daysTo (d : Date) : Int :=
  365 * ((d.year : Int) - 1970) + (leaps (d.year - 1) - leaps 1969) + daysBefore d.year d.month + ((d.day : Int) - 1)

/-- `timegm`. -/
def timegm (t : Tm) : Int := daysTo t.date * 86400 + t.hour * 3600 + t.min * 60 + t.sec

/-- Conversion to `unsigned`. -/
def toUnsigned (v : Int) : Nat := (v % 2 ^ 32).toNat

/-- `null`, base/dabc/timing.h:210. -/
def null (t : Time) : Bool := t.sec = 0 && t.nsec = 0

/-- `GetNow`, base/src/timing.cxx:147-156: what the clock says. -/
def getNow (sec nsec : Nat) : Time := { sec := sec % 2 ^ 32, nsec := nsec % 2 ^ 32 }

/-- `AsJSDate`, base/src/timing.cxx:158-161. -/
def asJSDate (t : Time) : Nat := (t.sec * 1000 + t.nsec / 1000000) % 2 ^ 64

/-- `SetJSDate`, base/dabc/timing.h:224-228. -/
def setJSDate (js : Nat) : Time := { sec := js / 1000 % 2 ^ 32, nsec := js % 1000 * 1000000 % 2 ^ 32 }

/-- `SetDouble`, base/dabc/timing.h:231-234, for `num / den` seconds: the cast comes before the multiplication. -/
def setDouble (num : Int) (den : Nat) : Time :=
  setJSDate (if num > 0 then num.toNat / den % 2 ^ 64 * 1000 % 2 ^ 64 else 0)

/-- `k` decimal digits (`%0*d`). -/
def pad : Nat → Nat → List Byte
  | 0, _ => []
  | k + 1, n => pad k (n / 10) ++ [BitVec.ofNat 8 (48 + n % 10)]

/-- `strftime` with `%Y`, `%m`, `%d` and the text between. -/
def dateText (separ : List Byte) (d : Date) : List Byte :=
  pad 4 d.year ++ separ ++ pad 2 d.month ++ separ ++ pad 2 d.day

/-- `strftime` with `%H`, `%M`, `%S` and the text between. -/
def timeText (separ : List Byte) (t : Tm) : List Byte :=
  pad 2 t.hour ++ separ ++ pad 2 t.min ++ separ ++ pad 2 t.sec

/-- Rounding loop, base/src/timing.cxx:176-181, 225-230: `k` digits are dropped. -/
def roundLoop : Nat → Nat → Nat
  | 0, frac => frac
  | k + 1, frac => roundLoop k (frac / 10 + if frac % 10 ≥ 5 then 1 else 0)

/-- Seconds and fraction which are shown, lines 168-183 and 217-232. -/
def rounded (ndecimal : Int) (t : Time) : Nat × Nat :=
  if ndecimal > 0 ∧ t.nsec > 0 then
    let nd := if ndecimal > 9 then 9 else ndecimal.toNat
    let frac := roundLoop (9 - nd) t.nsec
    if frac ≥ 10 ^ nd then (t.sec + 1, 0) else (t.sec, frac)
  else (t.sec, 0)

/-- Number of decimals after line 171. -/
def decimals (ndecimal : Int) (t : Time) : Int :=
  if ndecimal > 0 ∧ t.nsec > 0 ∧ ndecimal > 9 then 9 else ndecimal

/-- `AsString` in GMT, base/src/timing.cxx:164-204. -/
def asString (ndecimal : Int) (t : Time) : List Byte :=
  if null t then [] else
  let r := rounded ndecimal t
  let tm := gmtime r.1
  let s := dateText [45] tm.date ++ [32] ++ timeText [58] tm
  if r.2 > 0 ∧ (50 - s.length : Int) > decimals ndecimal t + 1 then s ++ [46] ++ pad (decimals ndecimal t).toNat r.2 else s

/-- `AsJSString`, base/src/timing.cxx:212-254. -/
def asJSString (ndecimal : Int) (t : Time) : List Byte :=
  if null t then [] else
  let r := rounded ndecimal t
  let tm := gmtime r.1
  let s := dateText [45] tm.date ++ [84] ++ timeText [58] tm
  let s := if r.2 > 0 ∧ (50 - s.length - s.length : Int) > decimals ndecimal t + 1
    then s ++ [46] ++ pad (decimals ndecimal t).toNat r.2 else s
  if s.length ≥ 49 then [] else s ++ [90]

/-- `OnlyDateAsString` in GMT, base/src/timing.cxx:257-271. -/
def onlyDate (separ : List Byte) (t : Time) : List Byte :=
  if null t then [] else dateText separ (gmtime t.sec).date

/-- `OnlyTimeAsString` in GMT, base/src/timing.cxx:273-287. -/
def onlyTime (separ : List Byte) (t : Time) : List Byte :=
  if null t then [] else timeText separ (gmtime t.sec)

/-- `%Nu` of `sscanf`: the number and the rest of the text. -/
def scanU (width : Nat) (s : List Byte) : Option (Nat × List Byte) :=
  let s := s.dropWhile isSpace
  let r := sign (s.take width)
  let d := r.2.takeWhile isDec
  if d = [] then none
  else some (if r.1 then (2 ^ 32 - decVal d) % 2 ^ 32 else decVal d,
    s.drop ((s.take width).length - r.2.length + d.length))

/-- A character in the format of `sscanf`. -/
def scanChar (c : Byte) (s : List Byte) : Option (List Byte) :=
  match s with
  | b :: r => if b = c then some r else none
  | [] => none

/-- Three numbers separated by `c`. -/
def scan3 (w1 w2 w3 : Nat) (c : Byte) (s : List Byte) : Option (Nat × Nat × Nat) :=
  match scanU w1 s with
  | none => none
  | some (a, s) =>
    match scanChar c s with
    | none => none
    | some s =>
      match scanU w2 s with
      | none => none
      | some (b, s) =>
        match scanChar c s with
        | none => none
        | some s =>
          match scanU w3 s with
          | none => none
          | some (d, _) => some (a, b, d)

/-- `SetOnlyDate`, base/src/timing.cxx:289-306; `s` is a C string. -/
def setOnlyDate (t : Time) (s : List Byte) : Bool × Time :=
  if s.length ≠ 10 then (false, t) else
  match scan3 4 2 2 45 s with
  | none => (false, t)
  | some (year, month, day) =>
    if year < 1970 || year > 2100 || month > 12 || month = 0 || day > 31 || day = 0 then (false, t)
    else (true, { t with sec := toUnsigned (timegm { gmtime t.sec with date := ⟨year, month, day⟩ }) })

/-- `SetOnlyTime`, base/src/timing.cxx:308-330.  The zeros of `memset` mean day 0 of January 1900. -/
def setOnlyTime (t : Time) (s : List Byte) : Bool × Time :=
  if s.length ≠ 8 then (false, t) else
  match scan3 2 2 2 58 s with
  | none => (false, t)
  | some (hour, min, sec) =>
    if hour > 23 || min > 59 || sec > 59 then (false, t)
    else
      let date := if null t then ⟨1900, 1, 0⟩ else (gmtime t.sec).date
      (true, { t with sec := toUnsigned (timegm { date := date, hour := hour, min := min, sec := sec }) })

/-- Directory and file of `HierarchyReading::MakeFileName`, base/src/HierarchyStore.cxx:222-233. -/
def fileName (t : Time) : List Byte × List Byte := (onlyDate [45] t, onlyTime [58] t)

/-- The time found for a file, base/src/HierarchyStore.cxx:235-262 (`ScanFiles`) and 282-290 (`ScanTreeDir`): directory and
file name without extension. -/
def scanFile (dir file : List Byte) : Option Nat :=
  match setOnlyDate ⟨0, 0⟩ dir with
  | (false, _) => none
  | (true, d) =>
    match setOnlyTime d file with
    | (false, _) => none
    | (true, d) => some (asJSDate d)

end Verif.DateTime
