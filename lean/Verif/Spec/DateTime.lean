import Verif.DateTime

/-!
# Specification: instants, dates and times of day
-/

namespace Verif.DateTime
open Verif.Bytes

/-- A time as the clock and the conversions produce it. -/
def Normal (t : Time) : Prop := t.sec < 2 ^ 32 ∧ t.nsec < 10 ^ 9

/-- Nanoseconds since 1970. -/
def instant (t : Time) : Nat := t.sec * 10 ^ 9 + t.nsec

/-- The date exists. -/
def Exists (d : Date) : Prop := 1 ≤ d.month ∧ d.month ≤ 12 ∧ 1 ≤ d.day ∧ d.day ≤ monthLen d.year d.month

/-- Date of an instant: so many times "the day after" since 1970-01-01. -/
def dateAt (t : Time) : Date := dateOf (t.sec / 86400)

/-- Second of the day. -/
def daytime (t : Time) : Nat := t.sec % 86400

/-- Text of a date. -/
def dateStr (d : Date) : List Byte := pad 4 d.year ++ [45] ++ pad 2 d.month ++ [45] ++ pad 2 d.day

/-- Text of a second of the day. -/
def timeStr (s : Nat) : List Byte := pad 2 (s / 3600) ++ [58] ++ pad 2 (s / 60 % 60) ++ [58] ++ pad 2 (s % 60)

/-- Public operations which change a time. -/
inductive Op where
  | now (sec nsec : Nat)
  | js (v : Nat)
  | double (num : Int) (den : Nat)
  | date (s : List Byte)
  | time (s : List Byte)

/-- Operations with the clock as POSIX describes it. -/
def Op.Clock : Op → Prop
  | .now _ nsec => nsec < 10 ^ 9
  | _ => True

def Op.step (t : Time) : Op → Time
  | .now s n => getNow s n
  | .js v => setJSDate v
  | .double n d => setDouble n d
  | .date s => (setOnlyDate t s).2
  | .time s => (setOnlyTime t s).2

end Verif.DateTime
