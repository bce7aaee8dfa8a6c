import Verif.Json

/-!
# Model of the conversion of text to numbers, base/src/string.cxx:138-225

A `std::string` is a list of bytes, `c_str()` ends at the first zero byte.  `sscanf` is modelled by what the C standard says
about `%d`, `%u` and `%x` in the "C" locale; what it leaves undefined (numbers out of range) is `undef`, as is a second
`0x` in front of hexadecimal digits.
-/

namespace Verif.Text
open Verif.Bytes Verif.Json

inductive Scan where
  | fail | undef | val (v : Int)
  deriving DecidableEq, Repr

/-- `c_str()`. -/
def cstr (s : List Byte) : List Byte := s.takeWhile (· ≠ 0)

def isSpace (b : Byte) : Bool := b = 32 || (9 ≤ b.toNat && b.toNat ≤ 13)
def isDec (b : Byte) : Bool := 48 ≤ b.toNat && b.toNat ≤ 57

def hexDig (b : Byte) : Option Nat :=
  if 48 ≤ b.toNat ∧ b.toNat ≤ 57 then some (b.toNat - 48)
  else if 97 ≤ b.toNat ∧ b.toNat ≤ 102 then some (b.toNat - 87)
  else if 65 ≤ b.toNat ∧ b.toNat ≤ 70 then some (b.toNat - 55) else none

def decVal (t : List Byte) : Nat := t.foldl (fun a b => a * 10 + (b.toNat - 48)) 0
def hexNum (t : List Byte) : Nat := t.foldl (fun a b => a * 16 + (hexDig b).getD 0) 0

/-- Sign of a number: is negative, what follows. -/
def sign : List Byte → Bool × List Byte
  | [] => (false, [])
  | b :: r => if b = 45 then (true, r) else if b = 43 then (false, r) else (false, b :: r)

/-- White space, sign and digits. -/
def scanDec (s : List Byte) : Option (Bool × Nat) :=
  let r := sign (s.dropWhile isSpace)
  let d := r.2.takeWhile isDec
  if d = [] then none else some (r.1, decVal d)

/-- `sscanf(s, "%d", &v) == 1` for a type of `w` bits. -/
def scanInt (w : Nat) (s : List Byte) : Scan :=
  match scanDec s with
  | none => .fail
  | some (neg, n) =>
    let v : Int := if neg then -(n : Int) else n
    if -(2 ^ (w - 1) : Int) ≤ v ∧ v < 2 ^ (w - 1) then .val v else .undef

/-- `sscanf(s, "%u", &v) == 1`; negative numbers wrap around. -/
def scanUint (w : Nat) (s : List Byte) : Scan :=
  match scanDec s with
  | none => .fail
  | some (neg, n) => if n < 2 ^ w then .val (if neg then ((2 ^ w - n) % 2 ^ w : Nat) else (n : Nat)) else .undef

/-- `sscanf(s, "%x", &v) == 1`. -/
def scanHex (w : Nat) (s : List Byte) : Scan :=
  let r := sign (s.dropWhile isSpace)
  match r.2 with
  | 48 :: x :: _ => if x = 120 ∨ x = 88 then .undef else
      let n := hexNum (r.2.takeWhile fun b => (hexDig b).isSome)
      if n < 2 ^ w then .val (if r.1 then ((2 ^ w - n) % 2 ^ w : Nat) else (n : Nat)) else .undef
  | _ =>
      let d := r.2.takeWhile fun b => (hexDig b).isSome
      if d = [] then .fail else
      let n := hexNum d
      if n < 2 ^ w then .val (if r.1 then ((2 ^ w - n) % 2 ^ w : Nat) else (n : Nat)) else .undef

/-- `0x` or `0X` and something behind. -/
def hexPrefix : List Byte → Bool
  | 48 :: x :: _ :: _ => x = 120 || x = 88
  | _ => false

/-- Part of `val` which is looked at. -/
def start (val : List Byte) : List Byte := (cstr val).dropWhile (· = 32)

def floatChar (b : Byte) : Bool := b = 46 || b = 44 || b = 101 || b = 69

/-- `str_to_int` (w = 32), `str_to_lint` (w = 64), base/src/string.cxx:138-177. -/
def strToInt (w : Nat) (val : List Byte) : Scan :=
  let s := start val
  if s = [] then .fail
  else if hexPrefix s then
    match scanHex w (s.drop 2) with
    | .val v => .val (BitVec.ofInt w v).toInt
    | r => r
  else if s.any floatChar then .fail
  else scanInt w s

/-- `str_to_uint` (w = 32), `str_to_luint` (w = 64), base/src/string.cxx:180-210. -/
def strToUint (w : Nat) (val : List Byte) : Scan :=
  let s := start val
  if s = [] then .fail
  else if hexPrefix s then scanHex w (s.drop 2)
  else if s.any floatChar then .fail
  else scanUint w s

/-- `std::string::find`. -/
def find (pat : List Byte) : List Byte → Option Nat
  | [] => if pat = [] then some 0 else none
  | c :: s => if pat.isPrefixOf (c :: s) then some 0 else (find pat s).map (· + 1)

theorem find_le {pat : List Byte} : ∀ {s : List Byte} {n : Nat}, find pat s = some n → n + pat.length ≤ s.length
  | [], n, h => by
    unfold find at h
    split at h
    · cases h; rename_i e; simp [e]
    · cases h
  | c :: s, n, h => by
    unfold find at h
    split at h
    · rename_i hp
      cases h
      have := (List.isPrefixOf_iff_prefix.mp hp).length_le
      omega
    · obtain ⟨k, hk, rfl⟩ := Option.map_eq_some_iff.mp h
      have := find_le hk
      simp only [List.length_cons]; omega

end Verif.Text
