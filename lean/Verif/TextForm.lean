import Verif.Text

/-!
# Model of the text form of field values, base/src/Record.cxx

`AsStr` (748-790), `AsStrVect` (923-966), `StrToStrVect` (983-1027), `AsBool` (477-498), `AsInt` (500-522), `AsUInt` (524-546),
`AsIntVect` (574-624), `AsUIntVect` (626-677).

A C string is the list of bytes before the null byte.  The text of doubles and dates is a parameter, as in `Verif.Json`.
Conversions of doubles to integers are not modelled (`none`), also where `sscanf` is undefined.
-/

namespace Verif.TextForm
open Verif.Bytes Verif.Json Verif.Record Verif.Text

/-- Result of `StrToStrVect`; `outside`: the code would read behind the null byte. -/
inductive Vect where
  | outside
  | no
  | yes (l : List (List Byte))
  deriving DecidableEq, Repr

/-- Part of the text up to `,` or `]`. -/
def stop (b : Byte) : Bool := b = 44 || b = 93

/-- Spaces at the end are removed, the first character stays (lines 1008-1009). -/
def trim (c : Byte) (r : List Byte) : List Byte := c :: ((r.reverse).dropWhile (· = 32)).reverse

/-- Lines 1013-1023; `k` continues the loop behind a comma. -/
def next (k : List Byte → List (List Byte) → Vect) (q : List Byte) (acc : List (List Byte)) : Vect :=
  match q.dropWhile (· = 32) with
  | [] => .yes acc
  | c :: t => if c = 93 then .yes acc else if c = 44 then k t acc else .yes acc

/-- The `while` loop, lines 991-1024; `n` is a bound of the iterations. -/
def loop : Nat → List Byte → List (List Byte) → Vect
  | 0, _, _ => .outside
  | _ + 1, [], acc => .yes acc
  | n + 1, b :: s, acc =>
    match (b :: s).dropWhile (· = 32) with
    | [] => .outside
    | c :: r =>
      if c = 39 ∨ c = 34 then
        if c ∈ r then next (loop n) ((r.dropWhile (· ≠ c)).drop 1) (acc ++ [r.takeWhile (· ≠ c)])
        else .no
      else if r.any stop then next (loop n) (r.dropWhile fun b => !stop b) (acc ++ [trim c (r.takeWhile fun b => !stop b)])
      else .no

/-- `StrToStrVect`, lines 983-1027. -/
def strToStrVect (s : List Byte) : Vect :=
  if s.length < 2 ∨ s.head? ≠ some 91 ∨ s.getLast? ≠ some 93 then .no
  else loop s.length (s.drop 1) []

/-- `AsStrVect`, lines 923-966, without strings. -/
def elems (F : Fmt) : Val → List (List Byte)
  | .arrint l => l.map fun v => decInt v.toInt
  | .arruint l => l.map fun v => decNat v.toNat
  | .arrdouble l => l.map F.g
  | .arrstr l => l
  | _ => []

/-- `AsStr(dflt)`, lines 748-790. -/
def asStr (F : Fmt) (dflt : List Byte) (v : Val) : List Byte :=
  match v with
  | .bool v => if v ≠ 0 then lit "true" else lit "false"
  | .int v => decInt v.toInt
  | .datime v => if F.date v = [] then dflt else F.date v
  | .uint v => decNat v.toNat
  | .double v => F.g v
  | .arrint _ | .arruint _ | .arrdouble _ | .arrstr _ =>
    if elems F v = [] then dflt else bracket ((elems F v).map quoted)
  | .str s => s
  | _ => dflt

/-- `AsStrVect()`. -/
def asStrVect (F : Fmt) (v : Val) : Option (List (List Byte)) :=
  match v with
  | .bool _ | .int _ | .datime _ | .uint _ | .double _ => some [asStr F [] v]
  | .str s =>
    match strToStrVect s with
    | .outside => none
    | .no => some [s]
    | .yes l => some l
  | v => some (elems F v)

/-- `AsBool(dflt)`, lines 477-498. -/
def asBool (dflt : Bool) : Val → Option Bool
  | .bool v | .int v | .datime v | .uint v => some (v ≠ 0)
  | .arrint (v :: _) | .arruint (v :: _) => some (v ≠ 0)
  | .str s => some (if s = lit "true" then true else if s = lit "false" then false else dflt)
  | .arrstr (s :: _) => some (if s = lit "true" then true else if s = lit "false" then false else dflt)
  | .double _ | .arrdouble (_ :: _) | .arrstr [] | .buffer _ | .reference _ => none
  | _ => some dflt

/-- Value of a scan, or the default. -/
def orElse (dflt : Word) : Scan → Option Word
  | .fail => some dflt
  | .undef => none
  | .val v => some (BitVec.ofInt 64 v)

/-- `AsInt(dflt)`, lines 500-522. -/
def asInt (dflt : Word) : Val → Option Word
  | .bool v | .int v | .datime v | .uint v => some v
  | .arrint (v :: _) | .arruint (v :: _) => some v
  | .str s | .arrstr (s :: _) => orElse dflt (strToInt 64 s)
  | .double _ | .arrdouble (_ :: _) | .arrstr [] => none
  | _ => some dflt

/-- `AsUInt(dflt)`, lines 524-546. -/
def asUInt (dflt : Word) : Val → Option Word
  | .bool v | .int v | .datime v | .uint v => some v
  | .arrint (v :: _) | .arruint (v :: _) => some v
  | .str s | .arrstr (s :: _) => orElse dflt (strToUint 64 s)
  | .double _ | .arrdouble (_ :: _) | .arrstr [] => none
  | _ => some dflt

/-- Elements which are numbers; the others are left out. -/
def scanAll (f : List Byte → Scan) : List (List Byte) → Option (List Word)
  | [] => some []
  | s :: l =>
    match f s, scanAll f l with
    | .undef, _ => none
    | _, none => none
    | .fail, some r => some r
    | .val v, some r => some (BitVec.ofInt 64 v :: r)

/-- Elements of a string array; what is not a number becomes 0. -/
def scanEach (f : List Byte → Scan) : List (List Byte) → Option (List Word)
  | [] => some []
  | s :: l =>
    match orElse 0 (f s), scanEach f l with
    | some v, some r => some (v :: r)
    | _, _ => none

/-- `AsIntVect` (with `str_to_lint`) and `AsUIntVect` (with `str_to_luint`), lines 574-677. -/
def asNumVect (f : List Byte → Scan) : Val → Option (List Word)
  | .bool v | .int v | .datime v | .uint v => some [v]
  | .arrint l | .arruint l => some l
  | .str s =>
    match strToStrVect s with
    | .outside => none
    | .yes l => scanAll f l
    | .no => scanAll f [s]
  | .arrstr l => scanEach f l
  | .double _ | .arrdouble _ => none
  | _ => some []

def asIntVect : Val → Option (List Word) := asNumVect (strToInt 64)
def asUIntVect : Val → Option (List Word) := asNumVect (strToUint 64)

end Verif.TextForm
