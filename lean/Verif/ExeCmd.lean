import Verif.Url
import Verif.TextForm
/-!
# Model of the parameters of published commands

`dabc::Publisher::CreateExeCmd`, base/src/Publisher.cxx:541-612: the query of a request (`execute?a=1&b='text'`) becomes parameters of the
command.  Which worker gets it is in `Verif.PublTree` (C88).

The conversion of texts to doubles and of doubles to integers is a parameter.  Not modelled further (`none`): `sscanf` with numbers which
do not fit, reading behind the end in `StrToStrVect`, the use of the variable `ddd` before it is set (line 591).
-/

namespace Verif.ExeCmd
open Verif.Bytes Verif.Json Verif.Text

/-- `str_to_double`, and the conversion of a double to `int64_t`. -/
structure Conv where
  dbl : List Byte → Option (BitVec 64)
  toInt : BitVec 64 → Int

/-- Value of a parameter. -/
inductive V
  | str (s : List Byte)
  | int (v : Int)
  | dbl (v : BitVec 64)
  | strs (l : List (List Byte))
  | ints (l : List Int)
  | dbls (l : List (BitVec 64))
  deriving DecidableEq, Repr

/-- Command: its fields and what was given to `SetTimeout` (`none`: nothing, `some none`: 10). -/
structure Cmd where
  fields : List (List Byte × V) := []
  timeout : Option (Option (BitVec 64)) := none
  deriving DecidableEq, Repr

/-- `SetField`: there is one field for each name. -/
def Cmd.set (c : Cmd) (name : List Byte) (v : V) : Cmd := { c with fields := (name, v) :: c.fields.filter (·.1 ≠ name) }

def Cmd.get (c : Cmd) (name : List Byte) : Option V := c.fields.lookup name

/-- Quotes around the value, lines 562-567. -/
def quoted (v : List Byte) : Bool := decide (v.length > 1 ∧ (v.head? = some 39 ∨ v.head? = some 34) ∧ v.head? = v.getLast?)

/-- Integers of the elements, lines 587-592; `none`: `ddd` was not set. -/
def ints (C : Conv) : List (List Byte) → Option (List Int)
  | [] => some []
  | s :: l =>
    match strToInt 64 s, C.dbl s, ints C l with
    | .undef, _, _ => none
    | _, _, none => none
    | .fail, _, some r => some r
    | .val _, none, _ => none
    | .val _, some d, some r => some (C.toInt d :: r)

/-- Value in quotes, lines 572-597. -/
def vector (C : Conv) (v : List Byte) : Option V :=
  match TextForm.strToStrVect v with
  | .outside => none
  | .no => some (.str v)
  | .yes [] => some (.str v)
  | .yes l =>
    match ints C l with
    | none => none
    | some il =>
      if il.length = l.length then some (.ints il)
      else if (l.filterMap C.dbl).length = l.length then some (.dbls (l.filterMap C.dbl))
      else some (.strs l)

/-- `SetInt(name, int)`, base/dabc/Command.h:138. -/
def toInt32 (v : Int) : Int := (BitVec.ofInt 32 v).toInt

/-- One parameter, lines 553-609. -/
def param (C : Conv) (c : Cmd) (name value : List Byte) : Option Cmd :=
  let value := Url.replaceCode 50 48 32 value
  if quoted value then (vector C value.tail.dropLast).map (c.set name)
  else if name = lit "tmout" then some { c with timeout := some (C.dbl value) }
  else
    match strToInt 64 value with
    | .undef => none
    | .val v => some (c.set name (.int (toInt32 v)))
    | .fail =>
      match C.dbl value with
      | some d => some (c.set name (.dbl d))
      | none => some (c.set name (.str value))

/-- The loop, lines 544-611: it ends with the first part which has no name or no value. -/
def loop (C : Conv) (u : Url.Url) : Nat → Nat → Cmd → Option Cmd
  | 0, _, c => some c
  | fuel + 1, cnt, c =>
    let part := (Url.getOption u [] cnt).getD []
    if part = [] then some c
    else
      match find [61] part with
      | none => some c
      | some p =>
        if p = 0 ∨ p = part.length - 1 then some c
        else (param C c (part.take p) (part.drop (p + 1))).bind (loop C u fuel (cnt + 1))

/-- Parameters from the query, lines 541-612. -/
def create (C : Conv) (c : Cmd) (query : List Byte) : Option Cmd :=
  (Url.setUrl (lit "execute?" ++ query)).bind fun u =>
    if u.valid then loop C u (u.options.length + 1) 0 c else some c

end Verif.ExeCmd
