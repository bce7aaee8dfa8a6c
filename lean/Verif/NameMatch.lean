import Verif.Text

/-!
# Model of name masks, base/src/Object.cxx:999-1056

A `std::string` is a list of bytes, `c_str()` ends at the first zero byte.  `fnmatch` is the function of the C library; it is
modelled for patterns of `*`, `?` and other bytes (`FNM_NOESCAPE`, "C" locale).  Its answer for patterns with a bracket `[`
is a parameter.  A call which never returns is `none`.
-/

namespace Verif.NameMatch
open Verif.Bytes Verif.Text

/-- `fnmatch` for a pattern without brackets. -/
def glob : List Byte → List Byte → Bool
  | [], n => n.isEmpty
  | b :: m, [] => decide (b = 42) && glob m []
  | b :: m, c :: n =>
    if b = 42 then glob m (c :: n) || glob (b :: m) n
    else if b = 63 then glob m n
    else decide (b = c) && glob m n
termination_by m n => m.length + n.length

/-- `fnmatch(mask, name, FNM_NOESCAPE) == 0`. -/
def fnmatch (br : List Byte → List Byte → Bool) (mask name : List Byte) : Bool :=
  if mask.contains 91 then br mask name else glob mask name

/-- `Object::NameMatch`, base/src/Object.cxx:1004-1026.  The loop of lines 1012-1017 changes nothing and never ends. -/
def nameMatch (br : List Byte → List Byte → Bool) (name mask : List Byte) : Option Bool :=
  if mask.length = 0 || name.length = 0 then some (decide (name.length = mask.length))
  else if mask.contains 59 then none
  else if !(mask.contains 42 || mask.contains 63) then some (decide (name = mask))
  else if mask = [42] then some true
  else some (fnmatch br (cstr mask) (cstr name))

/-- The loop of `NameMatchM`, base/src/Object.cxx:1036-1053; `rest` is `mask.substr(lastsepar)`. -/
def maskLoop (br : List Byte → List Byte → Bool) (name rest : List Byte) : Option Bool :=
  let sub := rest.takeWhile (· ≠ 58)
  let next := if _h : rest.dropWhile (· ≠ 58) = [] then some false
    else maskLoop br name (rest.dropWhile (· ≠ 58)).tail
  if sub.isEmpty then next
  else match nameMatch br name sub with
    | none => none
    | some true => some true
    | some false => next
termination_by rest.length
decreasing_by
  have := (List.dropWhile_sublist (fun x => decide (x ≠ (58 : Byte))) (l := rest)).length_le
  have h2 := List.length_tail (l := rest.dropWhile (fun x => decide (x ≠ (58 : Byte))))
  have h3 : (rest.dropWhile (fun x => decide (x ≠ (58 : Byte)))).length ≠ 0 := fun h => _h (List.length_eq_zero_iff.1 h)
  omega

/-- `Object::NameMatchM`, base/src/Object.cxx:1028-1056. -/
def nameMatchM (br : List Byte → List Byte → Bool) (name mask : List Byte) : Option Bool :=
  if mask.contains 58 then maskLoop br name mask else nameMatch br name mask

end Verif.NameMatch
