import Verif.NameMatch
import Verif.Text

/-!
# Model of the names of output files, base/src/DataIO.cxx:211-276, base/src/BinaryFile.cxx:60-112

`FileOutput::Write_Init`, `ProduceFileName`, `ProduceNewFileName` and `FileInterface::fmatch`, as used by the outputs for binary
files, LMD files and ROOT trees (`HldOutput` makes its names from run numbers and is not modelled here).

A directory is the list of its entries with the answer whether it is a plain file which can be read.  `none`: the code throws an
exception or has undefined behaviour.
-/

namespace Verif.FileName
open Verif.Bytes Verif.Json Verif.Text Verif.NameMatch

/-- Entries of a directory, which is given by the part of a name up to the last slash. -/
abbrev Disk := List Byte → List (List Byte × Bool)

/-- `std::string::rfind`: last place where `pat` is found. -/
def rfind (pat : List Byte) : List Byte → Option Nat
  | [] => if pat = [] then some 0 else none
  | c :: s =>
    match rfind pat s with
    | some n => some (n + 1)
    | none => if pat.isPrefixOf (c :: s) then some 0 else none

/-- `ProduceFileName`, lines 252-268.  When nothing is found `pos` is `npos`, which is equal to `len - ext.length()` when the
name is one shorter than the extension; `insert` throws then. -/
def produce (ext name suffix : List Byte) : Option (List Byte) :=
  match rfind ext name with
  | some pos =>
    if pos + ext.length = name.length then some (name.take pos ++ suffix ++ name.drop pos)
    else some (name ++ suffix ++ ext)
  | none => if name.length + 1 = ext.length then none else some (name ++ suffix ++ ext)

/-- Part of the name up to the last slash, and the rest. -/
def dirOf (s : List Byte) : List Byte := (s.reverse.dropWhile (· ≠ 47)).reverse
def itemOf (s : List Byte) : List Byte := (s.reverse.takeWhile (· ≠ 47)).reverse

/-- `fmatch(mask, true)`, base/src/BinaryFile.cxx:60-112; the directory itself has no wildcards. -/
def fmatch (br : List Byte → List Byte → Bool) (disk : Disk) (mask : List Byte) : List (List Byte) :=
  if mask = [] then []
  else ((disk (dirOf mask)).filter fun e => decide (e.1.head? ≠ some 46) && fnmatch br (itemOf mask) e.1 && e.2).map
    fun e => dirOf mask ++ e.1

/-- Zeros in front, line 233. -/
def strip : List Byte → List Byte
  | b :: c :: l => if b = 48 then strip (c :: l) else b :: c :: l
  | l => l

/-- Number of a file, lines 229-240: `some none` when there is none.  A name of digits only lets the search run below the
start of the string. -/
def number (ext fname : List Byte) : Option (Option Int) :=
  let body := fname.take (fname.length - ext.length)
  let d := (body.reverse.takeWhile isDec).reverse
  if d.length = body.length then none
  else if d = [] then some none
  else match strToInt 32 (strip d) with
    | .fail => some none
    | .undef => none
    | .val v => some (some v)

/-- Loop over the files, lines 223-241. -/
def maxNumber (ext : List Byte) : List (List Byte) → Int → Option Int
  | [], m => some m
  | f :: l, m =>
    match number ext f with
    | none => none
    | some none => maxNumber ext l m
    | some (some v) => maxNumber ext l (if v > m then v else m)

/-- `Write_Init`, lines 211-250: the number of the first file; `n` is the number from the URL. -/
def init (br : List Byte → List Byte → Bool) (disk : Disk) (ext name : List Byte) (n : Int) : Option Int :=
  match produce ext name [42] with
  | none => none
  | some mask =>
    match maxNumber ext (fmatch br disk mask) (-1) with
    | none => none
    | some m => if n ≤ m then (if m + 1 < 2 ^ 31 then some (m + 1) else none) else some n

/-- `%0wd`. -/
def padded (w : Nat) (n : Nat) : List Byte := List.replicate (w - (decNat n).length) 48 ++ decNat n

/-- `dabc::format("_%04d", n)`. -/
def suffix (n : Int) : List Byte :=
  if n < 0 then 95 :: 45 :: padded 3 n.natAbs else 95 :: padded 4 n.natAbs

/-- `ProduceNewFileName`, lines 271-275: name of the file and next number. -/
def newName (ext name : List Byte) (n : Int) : Option (List Byte × Int) :=
  if n + 1 < 2 ^ 31 then (produce ext name (suffix n)).map fun f => (f, n + 1) else none

/-- Names of the next `k` files. -/
def names (ext name : List Byte) : Nat → Int → Option (List (List Byte))
  | 0, _ => some []
  | k + 1, n =>
    match newName ext name n with
    | none => none
    | some (f, n') => (names ext name k n').map (f :: ·)

end Verif.FileName
