import Verif.Text
/-!
# Commands of the GOSIP player

Code: `plugins/gosip/src/Player.cxx:52-154` (`CmdGosip` in `gosip::Player::ExecuteCommand`).

Simplifications.
* The pipe is an input: for every command in the order of execution either nothing (`popen` fails) or
  the pieces which `fread` gives, the last reading may give nothing.
* The log is not modelled.
-/

namespace Verif.Gosip
open Verif.Bytes Verif.Json Verif.Text

abbrev Text := List Byte

/-- `adr` -/
def adr : Text := [97, 100, 114]
/-- `-- -1 -1` -/
def noAddr : Text := [45, 45, 32, 45, 49, 32, 45, 49]
/-- `gosipcmd ` -/
def gosipcmd : Text := [103, 111, 115, 105, 112, 99, 109, 100, 32]
/-- `-r adr ` -/
def readAdr : Text := [45, 114, 32] ++ adr ++ [32]

/-- Address of the device, `Player.cxx:61-65`. -/
def address (sfp dev : Int) : Text :=
  if sfp < 0 ∨ dev < 0 then noAddr else decInt sfp ++ [32] ++ decInt dev

/-- `Player.cxx:77-78`. -/
def isReading (c : Text) : Bool := find [45, 114] c = some 0
def isWriting (c : Text) : Bool := find [45, 119] c = some 0

/-- Text which is not an option is read as an address, `Player.cxx:80-83`. -/
def plain (c : Text) : Bool := !isReading c && !isWriting c && decide (c.head? ≠ some 45)

/-- The first `adr` is replaced, `Player.cxx:85-86`. -/
def replaceAdr (a c : Text) : Text :=
  match find adr c with
  | some n => c.take n ++ a ++ c.drop (n + 3)
  | none => c

/-- Line which the shell gets, `Player.cxx:80-94`. -/
def line (a c : Text) : Text :=
  cstr (gosipcmd ++ replaceAdr a (if plain c then readAdr ++ c else c))

/-- Spaces and line feeds at the end are removed, `Player.cxx:108`. -/
def strip (c : Text) : Text := (c.reverse.dropWhile fun b => b = 32 || b = 10).reverse

/-- Loop over the output of the command, `Player.cxx:105-113`: `buf` has the last piece. -/
def readAll (buf : Text) (total : Nat) : List Text → Text
  | [] => buf
  | c :: l =>
    if 200000 ≤ total ∨ c = [] then buf else readAll (strip c) (total + (strip c).length) l

/-- An element of the answer. -/
inductive Res
  | err | ok | undef | skip
  | value (v : Int)
  deriving DecidableEq

/-- Result of a command, `Player.cxx:96-145`; `none`: a number which does not fit. -/
def answer (c : Text) (pipe : Option (List Text)) : Option Res :=
  match pipe with
  | none => some .err
  | some p =>
    let buf := cstr (readAll [] 0 p)
    if isWriting c then (if buf.length > 2 then some .err else some .ok)
    else if isReading c || plain c then
      match strToInt 64 buf with
      | .fail => some .err
      | .undef => none
      | .val v => some (.value v)
    else some .undef

/-- Loop over the commands, `Player.cxx:73-146`: results and lines given to the shell. -/
def loop (a : Text) (pipe : Nat → Option (List Text)) (n : Nat) :
    List Text → Option (List Res × List Text)
  | [] => some ([], [])
  | c :: l => (answer c (pipe n)).bind fun r =>
    if r = .err then some ([r], [line a c])
    else (loop a pipe (n + 1) l).map fun x => (r :: x.1, line a c :: x.2)

/-- `CmdGosip`, `Player.cxx:54-154`. -/
def execute (sfp dev : Int) (pipe : Nat → Option (List Text)) (cmds : List Text) :
    Option (List Res × List Text) :=
  (loop (address sfp dev) pipe 0 cmds).map fun x =>
    (x.1 ++ List.replicate (cmds.length - x.1.length) .skip, x.2)

end Verif.Gosip
