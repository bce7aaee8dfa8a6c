/-!
# Command definitions

`base/src/Parameter.cxx:574-670` (`CommandDefinition`).

The fields of the record are a map from names to values; names are lists of characters, as `dabc::format("arg%d", n)`
makes them.  A default value is its text (`AsStr`), `none` is the null field.  The fields of the command which is made
are a list in the order of the calls of `SetStr`, a later one replaces an earlier one with the same name.
-/

namespace Verif.CmdDef

inductive Val
  | int (n : Nat)
  | str (s : String)
  | bool (b : Bool)
deriving DecidableEq

abbrev Fields := List Char → Option Val

def Fields.set (f : Fields) (k : List Char) (v : Val) : Fields := fun x => if x = k then some v else f x

/-- `AsStr` of a text field; missing fields give the empty text. -/
def asStr : Option Val → String
  | some (.str s) => s
  | _ => ""

def asInt : Option Val → Nat
  | some (.int n) => n
  | _ => 0

def asBool : Option Val → Bool
  | some (.bool b) => b
  | _ => false

/-- `dabc::format("arg%d",n)` with a suffix. -/
def key (n : Nat) (suffix : String) : List Char := "arg".toList ++ Nat.toDigits 10 n ++ suffix.toList

def numKey : List Char := "numargs".toList

/-- `NumArgs` (`Parameter.cxx:574-577`) -/
def numArgs (f : Fields) : Nat := asInt (f numKey)

/-- `ArgName` (`Parameter.cxx:579-582`) -/
def argName (f : Fields) (n : Nat) : String := asStr (f (key n ""))

/-- `FindArg` (`Parameter.cxx:584-591`); `none` is -1. -/
def findArg (f : Fields) (name : String) : Option Nat :=
  (List.range (numArgs f)).find? (fun n => argName f n = name)

/-- Choice of the index in `AddArg` (`Parameter.cxx:597-602`). -/
def place (f : Fields) (name : String) : Nat × Fields :=
  match findArg f name with
  | some id => (id, f)
  | none => (numArgs f, f.set numKey (.int (numArgs f + 1)))

/-- `AddArg` (`Parameter.cxx:593-616`) -/
def addArg (f : Fields) (name kind : String) (required : Bool) (dflt : Option String) : Fields :=
  if name = "" then f
  else
    let id := (place f name).1
    let f := (place f name).2
    let f := f.set (key id "") (.str name)
    let f := match dflt with
      | some d => f.set (key id "_dflt") (.str d)
      | none => f
    let f := f.set (key id "_kind") (.str kind)
    if required then f.set (key id "_req") (.bool required) else f

/-- `GetArg` (`Parameter.cxx:632-654`): name, kind, required, default. -/
def getArg (f : Fields) (n : Nat) : Option (String × String × Bool × String) :=
  if n < numArgs f then
    some (asStr (f (key n "")), asStr (f (key n "_kind")), asBool (f (key n "_req")), asStr (f (key n "_dflt")))
  else none

/-- `SetStr` of a command. -/
def setStr (c : List (String × String)) (k v : String) : List (String × String) := c.filter (·.1 ≠ k) ++ [(k, v)]

/-- One turn of the loop in `MakeCommand` (`Parameter.cxx:663-666`). -/
def putArg (f : Fields) (c : List (String × String)) (n : Nat) : List (String × String) :=
  match getArg f n with
  | some (name, _, required, dflt) => if required || dflt ≠ "" then setStr c name dflt else c
  | none => c

/-- `MakeCommand` (`Parameter.cxx:656-670`) -/
def makeCommand (f : Fields) : List (String × String) := (List.range (numArgs f)).foldl (putArg f) []

/-- One call of `AddArg`. -/
structure Call where
  name : String
  kind : String
  required : Bool
  dflt : Option String

def define (calls : List Call) : Fields :=
  calls.foldl (fun f c => addArg f c.name c.kind c.required c.dflt) (fun _ => none)

end Verif.CmdDef
