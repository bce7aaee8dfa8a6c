/-!
# Specification: the documented command-line syntax (base/dabc/Command.h:198-208)
-/

namespace Verif.CmdString

/-- An argument as the user means it. -/
inductive Arg where
  /-- `value` -/
  | positional (v : List Char)
  /-- `name=value` -/
  | named (n v : List Char)
  /-- `name="value"` -/
  | quoted (n v : List Char)

/-- A word: not empty and without blanks, quotes and `=`. -/
def Word (s : List Char) : Prop := s ≠ [] ∧ ∀ c ∈ s, c ≠ ' ' ∧ c ≠ '"' ∧ c ≠ '='

/-- Arguments which can be written down: a quoted value is any text without quotes. -/
def Arg.Ok : Arg → Prop
  | .positional v => Word v
  | .named n v => Word n ∧ Word v
  | .quoted n v => Word n ∧ ∀ c ∈ v, c ≠ '"'

/-- How an argument is typed. -/
def Arg.text : Arg → List Char
  | .positional v => v
  | .named n v => n ++ '=' :: v
  | .quoted n v => n ++ '=' :: '"' :: v ++ ['"']

/-- The command line. -/
def line (name : List Char) (args : List Arg) : List Char := name ++ args.flatMap (fun a => ' ' :: a.text)

/-- The fields a user expects in the command; positional arguments are counted from `k`.  `f` is what
happens to the name of a named argument (the identity in the documented syntax). -/
def expected (f : List Char → List Char) : Nat → List Arg → List (List Char × List Char)
  | _, [] => []
  | k, .positional v :: rest => (("Arg" ++ toString k).toList, v) :: expected f (k + 1) rest
  | k, .named n v :: rest => (f n, v) :: expected f k rest
  | k, .quoted n v :: rest => (f n, v) :: expected f k rest

/-- Number of positional arguments. -/
def positionals (args : List Arg) : Nat := args.countP fun | .positional _ => true | _ => false

end Verif.CmdString
