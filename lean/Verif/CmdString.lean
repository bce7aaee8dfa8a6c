/-!
# Model of the command-line syntax of commands, base/src/Command.cxx:259-331

Strings are lists of characters; a position in a string is represented by the remaining suffix.
-/

namespace Verif.CmdString

/-- `find_symbol(str, pos, symb)`, base/src/Command.cxx:259-274, on the suffix starting at `pos`: the
characters before the symbol found (the whole suffix if none is found).  The flag is `quote`. -/
def beforeSymbol (symb : Char) : Bool → List Char → List Char
  | _, [] => []
  | quote, c :: rest =>
    let quote := if c = '"' then !quote else quote
    if quote = false ∧ c = symb then [] else c :: beforeSymbol symb quote rest

/-- `remove_quotes(str)`, base/src/Command.cxx:276-290. -/
def removeQuotes (s : List Char) : List Char :=
  if s.length < 2 then s
  else if s.head? ≠ s.getLast? then s
  else if s.head? = some '"' then s.dropLast.tail
  else s

/-- Observable content of a command: its name and the `SetStr` calls in order; `numArg` is the value
finally stored as `NumArg` (nothing is stored for 0). -/
structure Parsed where
  name : List Char
  fields : List (List Char × List Char)
  numArg : Nat
  deriving DecidableEq

/-- `dabc::format("Arg%d", narg)`, base/src/Command.cxx:314. -/
def argName (n : Nat) : List Char := "Arg".toList ++ (toString n).toList

/-- Result of handling one part, base/src/Command.cxx:306-327; `none`: `return false`.  `cmd = none` means
that the reference is still null. -/
def handlePart (cmd : Option Parsed) (part : List Char) : Option Parsed :=
  match cmd with
  | none => some { name := part, fields := [], numArg := 0 }
  | some p =>
    let key := beforeSymbol '=' false part
    if key.length = part.length then
      some { p with fields := p.fields ++ [(argName p.numArg, part)], numArg := p.numArg + 1 }
    else if key.length = 0 then none
    else
      let argname := part.take (key.length - 1)
      let argvalue := part.drop (key.length + 1)
      some { p with fields := p.fields ++ [(argname, removeQuotes argvalue)] }

theorem beforeSymbol_length (symb : Char) (q) (s : List Char) : (beforeSymbol symb q s).length ≤ s.length := by
  induction s generalizing q with
  | nil => simp [beforeSymbol]
  | cons c s ih =>
    simp only [beforeSymbol]
    split
    · split
      · simp
      · have := ih (!q); simp only [List.length_cons]; omega
    · split
      · simp
      · have := ih q; simp only [List.length_cons]; omega

theorem beforeSymbol_pos {symb c : Char} (h : c ≠ symb) (s : List Char) : 0 < (beforeSymbol symb false (c :: s)).length := by
  simp [beforeSymbol, h]

/-- Main loop of `ReadFromCmdString(str)`, base/src/Command.cxx:292-331.  Outer `none`: `return false`;
inner `none`: the command reference stays null. -/
def readLoop (cmd : Option Parsed) (str : List Char) : Option (Option Parsed) :=
  match str with
  | [] => some cmd
  | c :: rest =>
    if h : c = ' ' then readLoop cmd rest
    else
      let part := beforeSymbol ' ' false (c :: rest)
      match handlePart cmd part with
      | none => none
      | some p => readLoop (some p) ((c :: rest).drop part.length)
termination_by str.length
decreasing_by
  · simp
  · have h1 := beforeSymbol_pos h rest
    simp only [List.length_drop, List.length_cons] at *
    omega

/-- `ReadFromCmdString(str)`, base/src/Command.cxx:292-331. -/
def readFromCmdString (str : List Char) : Option (Option Parsed) := readLoop none str

end Verif.CmdString
