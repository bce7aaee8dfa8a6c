import Verif.CmdDef

/-!
# What a command definition has to remember
-/

namespace Verif.CmdDef.Spec

structure Arg where
  name : String
  kind : String
  required : Bool
  dflt : String
deriving DecidableEq

/-- The arguments by the calls alone: each name once, at its first position.  What a repeated call does with the
attributes is given by `again`. -/
def args (again : Arg → Call → Arg) : List Call → List Arg :=
  List.foldl (fun l c =>
    if c.name = "" then l
    else if c.name ∈ l.map (·.name) then l.map (fun a => if a.name = c.name then again a c else a)
    else l ++ [⟨c.name, c.kind, c.required, c.dflt.getD ""⟩]) []

/-- A repeated call replaces the argument. -/
def replaced (_ : Arg) (c : Call) : Arg := ⟨c.name, c.kind, c.required, c.dflt.getD ""⟩

/-- A repeated call keeps the old default and stays required. -/
def merged (a : Arg) (c : Call) : Arg := ⟨c.name, c.kind, a.required || c.required, c.dflt.getD a.dflt⟩

/-- The fields of the command. -/
def wanted (l : List Arg) : List (String × String) :=
  (l.filter (fun a => a.required || decide (a.dflt ≠ ""))).map (fun a => (a.name, a.dflt))

end Verif.CmdDef.Spec
