import Verif.HttpServer
import Verif.Spec.PublTree

/-!
# Where a file name leads
-/

namespace Verif.HttpServer
open Verif.Bytes Verif.Json Verif.Text Verif.PublTree

/-- How many directories below the start one is after following the names: nothing and `.` stay, `..` goes up, all others go down. -/
def depth : List Str → Int
  | [] => 0
  | n :: ns => (if n = [] ∨ n = [dot] then 0 else if n = [dot, dot] then -1 else 1) + depth ns

/-- The way never leaves the directory in which it starts. -/
def Inside (ns : List Str) : Prop := ∀ k, 0 ≤ depth (ns.take k)

/-- All directories which are passed on the way are inside; the last name may still lead out. -/
def WayInside (ns : List Str) : Prop := ∀ k, k < ns.length → 0 ≤ depth (ns.take k)

/-- Names of a path of the operating system: what stands between slashes. -/
def unixNames (s : Str) : List Str := pieces (· = slash) s

/-- Names when the backslash separates too. -/
def bothNames (s : Str) : List Str := pieces isSep s

/-- The file `f` is the directory `dir` followed by a way which stays inside of it. -/
def Under (dir f : Str) : Prop := ∃ w, f = dir ++ slash :: w ∧ Inside (unixNames w)

end Verif.HttpServer
