import Verif.Rfio
/-! # What the data mover receives -/

namespace Verif.Rfio
open Verif.Bytes

/-- State of a data mover: the file which is being received, complete files, and whether a call came
which does not fit (a file begins inside of a file, data or end without file). -/
structure Mover where
  current : Option (Text × List Byte)
  files : List (Text × List Byte)
  bad : Bool
  deriving DecidableEq

/-- The mover behind connection `c`. -/
def receive (c : Nat) (m : Mover) : Ext → Mover
  | .newfile h name rev =>
    if h = c ∧ rev = 0 then ⟨some (name, []), m.files, m.bad || m.current.isSome⟩ else m
  | .fwrite h data n =>
    if h = c then
      match m.current with
      | some (name, got) => { m with current := some (name, got ++ data.take n) }
      | none => { m with bad := true }
    else m
  | .endfile h =>
    if h = c then
      match m.current with
      | some x => ⟨none, m.files ++ [x], m.bad⟩
      | none => { m with bad := true }
    else m
  | _ => m

def received (c : Nat) (l : List Ext) : Mover := l.foldl (receive c) ⟨none, [], false⟩

/-- The files of a list which the mover accepts. -/
def accepted (l : List File) : List (Text × List Byte) :=
  (l.filter fun x => x.res.newfile = 0).map fun x => (x.name, x.blocks.flatten)

/-- Connections which were made. -/
def connections (l : List Ext) : List Nat :=
  l.filterMap fun | .connect _ h => if h ≠ 0 then some h else none | _ => none

end Verif.Rfio
