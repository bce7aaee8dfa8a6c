import Verif.Bytes
/-!
# Profiler

Code: `base/dabc/Profiler.h:27-106` (`Profiler`, `ProfilerGuard`), `base/src/Profiler.cxx:18-34`
(`MakeStatistic`). The value of the clock is an input of every call; it is an unsigned number of
64 bits. The ratio is kept as the two numbers which are divided. Not modelled: `Format`.
-/

namespace Verif.Profiler
open Verif.Bytes

abbrev Clk := BitVec 64

/-- `Profiler::Entry`, `Profiler.h:41-45`. -/
structure Entry where
  sum : Clk
  ratio : Nat × Nat
  name : List Byte

/-- `Profiler.h:33-47`. -/
structure Prof where
  active : Bool
  last : Clk
  entries : List Entry

/-- `Reserve(num)`, `Profiler.h:53-57`. -/
def reserve (p : Prof) (num : Nat) : Prof :=
  { p with entries := p.entries ++ List.replicate (num - p.entries.length) ⟨0, (0, 1), []⟩ }

/-- Constructor, `Profiler.h:51`. -/
def init : Prof := reserve ⟨true, 0, []⟩ 10

/-- `ProfilerGuard`, `Profiler.h:67-70`. -/
structure Guard where
  cnt : Nat
  last : Clk

/-- A slot without name gets one, `Profiler.h:80-81, 102-103`. -/
def setName (l : List Entry) (n : Nat) (name : Option (List Byte)) : List Entry :=
  match name with
  | none => l
  | some t => l.modify n fun e => if e.name = [] then { e with name := t } else e

/-- Constructor of the guard, `Profiler.h:73-82`. -/
def openGuard (p : Prof) (name : Option (List Byte)) (lvl : Nat) (now : Clk) : Prof × Guard :=
  if !p.active || p.entries.length ≤ lvl then (p, ⟨lvl, 0⟩)
  else ({ p with entries := setName p.entries lvl name }, ⟨lvl, now⟩)

/-- `Next(name, lvl)`, `Profiler.h:84-104`; the destructor of the guard calls it without
arguments. -/
def next (p : Prof) (g : Guard) (name : Option (List Byte)) (lvl : Nat) (now : Clk) : Prof × Guard :=
  if !p.active || p.entries.length ≤ g.cnt then (p, g)
  else
    let cnt := if lvl ≠ 0 then lvl else g.cnt + 1
    let l := p.entries.modify g.cnt fun e => { e with sum := e.sum + (now - g.last) }
    ({ p with entries := setName l cnt name }, ⟨cnt, now⟩)

/-- `MakeStatistic()`, `Profiler.cxx:18-34`. -/
def makeStatistic (p : Prof) (now : Clk) : Prof :=
  let diff := if p.last ≠ 0 then now - p.last else 0
  { p with
    last := now
    entries := if diff ≠ 0 then
        p.entries.map fun e => { e with ratio := (e.sum.toNat, diff.toNat), sum := 0 }
      else p.entries }

/-- Arguments of one call of `Next`. -/
structure Call where
  name : Option (List Byte)
  lvl : Nat
  now : Clk

/-- Calls of `Next` one after the other, the last one from the destructor. -/
def nexts (p : Prof) (g : Guard) : List Call → Prof × Guard
  | [] => (p, g)
  | c :: l => nexts (next p g c.name c.lvl c.now).1 (next p g c.name c.lvl c.now).2 l

/-- A guard from its construction on. -/
def guarded (p : Prof) (name : Option (List Byte)) (lvl : Nat) (now : Clk) (l : List Call) : Prof :=
  (nexts (openGuard p name lvl now).1 (openGuard p name lvl now).2 l).1

end Verif.Profiler
