import Verif.HadTu

/-!
# Difference of trigger numbers

`SorterModule::Diff`, plugins/hadaq/hadaq/SorterModule.h:86-92, and `CombinerModule::CalcTrigNumDiff`,
plugins/hadaq/src/CombinerModule.cxx:612-618: both do the same. The subtractions have an unsigned operand and are done
modulo 2^32, comparisons and divisions are done with `int`.
-/

namespace Verif.Trig

abbrev Word := BitVec 32

/-- `Diff(trig1, trig2)` with `fTriggersRange = range`, SorterModule.h:86-92. -/
def diff (range trig1 trig2 : Word) : Int :=
  let res := trig2 - trig1
  if res.toInt > range.toInt.tdiv 2 then (res - range).toInt
  else if res.toInt < range.toInt.tdiv (-2) then (res + range).toInt
  else res.toInt

/-- `SubsComp::operator()`, SorterModule.h:49. -/
def comp (range l r : Word) : Bool := decide (diff range l r > 0)

end Verif.Trig
