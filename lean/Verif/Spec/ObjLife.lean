import Verif.ObjLife

namespace Verif.ObjLife

/-- Nobody can use the object any more: no references, no childs, no call inside of the object, no promise of the thread. -/
def Unused (w : W) : Prop := w.refs = 0 ∧ w.childs = 0 ∧ w.pend = [] ∧ w.tok = false

/-- Destruction was requested. -/
def Asked (w : W) : Prop := w.st ≠ .normal

/-- No child is taken away from an object which is cleaned up already. -/
def Orderly : List Op → W → Prop
  | [], _ => True
  | o :: l, w => (o = .removeChild → w.st ≠ .waitDestr) ∧ Orderly l (step w o)

end Verif.ObjLife
