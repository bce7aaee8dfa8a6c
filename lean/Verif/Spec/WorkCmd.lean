import Verif.WorkCmd

/-!
# Specification for commands submitted to a worker
-/

namespace Verif.WorkCmd

/-- No exception leaves a command and nothing is executed without thread. -/
def Plain (as : List Act) : Prop := ∀ a ∈ as, a ≠ .throw ∧ ∀ c, a ≠ .direct c

/-- The commands which do not wait synchronously for their answer. -/
def async (cs : List C) : List C := cs.filter fun c => !c.sync

/-- How often a command was accepted. -/
def accepted (as : List Act) (c : C) : Nat := as.count (.submit c) + as.count (.direct c)

end Verif.WorkCmd
