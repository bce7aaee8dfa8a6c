import Verif.ThrStart

/-!
# What starting and stopping a thread should mean
-/

namespace Verif.ThrStart

/-- No thread of the operating system executes code of the object. -/
def Silent (s : S) : Prop := ∀ o ∈ s.os, o.phase = .gone

/-- At most one does. -/
def AtMostOne (s : S) : Prop :=
  ∀ (i j : Nat) (o p : Os), s.os[i]? = some o → s.os[j]? = some p → o.phase ≠ .gone → p.phase ≠ .gone → i = j

/-- A call which has returned. -/
def Returned (c : Pc) : Prop := ∃ b r, c = .done b r

/-- `Start` and `Stop` are called only when all earlier calls returned. -/
def Sequential (as : List Act) : Prop :=
  ∀ p a q s, as = p ++ a :: q → ((∃ r, a = .start r) ∨ ∃ b, a = .stop b) → run init p = some s →
    ∀ c ∈ s.calls, Returned c

/-- Calls only from other threads, and always for a real thread. -/
def External (as : List Act) : Prop := ∀ a ∈ as, a ≠ .start false ∧ ∀ i, a ≠ .stop (some i)

/-- Nothing takes too long: `Stop` neither cancels the thread nor ends by timeout, and the thread does not leave its main
loop by its own decision. -/
def Smooth (as : List Act) : Prop := ∀ a ∈ as, (∀ k, a ≠ .cancel k) ∧ (∀ k, a ≠ .timeout k) ∧ ∀ i, a ≠ .quit i

end Verif.ThrStart
