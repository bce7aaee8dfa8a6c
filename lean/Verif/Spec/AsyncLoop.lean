import Verif.AsyncLoop

/-! Specification for C95: the life of the connection until the module is started. -/

namespace Verif.AsyncLoop.Spec
open Verif.LocalTransport Verif.AsyncLoop
variable {β : Type}

/-- The port is connected with signalling kind `k`, while other threads use the queue; events are dropped
until the module is started. -/
def Started (k : Kind) : Side → List (Op β) → Prop
  | .inp, ops => ∃ a b c, ops = a ++ .assignInp k :: (b ++ .setConnected true :: (c ++ [.startInp])) ∧
      (∀ op ∈ a, inpSide op = false) ∧ (∀ op ∈ b, inpSide op = false) ∧ (∀ op ∈ c, inpSide op = false ∨ isIgnoreInp op = true)
  | .out, ops => ∃ a b c, ops = a ++ .assignOut k :: (b ++ .setConnected false :: (c ++ [.startOut])) ∧
      (∀ op ∈ a, outSide op = false) ∧ (∀ op ∈ b, outSide op = false) ∧ (∀ op ∈ c, outSide op = false ∨ isIgnoreOut op = true)

/-- Nothing is left to do at this side: the queue is empty, or it is full. -/
def Done (cap : Nat) (h : List (Rec β)) : Side → Prop
  | .inp => waiting h = []
  | .out => (waiting h).length = cap

/-- The module waits and nothing is on its way to it. -/
def Quiet (sd : Side) (m : M β) : Prop :=
  m.mode = .idle ∧ m.reinj = 0 ∧ (match sd with | .inp => pendingInp m.hist = 0 | .out => pendingOut m.hist = 0)

end Verif.AsyncLoop.Spec
