import Verif.Sorter

/-! # Specification of the sorter -/

namespace Verif.Sorter

open Verif.Trig

/-- Subevents of a buffer. -/
def Inp.subs : Inp → List Sub
  | .eof => []
  | .data l => l

/-- What happens to the module. -/
inductive Step where
  | arrive (b : Inp)
  | call (env : Env)
  | timer (send : Bool)

/-- Effect of a step. -/
def Step.run (range : Word) (st : State) : Step → State
  | .arrive b => { st with queue := st.queue ++ [b] }
  | .call env => (retransmit range env st).1
  | .timer send => Sorter.timer send st

/-- `std::sort` gives a permutation, and the second look at the output queue finds no place when the first did not. -/
def Step.Legal : Step → Prop
  | .call env => (∀ l, (env.sort l).Perm l) ∧ (env.send2 = true → env.send1 = true)
  | _ => True

/-- Steps one after the other. -/
def runAll (range : Word) (st : State) (l : List Step) : State := l.foldl (fun st s => s.run range st) st

/-- All subevents that arrived. -/
def arrived : List Step → List Sub
  | [] => []
  | .arrive b :: l => b.subs ++ arrived l
  | _ :: l => arrived l

/-- All subevents sent. -/
def State.sentSubs (st : State) : List Sub := st.sent.flatMap Inp.subs

/-- Subevents in the output buffer. -/
def State.outSubs (st : State) : List Sub := match st.out with | some (_, l) => l | none => []

/-- Subevents still in the input queue: not looked at, to be forwarded with their buffer, or noted in `fSubs`. -/
def State.held (st : State) : List Sub :=
  (st.queue.drop st.next).flatMap Inp.subs ++ (st.queue.take st.ready).flatMap Inp.subs ++ st.subs.map Rec.sub

/-- The trigger numbers do not go back, neither behind `a` nor among each other. -/
def Rising (range : Word) : Word → List Word → Prop
  | _, [] => True
  | a, b :: l => 0 ≤ diff range a b ∧ Rising range b l

end Verif.Sorter
