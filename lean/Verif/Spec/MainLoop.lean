import Verif.MainLoop
/-!
# What is expected from the main loop
-/

namespace Verif.MainLoop

/-- Any sequence of operations leads to the state. -/
def Reach (s : St) : Prop := ∃ ops, s = run St.init ops

/-- Operations by which somebody asks to stop, with the time. -/
def stopAt : Op → Option Nat
  | .ctrlC t => some t
  | .pipe t => some t
  | .stopCmd t => some t
  | _ => none

/-- The application is asked to halt at some time. -/
def isHalt : Ev → Bool
  | .halt _ => true
  | _ => false

/-- The loop is left. -/
def isLeft : Ev → Bool
  | .left _ => true
  | _ => false

/-- Time of an operation. -/
def timeOf : Op → Option Nat
  | .enter _ t => some t
  | .pass t => some t
  | .ctrlC t => some t
  | .pipe t => some t
  | .stopCmd t => some t
  | .reply => none

/-- Operations which neither ask to stop nor come later than the given running time. -/
def Calm (start runtime : Nat) (o : Op) : Prop :=
  stopAt o = none ∧ ∀ t, timeOf o = some t → runtime = 0 ∨ t ≤ start + runtime

end Verif.MainLoop
