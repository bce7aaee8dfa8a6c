import Verif.WorkerHalt

/-!
# What halting of a worker has to mean
-/

namespace Verif.WorkerHalt.Spec

/-- The calls of worker code below `ProcessEvent` or below a `RecursionGuard` which was made while the worker had an id. -/
def Guarded (w : Nat) : Frame → Prop
  | .event _ v => v = w
  | .guard id v => id ≠ 0 ∧ v = w
  | _ => False

/-- Any call of worker code. -/
def Active (w : Nat) : Frame → Prop
  | .event _ v => v = w
  | .guard _ v => v = w
  | .raw _ v => v = w
  | _ => False

/-- The worker is one of the workers of the thread. -/
def Member (s : S) (w : Nat) : Prop := ∃ r ∈ s.recs, r.work = some w

/-- The worker is a member and somebody asked for its halt or destroy. -/
def Asked (s : S) (w : Nat) : Prop := ∃ r ∈ s.recs, r.work = some w ∧ (r.halt = true ∨ r.destroy = true)

/-- Numbers which the code can hold: 16 bit item numbers, 32 bit event counters. -/
def Fits (s : S) : Prop := s.recs.length ≤ 65536 ∧ s.queue.length < 4294967296

/-- Never too many workers or events. -/
def FitsRun (s : S) : List Op → Prop
  | [] => Fits s
  | o :: l => Fits s ∧ FitsRun (step s o) l

/-- No command with magic priority for a worker which is just added, and none while a worker is removed. -/
def Calm (s : S) : Op → Prop
  | .magic w => (s.ws w).thrd = true → Member s w ∧ s.chk = .idle
  | _ => True

def CalmRun (s : S) : List Op → Prop
  | [] => True
  | o :: l => Calm s o ∧ CalmRun (step s o) l

/-- The commands of halt and destroy requests which were executed and wait for their answer. -/
def waitRecs (s : S) : List Nat := s.recs.flatMap (·.cmds)

def waitChk (s : S) : List Nat :=
  match s.chk with
  | .idle => []
  | .decided _ cmd => cmd.toList
  | .removed _ _ cmds => cmds

def waitFrame : Frame → List Nat
  | .fin _ _ cmds => cmds
  | _ => []

def waiting (s : S) : List Nat := waitRecs s ++ waitChk s ++ s.stack.flatMap waitFrame

end Verif.WorkerHalt.Spec
