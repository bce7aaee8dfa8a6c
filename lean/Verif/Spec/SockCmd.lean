import Verif.SockCmd

/-!
# What the command channel has to give
-/

namespace Verif.SockCmd.Spec

/-- How often a command is in the send queue of a side. -/
def queued (s : S) (d : Bool) (c : Nat) : Nat := (s.side d).sendq.countP (fun it => decide (it = .cmd c))

/-- How often a command waits for its answer. -/
def waiting (s : S) (d : Bool) (c : Nat) : Nat := (s.side d).waitq.countP (fun w => decide (w.2 = c))

/-- How often a command was replied. -/
def answered (s : S) (c : Nat) : Nat := s.answers.countP (fun a => decide (a.1 = c))

/-- At a new connection nothing is left of the commands which came by the old one. -/
def Fresh (s : S) : Op → Prop
  | .connect _ =>
    (s.side false).io = false → (s.side false).exec = [] ∧ ∀ id c v, Item.reply id c v ∉ (s.side false).sendq
  | _ => True

/-- All connections begin so. -/
def AllFresh : S → List Op → Prop
  | _, [] => True
  | s, op :: ops => Fresh s op ∧ AllFresh (step s op) ops

/-- Nothing is under way. -/
def Quiet (s : S) : Prop :=
  ∀ d, (s.side d).sendq = [] ∧ s.wire d = [] ∧ (s.side d).exec = [] ∧ (s.side d).evq = []

/-- No command is timed out or cancelled. -/
def Env.Fine (env : Env) : Prop := ∀ c, env.late c = false ∧ env.canc c = false ∧ env.rcanc c = false

/-- An operation with which nothing goes wrong. -/
def Undisturbed : Op → Prop
  | .submit _ _ env => Env.Fine env
  | .finish _ _ _ env => Env.Fine env
  | .dispatch _ env => Env.Fine env
  | .connect env => Env.Fine env
  | .fail _ => False
  | .expireWait .. => False
  | .expireSend .. => False
  | _ => True

/-- The operation is not a new command. -/
def NoSubmit : Op → Prop
  | .submit .. => False
  | _ => True

/-- Every operation has an effect. -/
def Moving : S → List Op → Prop
  | _, [] => True
  | s, op :: ops => step s op ≠ s ∧ Moving (step s op) ops

end Verif.SockCmd.Spec
