import Verif.Create
/-!
# What is expected when the manager creates objects
-/

namespace Verif.Create

/-- `r` is what the first factory makes which makes anything. -/
def MadeByFirst {α : Type} (f : Factory → Option α) (fs : List Factory) (r : α) : Prop :=
  ∃ pre x post, fs = pre ++ x :: post ∧ (∀ y ∈ pre, f y = none) ∧ f x = some r

/-- No factory makes anything. -/
def Unknown {α : Type} (f : Factory → Option α) (fs : List Factory) : Prop :=
  ∀ x ∈ fs, f x = none

/-- A thread can serve workers which ask for the class. -/
def Usable (t : Thrd) (cl : Name) : Prop :=
  cl = [] ∨ cl = "dabc::Thread".toList ∨ t.cls = cl

/-- Names tried for a thread: the name itself and then the name with number 0, 1, … -/
def candidate (n : Name) : Nat → Name
  | 0 => n
  | k + 1 => n ++ ("_".toList ++ Nat.toDigits 10 k)

/-- Name wished for the thread of a module or device: the configured one, otherwise the thread
of the manager (minimal layout) or the name of the object with `Thrd`. -/
def wished : Layout → Name → Name → Name
  | _, c :: cfg, _ => c :: cfg
  | .minimal, [], _ => "ManagerThrd".toList
  | .other, [], n => n ++ "Thrd".toList

/-- Factories make threads of the class asked for. -/
def ThreadsHonest (fs : List Factory) : Prop :=
  ∀ f ∈ fs, ∀ cl c, f.thread cl = some c → cl ≠ [] → c = cl

/-- A run of the process reaches the state. -/
def Reached (fs : List Factory) (lay : Layout) (ops : List Op) (s : St) : Prop :=
  run fs lay St.start ops = some s

/-- Name and kind of the object which an operation is to create. -/
def wants : Op → Option (Name × Kind)
  | .module _ n _ _ => some (n, .module)
  | .device c n _ _ => some (if n = [] then c else n, .device)
  | .other n => some (n, .other)
  | _ => none

/-- Every name is used for one kind of objects, and names are not empty. -/
def OneKind (k : Name → Kind) (ops : List Op) : Prop :=
  ∀ o ∈ ops, ∀ n q, wants o = some (n, q) → n ≠ [] ∧ q = k n

/-- Number of children of the manager with a name. -/
def numNamed (s : St) (n : Name) : Nat := s.objs.countP (fun o => o.name == n)

end Verif.Create
