import Verif.PublReg

/-! # What is expected of registered hierarchies -/

namespace Verif.PublReg
open Verif.Hierarchy
variable {D X : Type}

inductive Op (D X : Type) where
  | register (path : List String) (worker : String) (hier : Nat)
  | unregister (path : List String) (worker : String)
  | removeWorker (worker : String)
  | timeout
  | answer (i : Nat)
  | fail (i : Nat)
  | reply (i : Nat)
  /-- a worker changes its hierarchy or marks changes -/
  | change (hier : Nat) (op : HOp D X)

variable [Inhabited D] [Inhabited X] (prod : String → D → D) (stamp : X → X)

/-- The hierarchy after a change; the client of `Sys` does not matter for it. -/
def changed (s : H D X) (op : HOp D X) : H D X := (Sys.step .names stamp ⟨s, .empty s.name, 0⟩ op).s

def step (st : St D X) : Op D X → St D X
  | .register p w h => (register st p w h).2
  | .unregister p w => (unregister st p w).2
  | .removeWorker w => removeWorker st w
  | .timeout => timeout st
  | .answer i => answer st i
  | .fail i => fail st i
  | .reply i => reply prod st i
  | .change h op => { st with srv := fun k => if k = h then changed stamp (st.srv h) op else st.srv k }

/-- What the publisher has of an entry, when the answer under way is counted. -/
def having (st : St D X) (e : Entry) : Option (T D X) :=
  (subT e.path st.loc).map fun t => match st.reps.find? (fun r => r.id = e.id) with
    | some ⟨_, some (m, _)⟩ => apply m t
    | _ => t

/-- Neither path is above the other. -/
def Apart (p q : List String) : Prop := ¬ p <+: q ∧ ¬ q <+: p

/-- No registration below another one.  For changes of the hierarchies as in C52: the name of a new item is used neither by another one at this place
nor by one which the publisher still has there, and changes of names above are marked before those below. -/
def Legal (st : St D X) : Op D X → Prop
  | .register p _ _ => ∀ e ∈ st.ents, ¬ e.path <+: p
  | .change h op => HLegal .names ⟨st.srv h, .empty (st.srv h).name, 0⟩ op ∧
      ∀ e ∈ st.ents, e.hier = h → ∀ t, having st e = some t → HLegal .names ⟨st.srv h, t, 0⟩ op
  | _ => True

/-- What a worker has told about a hierarchy. -/
inductive Told (D X : Type) where
  /-- nothing yet -/
  | nothing
  /-- when there were changes which were not marked -/
  | unmarked
  | view (v : V D X)

/-- For the ids: the last answer of the worker, and the last answer which came back to the publisher. -/
structure Hist (D X : Type) where
  answered : Nat → Told D X := fun _ => .nothing
  known : Nat → Told D X := fun _ => .nothing

def told (s : H D X) : Told D X := if s.dirty then .unmarked else .view (s.view .names)

def Hist.next (st : St D X) (l : Hist D X) : Op D X → Hist D X
  | .answer i => match st.reqs[i]? with
    | none => l
    | some r => { l with answered := fun k => if k = r.id then told (st.srv r.hier) else l.answered k }
  | .reply i => match st.reps[i]? with
    | some ⟨n, some _⟩ => { l with known := fun k => if k = n then l.answered n else l.known k }
    | _ => l
  | _ => l

inductive Reach : St D X → Hist D X → Prop
  | init (top : String) (name : Nat → String) :
      Reach { loc := .empty top, srv := fun k => .node { name := name k, dns := default, val := default } [] } {}
  | step {st : St D X} {l : Hist D X} (op : Op D X) : Reach st l → Legal st op → Reach (step prod stamp st op) (l.next st op)

/-- The folder shows the hierarchy as it was told, with the producer. -/
def Shows (w : String) (t : T D X) : Told D X → Prop
  | .nothing => t.ch = [] ∧ t = .empty t.name
  | .unmarked => True
  | .view (.node _ c ch) => ∃ y val, t = .node t.name (prod w y) val t.ch ∧ content .names y val = c ∧ tviewL .names t.ch = ch

end Verif.PublReg
