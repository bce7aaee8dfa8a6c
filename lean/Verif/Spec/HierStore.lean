import Verif.HierStore

/-! # What is expected of stored hierarchies -/

namespace Verif.HierStore
open Verif.Hierarchy
variable {D X : Type} [Inhabited D] [Inhabited X]

/-- Reading all records of a file one after the other. -/
def replay (name : String) (recs : List (Option (Msg D X))) : T D X :=
  recs.foldl (fun t r => match r with | some m => apply m t | none => t) (.empty name)

/-- Records of the file. -/
def recsOf (n : Nat) (disk : List (File D X)) : List (Option (Msg D X)) :=
  match disk.find? fun f => f.name = n with
  | some f => f.recs
  | none => []

/-- Somebody following the opened file, as a client of the hierarchy. -/
def follower (s : St D X) : Sys D X :=
  match s.cur with
  | none => ⟨s.h, .empty s.h.name, 0⟩
  | some n => ⟨s.h, replay s.h.name (recsOf n s.disk), s.lastVersion⟩

/-- The hierarchy as it was when something was stored; `all`: there were no unmarked changes, or the complete hierarchy was stored. -/
structure Snap (D X : Type) where
  file : Nat
  view : V D X
  all : Bool

/-- What a request stores in which file. -/
def snaps (s : St D X) (io : Io) : List (Snap D X) :=
  (match s.doStore, s.cur with
    | true, some n => [⟨n, s.h.view .full, !s.h.dirty⟩]
    | _, _ => []) ++
  if s.doFlush then [⟨io.clock / 1000000, s.h.view .full, true⟩] else []

inductive Op (D X : Type) where
  | change (op : HOp D X) (tm : Nat)
  | check (now : Nat) (storePeriod flushPeriod : Int)
  | exec (io : Io)

variable (setTm stamp : Nat → X → X)

def step (s : St D X) : Op D X → St D X
  | .change op tm => { s with h := (Sys.step .full (stamp tm) (follower s) op).s }
  | .check now sp fp => (check now sp fp s).1
  | .exec io => exec setTm stamp io s

/-- Names are not used again while the file has them (as in C52), nothing fails and no two files are started in the same second. -/
def Legal (s : St D X) : Op D X → Prop
  | .change op _ => HLegal .full (follower s) op
  | .check _ _ _ => True
  | .exec io => io.diff = .ok ∧ io.opn = true ∧ io.full = .ok ∧ ∀ f ∈ s.disk, f.name ≠ io.clock / 1000000

/-- Everything which can happen, with what was stored. -/
inductive Reach : St D X → List (Snap D X) → Prop
  | init (name : String) : Reach { h := .node { name := name, dns := default, val := default } [] } []
  | step {s : St D X} {l : List (Snap D X)} (op : Op D X) : Reach s l → Legal s op →
      Reach (step setTm stamp s op) (l ++ match op with | .exec io => snaps s io | _ => [])

/-- The records of a file give the hierarchies which were stored, one after the other. -/
def Tells (name : String) (recs : List (Option (Msg D X))) (sn : List (Snap D X)) : Prop :=
  recs.length = sn.length ∧ (∀ r ∈ recs, r.isSome = true) ∧ ∀ i x, sn[i]? = some x → x.all = true → (replay name (recs.take (i + 1))).view .full = x.view

/-- The publisher looks again and again at the time; when it is time for it, the worker stores.  What is stored when: time, difference, full hierarchy. -/
def visits (storePeriod flushPeriod : Int) : St D X → List (Nat × Io) → List (Nat × Bool × Bool)
  | _, [] => []
  | s, (now, io) :: cs =>
    let r := check now storePeriod flushPeriod s
    if r.2 then (now, r.1.doStore, r.1.doFlush) :: visits storePeriod flushPeriod (exec setTm stamp io r.1) cs
    else visits storePeriod flushPeriod r.1 cs

/-- Consecutive elements, beginning with `a`, are in the relation. -/
def Linked (R : Nat → Nat → Prop) : Nat → List Nat → Prop
  | _, [] => True
  | a, b :: l => R a b ∧ Linked R b l

end Verif.HierStore
