import Verif.AppState

/-!
# What is expected of the state machine of an application
-/

namespace Verif.AppState.Spec

open Verif.AppState

/-- How often the state command `c` came. -/
def came (c : Nat) : List Op → Nat
  | [] => 0
  | .cmd c' _ _ :: l => (if c' = c then 1 else 0) + came c l
  | _ :: l => came c l

/-- How often it was answered. -/
def answered (s : App) (c : Nat) : Nat := s.replies.countP fun r => r.1 == c

/-- How often it is still carried out. -/
def underWay (s : App) (c : Nat) : Nat := s.pend.countP fun r => r.1 == c

/-- Somebody else created the object. -/
def Foreign (k : Kind) (n : Nat) (ops : List Op) : Prop := Op.create k n ∈ ops

/-- The manager has the object. -/
def Exists (s : App) (k : Kind) (n : Nat) : Prop :=
  match k with
  | .device => n ∈ s.mDevs
  | .pool => n ∈ s.mPools
  | .module => ∃ b, (n, b) ∈ s.mMods
  | .other => False

/-- The object is registered in the application. -/
def Registered (s : App) (k : Kind) (n : Nat) : Prop :=
  match k with
  | .device => n ∈ s.devs
  | .pool => n ∈ s.pools
  | .module => n ∈ s.mods
  | .other => False

/-- The configuration asks for the object. -/
def Wanted (k : Kind) (n : Nat) : Init → Prop
  | .own devs pools mods =>
    match k with
    | .device => n ∈ devs
    | .pool => n ∈ pools
    | .module => n ∈ mods
    | .other => False
  | .cfg devs pools mods _ =>
    match k with
    | .device => ∃ d ∈ devs, d.name = some n ∧ d.cls = true
    | .pool => ∃ d ∈ pools, d.name = some n
    | .module => ∃ d ∈ mods, d.name = some n ∧ d.cls = true ∧ d.pub = false
    | .other => False

/-- All registered modules of the manager run, or all of them stand. -/
def All (s : App) (b : Bool) : Prop := ∀ n ∈ s.mods, ∀ r, (n, r) ∈ s.mMods → r = b

/-- Nothing can fail: every object can be created and no connections are needed. -/
def Smooth : Init → Prop
  | .own .. => True
  | .cfg devs pools mods conns =>
    (∀ d ∈ devs, d.ok = true) ∧ (∀ d ∈ pools, d.ok = true ∧ d.name ≠ none) ∧
      (∀ d ∈ mods, d.ok = true ∧ d.ports = true ∧ d.name ≠ none) ∧ conns = false

end Verif.AppState.Spec
