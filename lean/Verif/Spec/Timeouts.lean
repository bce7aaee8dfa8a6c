import Verif.Timeouts

/-!
# What is expected of timeouts

For each slot on its own, read off the history: `due` is the time after which
`ProcessTimeout` is to be called, `since` the time from which the argument of
`ProcessTimeout` is counted.
-/

namespace Verif.Timeouts.Spec

open Verif.Timeouts

structure Slot where
  /-- request which the thread did not take over yet: time and interval -/
  req : Option (Nat × Option Nat) := none
  due : Option Nat := none
  since : Option Nat := none
  /-- all calls so far were in order -/
  ok : Bool := true
deriving DecidableEq, Repr

/-- A request is taken over: a negative interval cancels, any other sets the
time. -/
def take (p : Slot) : Slot :=
  match p.req with
  | none => p
  | some (_, none) => { p with req := none, due := none, since := none }
  | some (m, some t) =>
    { p with
      req := none
      due := some (m + t)
      since := match p.since with
        | some x => some x
        | none => if t = 0 then none else some m }

/-- The time since the last call. -/
def passed (p : Slot) (now : Nat) : Int :=
  match p.since with
  | none => 0
  | some x => (now : Int) - x

/-- A call is in order when it was due before and tells the time since the last
call. -/
def fired (p : Slot) (now : Nat) (diff : Int) : Slot :=
  { p with
    due := none
    ok := p.ok && (match p.due with
      | some d => decide (d < now)
      | none => false) && decide (diff = passed p now) }

/-- The result of `ProcessTimeout` tells when it is to be called again; a
negative result leaves what was requested meanwhile. -/
def finished (p : Slot) (now : Nat) (t : Option Nat) : Slot :=
  match t with
  | some k => { p with due := some (now + k), since := some now }
  | none => { p with since := none }

/-- What an event means for slot `i`. -/
def next (i : Nat) (p : Slot) (e : Ev) : Slot :=
  match e with
  | .act j m t => if j = i then { p with req := some (m, t) } else p
  | .taken j => if j = i then take p else p
  | .fire j now diff => if j = i then fired p now diff else p
  | .done j now t => if j = i then finished p now t else p

def slot (i : Nat) (l : List Ev) : Slot := l.foldl (next i) {}

/-- No worker runs the event loop inside of `ProcessTimeout`. -/
def Flat (a : Nat → Ans) : Prop := ∀ i j, Inner.event j ∉ (a i).inner

def FlatOp : Op → Prop
  | .event _ a => Flat a
  | .loop a => Flat a
  | _ => True

end Verif.Timeouts.Spec
