import Verif.WaitEvent

/-!
# What is expected of a thread which waits for events

Read off the history only: which events were fired (or found in sockets) and
not yet returned.
-/

namespace Verif.WaitEvent.Spec

open Verif.WaitEvent

/-! ## `dabc::Thread` -/

/-- The waiting events after one more step of the history; `none`: an event was
returned which was not waiting, or no event though there was one. -/
def after (p : Option (List Nat)) (e : Cond.Ev) : Option (List Nat) :=
  match p with
  | none => none
  | some l =>
    match e with
    | .post e => some (l ++ [e])
    | .ret (some e) => if e ∈ l then some (l.erase e) else none
    | .ret none => if l = [] then some [] else none

/-- The events which wait after a history. -/
def waiting (h : List Cond.Ev) : Option (List Nat) := h.foldl after (some [])

/-! ## `dabc::SocketThread` -/

/-- The events which a result of `poll` means. -/
def means (i : Nat) (r : Sock.Rev) : List Sock.Ev :=
  [(r.err, Sock.Ev.err i), (r.inp, .read i), (r.out, .write i)].filterMap fun x => if x.1 then some x.2 else none

/-- What an entry of the history brings. -/
def brings : Sock.Rec → List Sock.Ev
  | .post e => [.user e]
  | .polled l => (l.map fun x => means x.1 x.2).flatten
  | .ret _ => []

/-- What it takes away. -/
def takes : Sock.Rec → List Sock.Ev
  | .ret (some e) => [e]
  | _ => []

/-- All events which came up, and all which were returned. -/
def brought (h : List Sock.Rec) : List Sock.Ev := (h.map brings).flatten
def taken (h : List Sock.Rec) : List Sock.Ev := (h.map takes).flatten

/-- Worker `i` wants its socket to be looked at. -/
def Wanted (l : List (Option Sock.Addon)) (u : Sock.Ufd) : Prop :=
  u.indx ≠ 0 ∧ (u.inp = true ∨ u.out = true) ∧ l[u.indx]? = some (some ⟨true, u.inp, u.out⟩)

end Verif.WaitEvent.Spec
