import Verif.ConnMgr

/-!
# What the connection manager has to do

Everything is said about the operations and the output of the manager.
-/

namespace Verif.ConnMgr.Spec

/-- How a record may go on. -/
inductive Next : Progress → Progress → Prop
  | prepare : Next .init .doingInit
  | prepared : Next .doingInit .pending
  | ask : Next .pending .waitReply
  | refused : Next .waitReply .pending
  | accepted : Next .waitReply .doingConnect
  | asked : Next .pending .doingConnect
  | done : Next .doingConnect .connected
  | fail (p) : Next p .failed
  | rest : Next .connected .init
  | again : Next .failed .init
  | first : Next .init .init

/-- `Legal p l q`: from `p`, the steps `l` lead to `q`. -/
inductive Legal : Progress → List Progress → Progress → Prop
  | nil (p) : Legal p [] p
  | snoc {p l q r} : Legal p l q → Next q r → Legal p (l ++ [r]) r

/-- The progress of one record in the output. -/
def progressOf (id : Nat) (l : List Out) : List Progress :=
  l.filterMap fun o => match o with
    | .progress k p => if k = id then some p else none
    | _ => none

/-- Number of answers to a command. -/
def answered (c : Nat) (l : List Out) : Nat :=
  l.countP fun o => match o with
    | .answer k _ => k == c
    | _ => false

/-- The command which an operation brings. -/
def brings : Op → Option Nat
  | .globalConnect _ c _ _ _ => some c
  | .activate c => some c
  | .shutdown c => some c
  | _ => none

/-- How often a command came. -/
def received (c : Nat) (ops : List Op) : Nat := ops.countP fun o => brings o == some c

/-- Commands which are not yet answered. -/
def waiting (m : Mgr) (c : Nat) : Nat :=
  (if m.cmd = some c then 1 else 0) + m.recs.countP fun id => (m.objs id).remote == some c

/-- Nothing has happened yet. -/
structure Fresh (m : Mgr) : Prop where
  recs : m.recs = []
  cmd : m.cmd = none
  out : m.out = []
  progress : ∀ id, (m.objs id).progress = .init
  remote : ∀ id, (m.objs id).remote = none
  connId : ∀ id, (m.objs id).connId = none

/-- How long a record still has to wait when `d` has passed: a newly set delay counts from now. -/
def remains (r : Rec) (d : Int) : Int := if r.set > 0 then r.set else r.acc - d

/-- What becomes of a record whose delay is over; `device` = its device and its port are there, `address` = the
address of the other side can be understood. -/
inductive Due (device : Prop) (address server : Bool) : Progress → Progress → Prop
  | start : device → Due device address server .init .doingInit
  | noDevice : ¬device → Due device address server .init .failed
  | silent : Due device address server .doingInit .failed
  | server : server = true → Due device address server .pending .pending
  | ask : server = false → address = true → Due device address server .pending .waitReply
  | noAddress : server = false → address = false → Due device address server .pending .failed
  | other (p) : p ≠ .init → p ≠ .doingInit → p ≠ .pending → Due device address server p p

/-- A record which no longer needs the manager. -/
def over (p : Progress) : Prop := p = .failed ∨ p = .connected

/-- The answer to the activating command in a check: `must` = a required record failed, `rest` = the others which
are not over. -/
inductive Verdict (failed : Prop) (rest : List Nat) (opt : Nat → Bool) (finish : Bool) : Option Res → Prop
  | no : failed → Verdict failed rest opt finish (some .no)
  | all : ¬failed → rest = [] → Verdict failed rest opt finish (some .ok)
  | optional : ¬failed → rest ≠ [] → finish = true → (∀ id ∈ rest, opt id = true) →
      Verdict failed rest opt finish (some .ok)
  | late : ¬failed → finish = true → (∃ id ∈ rest, opt id = false) → Verdict failed rest opt finish (some .timedout)
  | wait : ¬failed → rest ≠ [] → finish = false → Verdict failed rest opt finish none

/-- Answer to a connection request from another node by progress of the record; `none`: the command is kept until
the device answers. -/
inductive Reply (dev : Bool) : Option Progress → Option Res → Prop
  | unknown : Reply dev none (some .no)
  | early (p) : p = .init ∨ p = .doingInit → Reply dev (some p) (some .again)
  | start : dev = true → Reply dev (some .pending) none
  | noDevice : dev = false → Reply dev (some .pending) (some .no)
  | wrong (p) : p = .waitReply ∨ p = .doingConnect ∨ over p → Reply dev (some p) (some .no)

/-- What the server tells about its record. -/
def infoOf (r : Rec) : Info :=
  { connId := r.connId, serverId := r.serverId, inline := r.inline, timeout := r.timeout, ackn := r.ackn }

/-- The identifiers which the server gave away. -/
def given (l : List Out) : List ConnId :=
  l.filterMap fun o => match o with
    | .filled _ i => some i.connId
    | _ => none

end Verif.ConnMgr.Spec
