import Mathlib.Data.List.Forall2
import Verif.MbsComb

/-! # Specification of the MBS event builder -/

namespace Verif.MbsComb

open Verif.Bytes Verif.MbsIter

/-- A special event: from MBS, with a trigger number from the limit on. -/
def Special (c : Cfg) (k : ICfg) (e : Ev) : Prop := k.realMbs = true ∧ trigger e ≥ c.limit

/-- `nr` is the number of the event: taken from its header, or from the subevent with the given id. -/
def IsNumber (c : Cfg) (k : ICfg) (e : Ev) (nr : Word) : Prop :=
  (k.realNum = true ∧ nr = e.number &&& c.mask) ∨
  (k.realNum = false ∧ ∃ x ∈ e.subs, x.id = k.srcId ∧ k.srcShift + 4 ≤ x.data.length ∧ nr = BitVec.ofNat 32 (dec ((x.data.drop k.srcShift).take 4)) &&& c.mask)

/-- What the inputs contribute to an event: for each input its configuration and at most one event. -/
abbrev Parts := List (ICfg × Option Ev)

/-- The contributions alone. -/
def given (ps : Parts) : List (ICfg × Ev) := ps.filterMap fun q => q.2.map fun u => (q.1, u)

/-- `e` is built properly from the parts. -/
structure Merges (c : Cfg) (ps : Parts) (e : Ev) : Prop where
  /-- The subevents are those of the parts, in the order of the inputs. -/
  subs : e.subs = ((given ps).map fun q => q.2.subs).flatten
  /-- Trigger and number are those of one of the parts; of an obligatory MBS input, if there is one. -/
  head : ∃ q ∈ given ps, e.trig = q.2.trig ∧ e.number = q.2.number ∧
    ((∃ q' ∈ given ps, q'.1.opt = false ∧ q'.1.realMbs = true) → q.1.opt = false ∧ q.1.realMbs = true)
  /-- A special event is alone. Otherwise all parts have the same number, except those of inputs without numbers; when only complete events are
  built, every obligatory input contributes; when ids are checked, they are different. -/
  kind : (∃ q, given ps = [q] ∧ Special c q.1 q.2) ∨
    ((∃ nr, ∀ q ∈ given ps, q.1.noNum = false → ¬ Special c q.1 q.2 ∧ IsNumber c q.1 q.2 nr) ∧
      (c.complete = true → ∀ q ∈ ps, q.2 = none → q.1.opt = true) ∧
      (c.checkIds = true → (((given ps).map fun q => q.2.subs.map Sub.id).flatten).Nodup))

/-- Events of an input that are not used up. -/
def pending (i : Inp) : List Ev := i.cur.toList.map Cur.ev ++ i.rest ++ i.queue.flatten

/-- Events given out, and those in the output buffer. -/
def outputs (s : St) : List Ev := s.sent.flatten ++ (match s.out with | none => [] | some o => o.2)

/-- What happens to the module. -/
inductive Op where
  | build (env : Env)
  | timer (envs : List Env) (canSend : Bool)
  | arrive (n : Nat) (b : List Ev)

def Op.step (c : Cfg) (s : St) : Op → Option St
  | .build env => (buildEvent c env s).map fun q => q.1
  | .timer envs canSend => Verif.MbsComb.timer c envs canSend s
  | .arrive n b => some (Verif.MbsComb.arrive n b s)

def run (c : Cfg) : List Op → St → Option St
  | [], s => some s
  | o :: ops, s => (o.step c s).bind (run c ops)

/-- The module with these inputs before anything happens. -/
def init (ks : List ICfg) : St := { inps := ks.map fun k => ⟨k, none, [], []⟩, out := none, flush := false, sent := [], stops := 0 }

/-- Events that arrive at an input. -/
def arrived (n : Nat) (ops : List Op) : List Ev := (ops.filterMap fun o => match o with | .arrive m b => if m = n then some b else none | _ => none).flatten

/-! ## Complete events from increasing numbers -/

/-- The number of an event as far as it is compared. -/
def key (c : Cfg) (e : Ev) : Word := e.number &&& c.mask

/-- The event with the header: that of the first MBS input or else of the first. -/
def leader (ks : List ICfg) (l : List Ev) : Option Ev :=
  match (ks.zip l).find? (fun q => q.1.realMbs) with
  | some q => some q.2
  | none => l.head?

/-- Event made from one event of each input: all their subevents, with trigger and number of the leader. -/
def merge (ks : List ICfg) (l : List Ev) : Option Ev := (leader ks l).map fun h => { trig := h.trig, number := h.number, subs := (l.map Ev.subs).flatten }

/-- The events of all inputs with this number. -/
def withNumber (c : Cfg) (nr : Word) : List (List Ev) → Option (List Ev)
  | [] => some []
  | l :: ls =>
    match l.find? fun e => decide (key c e = nr) with
    | none => none
    | some e => (withNumber c nr ls).map fun r => e :: r

/-- Events that are to be built: one for every number that the first input delivers and all others as well. -/
def expected (c : Cfg) (ks : List ICfg) (ls : List (List Ev)) : List Ev :=
  match ls with
  | [] => []
  | l :: _ => l.filterMap fun e => (withNumber c (key c e) ls).bind (merge ks)

/-- Only complete events are built, from inputs with numbers in the headers that are all obligatory. -/
def Plain (c : Cfg) (ks : List ICfg) : Prop := c.complete = true ∧ ∀ k ∈ ks, k.realNum = true ∧ k.noNum = false ∧ k.optional = false

/-- Inputs with increasing numbers without overflow and without special events; the ids are different if that is checked. -/
structure Regular (c : Cfg) (ks : List ICfg) (ls : List (List Ev)) : Prop where
  sorted : ∀ l ∈ ls, l.Pairwise fun a b => key c a < key c b
  near : ∀ l ∈ ls, ∀ l' ∈ ls, ∀ a ∈ l, ∀ b ∈ l', (key c a).toNat - (key c b).toNat ≤ c.mask.toNat / 2
  usual : ∀ l ∈ ls, ∀ e ∈ l, trigger e < c.limit
  ids : c.checkIds = true → ∀ e ∈ expected c ks ls, (e.subs.map Sub.id).Nodup

def Op.envs : Op → List Env
  | .build env => [env]
  | .timer envs _ => envs
  | .arrive _ _ => []

/-- All inputs are connected during the call, and the buffers of the pool hold each of these events. -/
def Good (l : List Ev) (env : Env) : Prop := (∀ n, env.connected n = true) ∧ (∀ cap, env.pool = some cap → 28 ≤ cap ∧ ∀ e ∈ l, e.room ≤ cap) ∧ ∀ e ∈ l, e.room < 2 ^ 32

/-- The outputs accept a buffer, and the pool has one. -/
def Free (env : Env) : Prop := env.canSend = true ∧ env.pool.isSome = true

/-- The numbers are as near to each other as is allowed. -/
def Within (c : Cfg) (ls : List (List Ev)) : Prop :=
  c.tolerance = 0 ∨ ∀ l ∈ ls, ∀ l' ∈ ls, ∀ a ∈ l, ∀ b ∈ l', (key c a).toNat - (key c b).toNat ≤ c.tolerance.toNat

end Verif.MbsComb
