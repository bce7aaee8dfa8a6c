import Verif.BnetNode

/-!
# Specification of the run control in a node of a builder network

Everything here looks only at the log: what came in and what was done.
-/

namespace Verif.BnetNode.Spec

/-- The number of a command. -/
def cmdId : Op → Option Nat
  | .file c _ _ => some c.id
  | .calibr c => some c.id
  | .refresh id => some id
  | _ => none

/-- How often a command came in. -/
def received (log : List Ev) (id : Nat) : Nat :=
  log.countP fun e => match e with
    | .got op => cmdId op == some id
    | _ => false

/-- How often it was answered. -/
def answers (log : List Ev) (id : Nat) : Nat :=
  log.countP fun e => match e with
    | .ans i _ _ => i == id
    | _ => false

/-- What can happen: commands are new ones, a transport replies at most once to what it was
asked, and nothing happens after the end. -/
def Valid (log : List Ev) (op : Op) : Prop :=
  (∀ t, Ev.got (.exit t) ∉ log) ∧
  match op with
  | .restarted id k _ _ => (∃ p, Ev.restart id k p ∈ log) ∧
      ∀ b t, Ev.got (.restarted id k b t) ∉ log
  | .calibrated id n _ => (∃ m d, Ev.tdc id n m d ∈ log) ∧ ∀ q, Ev.got (.calibrated id n q) ∉ log
  | .refreshed id n _ => Ev.refr id n ∈ log ∧ ∀ q, Ev.got (.refreshed id n q) ∉ log
  | op => ∀ id, cmdId op = some id → received log id = 0

/-- The module comes from its start into state `s`. -/
inductive Reach (cfg : Cfg) (pfx : String) (run0 : Nat) : St → Prop where
  | init : Reach cfg pfx run0 (St.init cfg pfx run0)
  | step {s : St} (op : Op) : Reach cfg pfx run0 s → Valid s.log op →
      Reach cfg pfx run0 (step cfg s op)

/-- What is done in one step: the events after the one that came in. -/
def events (cfg : Cfg) (s : St) (op : Op) : List Ev :=
  (step cfg s op).log.drop (s.log.length + 1)

/-- The replies of outputs in a part of the log. -/
def restarts (log : List Ev) : List (Nat × Nat) :=
  log.filterMap fun e => match e with
    | .got (.restarted id k _ _) => some (id, k)
    | _ => none

/-- The replies of inputs to `TdcCalibrations` in a part of the log. -/
def calibrs (log : List Ev) : List (Nat × Nat × Rat) :=
  log.filterMap fun e => match e with
    | .got (.calibrated id n q) => some (id, n, q)
    | _ => none

/-- The run according to the log. -/
structure Track where
  /-- the commands seen -/
  cmds : List FileCmd := []
  /-- the run under way, 0 for none -/
  run : Nat := 0
  /-- the prefix of its files -/
  pfx : String := ""
  /-- the events since its start -/
  count : Nat := 0
deriving DecidableEq

/-- A confirmed start begins a new run, a confirmed stop ends it. -/
def track (t : Track) : Ev → Track
  | .got (.file c _ _) => { t with cmds := c :: t.cmds }
  | .event _ _ => { t with count := t.count + 1 }
  | .ans id true _ =>
    match t.cmds.find? (fun c => c.id == id) with
    | none => t
    | some c =>
      if c.mode = "start" then
        { t with run := c.runid, pfx := if c.pfx = "" then t.pfx else c.pfx, count := 0 }
      else if c.mode = "stop" then { t with run := 0 }
      else t
  | _ => t

/-- The run after everything in the log, when the module began with `run0` and `pfx`. -/
def tracked (pfx : String) (run0 : Nat) (log : List Ev) : Track :=
  log.foldl track { run := run0, pfx }

/-- The lines of the run information file. -/
def lines (log : List Ev) : List Line :=
  log.filterMap fun e => match e with
    | .line l => some l
    | _ => none

/-- Start and stop of runs follow each other, and a stop names the run and the file which was
started: the run and prefix which is open afterwards, if so. -/
def paired : Option (Nat × String) → List Line → Option (Option (Nat × String))
  | o, [] => some o
  | none, .start r p f :: ls => if f = r then paired (some (r, p)) ls else none
  | some (r, p), .stop r' p' f _ _ :: ls =>
      if r' = r ∧ p' = p ∧ f = r then paired none ls else none
  | _, _ => none

/-- Whether the module came to its end. -/
def ended (log : List Ev) : Bool :=
  log.any fun e => match e with
    | .got (.exit _) => true
    | _ => false

/-- The smallest quality of all, and 1. -/
def Smallest (x : Rat) (qs : List Rat) : Prop :=
  x ≤ 1 ∧ (∀ q ∈ qs, x ≤ q) ∧ (x = 1 ∨ x ∈ qs)

end Verif.BnetNode.Spec
