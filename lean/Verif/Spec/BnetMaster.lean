import Verif.BnetMaster

/-!
# What the master of a builder network has to do

Everything here is said about the list of what came in and what was done.
-/

namespace Verif.BnetMaster.Spec

/-- The command with which something came in. -/
def cmdOf : Op → Option Nat
  | .run c _ _ => some c.id
  | .refresh id _ => some id
  | .reset id _ => some id
  | .other id => some id
  | _ => none

/-- Commands received. -/
def received : List Ev → List Nat
  | [] => []
  | .got op :: l => (cmdOf op).toList ++ received l
  | _ :: l => received l

/-- Commands answered. -/
def answered : List Ev → List Nat
  | [] => []
  | .answer id _ :: l => id :: answered l
  | _ :: l => answered l

/-- Commands not yet answered. -/
def pending (s : St) : List Nat :=
  s.cur.toList.map RunCmd.id ++ s.initCmd.toList.map RunCmd.id ++ s.refreshCmd.toList.map Prod.fst

def isOrder (cnt : Nat) : Ev → Bool
  | .order _ c _ _ _ => c == cnt
  | _ => false

def isReply (cnt : Nat) : Ev → Bool
  | .got (.subReply c _ _) => c == cnt
  | _ => false

def isRefreshOrder (cnt : Nat) : Ev → Bool
  | .refreshOrder _ c _ => c == cnt
  | _ => false

def isRefreshReply (cnt : Nat) : Ev → Bool
  | .got (.refreshReply c _ _) => c == cnt
  | _ => false

def isCtrlOrder (cnt : Nat) : Ev → Bool
  | .ctrlOrder c _ _ => c == cnt
  | _ => false

def isCtrlReply (cnt : Nat) : Ev → Bool
  | .got (.ctrlReply c _ _ _) => c == cnt
  | _ => false

/-- A command as it comes from a user, without the fields the module sets itself. -/
def Fresh (c : RunCmd) : Prop :=
  c.verified = false ∧ c.calibrRun = false ∧ c.calibrRunId = 0

/-- A command sent to a node is replied at most once, and not before it is sent. -/
def Valid (log : List Ev) : Op → Prop
  | .run c _ _ => Fresh c
  | .subReply cnt _ _ => log.countP (isReply cnt) < log.countP (isOrder cnt)
  | .refreshReply cnt _ _ => log.countP (isRefreshReply cnt) < log.countP (isRefreshOrder cnt)
  | .ctrlReply id _ _ _ => log.countP (isCtrlReply id) < log.countP (isCtrlOrder id)
  | _ => True

/-- The states the module comes to. -/
inductive Reach (cfg : Cfg) : St → Prop
  | init (calibrRunId : Nat) : Reach cfg (St.init calibrRunId)
  | step (s : St) (op : Op) : Reach cfg s → Valid s.log op → Reach cfg (step cfg s op)

/-- What may happen after state `s`. -/
inductive Steps (cfg : Cfg) (s : St) : St → Prop
  | refl : Steps cfg s s
  | step (t : St) (op : Op) : Steps cfg s t → Valid t.log op → Steps cfg s (step cfg t op)

/-- Every order with this number was replied. -/
def AllReplied (log : List Ev) (cnt : Nat) : Prop :=
  log.countP (isReply cnt) = log.countP (isOrder cnt)

def AllRefreshed (log : List Ev) (cnt : Nat) : Prop :=
  log.countP (isRefreshReply cnt) = log.countP (isRefreshOrder cnt)

/-- Why a command may be answered `true` or `false`. -/
inductive Why (s : St) (op : Op) : Nat → Bool → Prop
  /-- the last reply to the orders for this command came in -/
  | done (id cnt : Nat) (ok : Bool) (q : Option Rat) : op = .subReply cnt ok q →
      (∃ b n x, Ev.order id cnt b n x ∈ s.log) →
      (∀ i b n x, Ev.order i cnt b n x ∈ s.log → i = id) →
      AllReplied (s.log ++ [.got op]) cnt → Why s op id true
  | refreshed (id cnt : Nat) (ok : Bool) (q : Option Rat) : op = .refreshReply cnt ok q →
      (∃ n, Ev.refreshOrder id cnt n ∈ s.log) →
      (∀ i n, Ev.refreshOrder i cnt n ∈ s.log → i = id) →
      AllRefreshed (s.log ++ [.got op]) cnt → Why s op id true
  /-- there is nobody to order anything -/
  | noBuilders (c : RunCmd) (p : Bool) (n : Nat) : op = .run c p n → s.builders = [] →
      Why s op c.id true
  | reset (id : Nat) (p : Bool) : op = .reset id p → Why s op id p
  | other (id : Nat) : op = .other id → Why s op id true
  /-- another run command is not completed -/
  | busy (c d : RunCmd) (p : Bool) (n : Nat) : op = .run c p n → s.cur = some d →
      Why s op c.id false
  | noPublisher (c : RunCmd) (n : Nat) : op = .run c false n → Why s op c.id false
  | refreshBusy (id : Nat) (p : Bool) (d : Nat × Rat) : op = .refresh id p →
      s.refreshCmd = some d → Why s op id false
  | refreshNoPublisher (id : Nat) : op = .refresh id false → Why s op id false
  | timeout (c : RunCmd) (b : Bool) : op = .timer true b → s.cur = some c → Why s op c.id false
  | initTimeout (w : RunCmd) (b : Bool) : op = .timer b true → s.initCmd = some w →
      Why s op w.id false
  /-- a newer StartRun waits for the builders instead -/
  | replaced (c w : RunCmd) (p : Bool) (n : Nat) : op = .run c p n → 0 < c.oninit →
      s.initCmd = some w → Why s op w.id false
  /-- the waiting StartRun found another run command or no publisher -/
  | initRefused (w : RunCmd) (items : List NameItem) (o p : Bool) (n : Nat) :
      op = .names items o p n → s.initCmd = some w → (s.cur ≠ none ∨ p = false) →
      Why s op w.id false

/-- Qualities in the replies to the orders with number `cnt`. -/
def qualities (cnt : Nat) : List Ev → List Rat
  | [] => []
  | .got (.subReply c _ (some q)) :: l => if c = cnt then q :: qualities cnt l else qualities cnt l
  | _ :: l => qualities cnt l

/-- Qualities in the replies to a refresh; 1 when none is given. -/
def refreshQualities (cnt : Nat) : List Ev → List Rat
  | [] => []
  | .got (.refreshReply c _ q) :: l =>
    if c = cnt then q.getD 1 :: refreshQualities cnt l else refreshQualities cnt l
  | _ :: l => refreshQualities cnt l

/-- `m` is the smallest of 1 and the given numbers. -/
def IsMin (m : Rat) (l : List Rat) : Prop := m ∈ 1 :: l ∧ ∀ q ∈ 1 :: l, m ≤ q

/-- The run the builders have to write after an event. -/
def runAfter (r : Nat) : Ev → Nat
  | .order _ _ true _ q => q.runid.getD 0
  | _ => r

/-- The run the builders were last told to write: the run id of the last order, 0 for a stop. -/
def lastRun (l : List Ev) : Nat := l.foldl runAfter 0

/-- The user wants a file: not for the prefix "NO_FILE" or "--", and an empty prefix means
the one used before. -/
def WantsFile (c : RunCmd) (lastPfx : String) : Prop :=
  c.start = true ∧ c.pfx ≠ "NO_FILE" ∧ c.pfx ≠ "--" ∧
    (c.pfx = "" → lastPfx ≠ "" ∧ lastPfx ≠ "--")

/-- Number of times a run was started by the module itself. -/
def autoStarts (l : List Ev) : Nat := l.countP (· == .autoStart)

/-! ## The common state -/

/-- Entries of one reply, each with the part the node plays: an entry belongs to a builder
when it or an earlier one says "receiver". -/
def roles (isB : Bool) : List CtrlItem → List (Bool × CtrlItem)
  | [] => []
  | i :: r => (isB || i.receiver, i) :: roles (isB || i.receiver) r

/-- What the nodes reported in cycle `id`, in the order of time, each with `fNewRunTm` over. -/
def reports (id : Nat) : List Ev → List (Bool × Bool × CtrlItem)
  | [] => []
  | .got (.ctrlReply c _ items over) :: l =>
    if c = id then (roles false items).map (fun p => (over, p.1, p.2)) ++ reports id l
    else reports id l
  | _ :: l => reports id l

def builderReports (l : List (Bool × Bool × CtrlItem)) : List CtrlItem :=
  (l.filter (fun p => p.2.1)).map (fun p => p.2.2)

def inputReports (l : List (Bool × Bool × CtrlItem)) : List CtrlItem :=
  (l.filter (fun p => !p.2.1)).map (fun p => p.2.2)

/-- A builder that writes a file. -/
def HasRun (i : CtrlItem) : Prop := i.runid ≠ 0 ∧ i.runpfx ≠ ""

/-- The nodes agree: there are builders and inputs, every builder has all the inputs, every
input has all the builders. -/
structure Consistent (l : List (Bool × Bool × CtrlItem)) : Prop where
  someInput : inputReports l ≠ []
  someBuilder : builderReports l ≠ []
  inputs : ∀ b ∈ builderReports l, b.ninputs = (inputReports l).length
  builders : ∀ i ∈ inputReports l, i.nbuilders = (builderReports l).length

/-- All builders that write a file write the same run. -/
def SameRun (l : List (Bool × Bool × CtrlItem)) : Prop :=
  ∀ a ∈ builderReports l, ∀ b ∈ builderReports l, HasRun a → HasRun b →
    a.runid = b.runid ∧ a.runpfx = b.runpfx

/-- The run shown: the one of the first builder that writes a file. -/
def shownRun (l : List (Bool × Bool × CtrlItem)) : Nat × String :=
  match (builderReports l).find? (fun b => decide (b.runid ≠ 0) && decide (b.runpfx ≠ "")) with
  | some b => (b.runid, b.runpfx)
  | none => (0, "")

/-- StartRun commands received. -/
def startsReceived (l : List Ev) : Nat :=
  l.countP (fun e => match e with
    | .got (.run c _ _) => c.start
    | _ => false)

/-- The events end with a report of a builder that its file is too big, and neither the module
nor an order started a new file after it. -/
def TooBig (cfg : Cfg) (l : List Ev) : Prop :=
  ∃ pre id ok items post i, l = pre ++ Ev.got (.ctrlReply id ok items true) :: post ∧
    (true, i) ∈ roles false items ∧ 0 < cfg.maxRunSize ∧ cfg.maxRunSize * 1000000 < i.runsize ∧
    Ev.autoStart ∉ post ∧ ∀ j cnt b n q, Ev.order j cnt b n q ∈ post → q.start = false

end Verif.BnetMaster.Spec
