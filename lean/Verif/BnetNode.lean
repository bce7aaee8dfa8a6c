/-!
# The nodes of a builder network: run control in the combiner module

Model of the commands which the master of a builder network sends to its nodes
(`plugins/hadaq/src/CombinerModule.cxx`): `BnetFileControl` for builders, `BnetCalibrControl` and
`BnetCalibrRefresh` for inputs, with the replies of the transports they ask, and of the run
information which is written.

A step is one command, one reply of a transport, one timer event, one event built or the end of
the module.  Every step appends to `log` what came in and what was done.

Simplifications:
* the numbers of ports are fixed (`StartHldFile` and `StopHldFile` are not modelled);
* a file name is the pair of prefix and run number (`GenerateFileName`, 1532-1535);
* of the counters of a run only the number of events is kept;
* `fIsTerminating` is set when the module ends, no command comes afterwards;
* whether an output can send and whether there is a free buffer is given with the command.
-/

namespace Verif.BnetNode

/-- Configuration (`CombinerModule.cxx:84-132`): `recv` is `fBNETrecv`, `send` is `fBNETsend`,
`ora` is `fRunToOracle`. -/
structure Cfg where
  recv : Bool
  send : Bool
  ora : Bool
  nout : Nat
  nin : Nat
  calDir : String
  pack : String
deriving DecidableEq, Repr

/-- Command `BnetFileControl`: `till` is the time-out set by the sender, if any. -/
structure FileCmd where
  id : Nat
  mode : String
  runid : Nat
  pfx : String
  till : Option Rat
deriving DecidableEq, Repr

/-- Command `BnetCalibrControl`. -/
structure CalCmd where
  id : Nat
  mode : String
  runid : Nat
deriving DecidableEq, Repr

/-- What comes in. -/
inductive Op where
  /-- `BnetFileControl` at a time; `outs` tells for outputs 1, 2, … if they can take a buffer
  and if there is one in the pool. -/
  | file (c : FileCmd) (now : Rat) (outs : List (Bool × Bool))
  /-- The reply of output `k` to the `RestartTransport` of command `id`, with its result. -/
  | restarted (id k : Nat) (ok : Bool) (now : Rat)
  /-- Timer (`UpdateBnetInfo`). -/
  | timer (now : Rat)
  | calibr (c : CalCmd)
  /-- The reply of input `n` to the `TdcCalibrations` of command `id`. -/
  | calibrated (id n : Nat) (q : Rat)
  | refresh (id : Nat)
  /-- The reply of input `n` to the `CalibrRefresh` of command `id`. -/
  | refreshed (id n : Nat) (q : Rat)
  /-- An event is built. -/
  | build
  /-- `ModuleCleanup`. -/
  | exit (now : Rat)
deriving DecidableEq, Repr

/-- The time in a stop line: of the clock, or when another run began. -/
inductive StopAt where
  | clock (t : Rat)
  | run (r : Nat)
deriving DecidableEq, Repr

/-- A line of the run information file, with prefix and run as the file name. -/
inductive Line where
  | start (run : Nat) (pfx : String) (fileRun : Nat)
  | stop (run : Nat) (pfx : String) (fileRun : Nat) (at_ : StopAt) (events : Nat)
deriving DecidableEq, Repr

/-- What happens. -/
inductive Ev where
  | got (op : Op)
  /-- A command is answered; `q` is its field `quality`, if it has one. -/
  | ans (id : Nat) (ok : Bool) (q : Option Rat)
  /-- `RestartTransport` for output `k`. -/
  | restart (id k : Nat) (pfx : String)
  /-- `TdcCalibrations` for input `n`; `dir` is the run whose directory is given. -/
  | tdc (id n : Nat) (mode : String) (dir : Option Nat)
  /-- `CalibrRefresh` for input `n`. -/
  | refr (id n : Nat)
  /-- `FlushOutputBuffer`. -/
  | flush
  /-- A buffer of kind `mbt_HadaqStopRun` is sent to output `k`. -/
  | eol (k : Nat)
  | line (l : Line)
  /-- The directory of a run is made. -/
  | mkdir (run : Nat)
  /-- The script is called for the directory of a run. -/
  | packed (run : Nat)
  /-- An event gets run number and sequence number. -/
  | event (run seq : Nat)
deriving DecidableEq, Repr

/-- A `BnetFileControl` with mode "start" under way: `left` is `#replies`. -/
structure FilePend where
  id : Nat
  left : Int
  runid : Nat
  pfx : String
  till : Rat
deriving DecidableEq, Repr

/-- A `BnetCalibrControl` under way; `dir` is `#rundir`. -/
structure CalPend where
  id : Nat
  left : Int
  q : Rat
  mode : String
  dir : Option Nat
deriving DecidableEq, Repr

/-- A `BnetCalibrRefresh` under way. -/
structure RefPend where
  id : Nat
  left : Int
  q : Rat
deriving DecidableEq, Repr

/-- State (`CombinerModule.h:190-230`). -/
structure St where
  file : Option FilePend := none
  cal : Option CalPend := none
  ref : Option RefPend := none
  runNumber : Nat := 0
  pfx : String := ""
  built : Nat := 0
  log : List Ev := []
deriving DecidableEq, Repr

/-- `CombinerModule.cxx:90-93`: `run0` is `CreateRunId()`. -/
def St.init (cfg : Cfg) (pfx : String) (run0 : Nat) : St :=
  { pfx, runNumber := if cfg.recv || cfg.send then 0 else run0 }

def St.emit (s : St) (e : List Ev) : St := { s with log := s.log ++ e }

/-- `StoreRunInfoStart`, 1444-1463. -/
def storeStart (cfg : Cfg) (s : St) : St :=
  if !cfg.ora || s.runNumber == 0 then s
  else s.emit [.line (.start s.runNumber s.pfx s.runNumber)]

/-- `StoreRunInfoStop`, 1465-1494: `newrun` is 0 when not given. -/
def storeStop (cfg : Cfg) (onexit : Bool) (newrun : Nat) (now : Rat) (s : St) : St :=
  if !cfg.ora || s.runNumber == 0 then s
  else s.emit [.line (.stop s.runNumber s.pfx s.runNumber
    (if onexit || newrun == 0 then .clock now else .run newrun) s.built)]

/-- The numbers of the outputs for files, 1294, 1314. -/
def fileOuts (cfg : Cfg) : List Nat := (List.range cfg.nout).drop 1

/-- `fBnetFileCmd.Reply(cmd_false)` if there is one, 1289 and 362. -/
def dropFile (s : St) : St :=
  match s.file with
  | none => s
  | some p => ({ s with file := none } : St).emit [.ans p.id false none]

/-- Buffers for the end of run, 1313-1326. -/
def eols (outs : List (Bool × Bool)) (ks : List Nat) : List Ev :=
  (ks.filter fun k =>
    let o := outs.getD (k - 1) (false, false)
    o.1 && o.2).map .eol

/-- `BnetFileControl`, 1287-1330. -/
def fileCmd (cfg : Cfg) (c : FileCmd) (now : Rat) (outs : List (Bool × Bool)) (s : St) : St :=
  if cfg.nout < 2 then s.emit [.ans c.id false none]
  else
    let s := dropFile s
    if c.mode = "start" then
      let s := s.emit ((fileOuts cfg).map fun k => .restart c.id k c.pfx)
      { s with file := some ⟨c.id, cfg.nout - 1, c.runid, c.pfx, c.till.getD (now + 30)⟩ }
    else if c.mode = "stop" then
      let s := if s.runNumber ≠ 0 then storeStop cfg false 0 now s else s
      let s := { s with runNumber := 0 }
      let s := s.emit [.flush]
      let s := s.emit (eols outs (fileOuts cfg))
      s.emit [.ans c.id true none]
    else s.emit [.ans c.id true none]

/-- Reply to a `RestartTransport`, 1596-1611; the counters are reset by `ResetInfoCounters`,
1496-1515. -/
def restarted (cfg : Cfg) (now : Rat) (s : St) : St :=
  match s.file with
  | none => s
  | some p =>
    if p.left = 1 then
      let s := if s.runNumber ≠ 0 then storeStop cfg false p.runid now s else s
      let s := if p.pfx ≠ "" then { s with pfx := p.pfx } else s
      let s := { s with runNumber := p.runid }
      let s := { s with built := 0 }
      let s := storeStart cfg s
      ({ s with file := none } : St).emit [.ans p.id true none]
    else { s with file := some { p with left := p.left - 1 } }

/-- `UpdateBnetInfo`, 360-362. -/
def timer (cfg : Cfg) (now : Rat) (s : St) : St :=
  if cfg.recv then
    match s.file with
    | none => s
    | some p => if p.till ≤ now then dropFile s else s
  else s

/-- `fBnetCalibrCmd.Reply(cmd_false)` if there is one, 1358-1361. -/
def dropCal (s : St) : St :=
  match s.cal with
  | none => s
  | some p => ({ s with cal := none } : St).emit [.ans p.id false (some p.q)]

/-- `BnetCalibrControl`, 1353-1391. -/
def calibr (cfg : Cfg) (c : CalCmd) (s : St) : St :=
  if !cfg.send || cfg.nin == 0 then s.emit [.ans c.id true none]
  else
    let s := dropCal s
    let dir := if c.mode ≠ "start" ∧ cfg.calDir ≠ "" ∧ c.runid ≠ 0 then some c.runid else none
    let s := { s with cal := some ⟨c.id, cfg.nin, 1, c.mode, dir⟩ }
    let s := s.emit (dir.toList.map .mkdir)
    s.emit ((List.range cfg.nin).map fun n => .tdc c.id n c.mode dir)

/-- Reply to a `TdcCalibrations`, 1612-1635. -/
def calibrated (cfg : Cfg) (q : Rat) (s : St) : St :=
  match s.cal with
  | none => s
  | some p =>
    let p := if q < p.q then { p with q := q } else p
    if p.left = 1 then
      let s := if cfg.pack ≠ "" ∧ p.mode = "stop" then s.emit (p.dir.toList.map .packed) else s
      ({ s with cal := none } : St).emit [.ans p.id true (some p.q)]
    else { s with cal := some { p with left := p.left - 1 } }

/-- `fBnetRefreshCmd.Reply(cmd_false)` if there is one, 1397-1400. -/
def dropRef (s : St) : St :=
  match s.ref with
  | none => s
  | some p => ({ s with ref := none } : St).emit [.ans p.id false (some p.q)]

/-- `BnetCalibrRefresh`, 1392-1412. -/
def refresh (cfg : Cfg) (id : Nat) (s : St) : St :=
  if !cfg.send || cfg.nin == 0 then s.emit [.ans id true none]
  else
    let s := dropRef s
    let s := { s with ref := some ⟨id, cfg.nin, 1⟩ }
    s.emit ((List.range cfg.nin).map fun n => .refr id n)

/-- `fBnetCalibrCmd.GetInt("#replies")`: 0 without command. -/
def calLeft (s : St) : Int :=
  match s.cal with
  | none => 0
  | some p => p.left

/-- Reply to a `CalibrRefresh`, 1636-1644.  The number of replies is taken from the other
command. -/
def refreshed (q : Rat) (s : St) : St :=
  let num := calLeft s
  match s.ref with
  | none => s
  | some p =>
    let p := if q < p.q then { p with q := q } else p
    let p := { p with left := num - 1 }
    if num = 1 then ({ s with ref := none } : St).emit [.ans p.id true (some p.q)]
    else { s with ref := some p }

/-- An event is built, 1059 and 1125-1126. -/
def build (s : St) : St :=
  ({ s with built := s.built + 1 } : St).emit [.event s.runNumber (s.built + 1)]

/-- One step. -/
def act (cfg : Cfg) : Op → St → St
  | .file c now outs => fileCmd cfg c now outs
  | .restarted _ _ _ now => restarted cfg now
  | .timer now => timer cfg now
  | .calibr c => calibr cfg c
  | .calibrated _ _ q => calibrated cfg q
  | .refresh id => refresh cfg id
  | .refreshed _ _ q => refreshed q
  | .build => build
  | .exit now => storeStop cfg true 0 now

/-- One step with its entry in the log. -/
def step (cfg : Cfg) (s : St) (op : Op) : St := act cfg op (s.emit [.got op])

def run (cfg : Cfg) (s : St) : List Op → St
  | [] => s
  | op :: ops => run cfg (step cfg s op) ops

end Verif.BnetNode
