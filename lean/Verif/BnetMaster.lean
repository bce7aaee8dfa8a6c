/-
Model of the run control of a builder network: `hadaq::BnetMasterModule`
(plugins/hadaq/src/BnetMasterModule.cxx, plugins/hadaq/hadaq/BnetMasterModule.h).

The master receives the commands StartRun, StopRun, RefreshRun and ResetDAQ, sends orders
to the builder and input nodes through the publisher, and collects their replies.  It also
asks every node in turn for its state and shows one common state.

Inputs of the operations are everything decided elsewhere: which nodes exist, what they
reply, whether a time-out is over, the run id made from the clock, whether there is a
publisher.

Simplified:
* the text of a query is kept as its fields (mode, runid, prefix);
* `double` is an exact rational number, `int` and `unsigned` do not overflow;
* the counters of events, data and lost events and the rates made from them are left out,
  as are the text of the field LastCalibr and the parameters that only repeat other ones;
* `nodes`, the second list kept by `AddItem`, holds the producer name already cut at its
  last "/".
-/

namespace Verif.BnetMaster

/-- A StartRun (`start`) or StopRun command with the fields the code reads or sets. -/
structure RunCmd where
  id : Nat
  start : Bool
  pfx : String := ""
  runid : Nat := 0
  oninit : Int := 0
  /-- `#verified` -/
  verified : Bool := false
  /-- `#calibr_run` -/
  calibrRun : Bool := false
  /-- `#calibr_runid` -/
  calibrRunId : Nat := 0
deriving DecidableEq, Repr

/-- Fields of the query given to BnetFileControl and BnetCalibrControl (lines 572-580,
603-608); `none` when the field is not in the text. -/
structure Query where
  start : Bool
  runid : Option Nat := none
  pfx : Option String := none
deriving DecidableEq, Repr

/-- An entry of the list of names; `bnet` is the field `_bnet`. -/
structure NameItem where
  bnet : Option String
  name : String
  node : String
deriving DecidableEq, Repr

/-- An entry with field `_bnet` in the reply of a node to a control request. -/
structure CtrlItem where
  /-- `_bnet` is "receiver" -/
  receiver : Bool
  state : String
  quality : Rat
  runsize : Nat := 0
  runid : Nat := 0
  runpfx : String := ""
  ninputs : Int := 0
  nbuilders : Int := 0
deriving DecidableEq, Repr

/-- What reaches the module. -/
inductive Op where
  /-- StartRun or StopRun; is there a publisher, id made by `CreateRunId` -/
  | run (c : RunCmd) (publ : Bool) (newId : Nat)
  | refresh (id : Nat) (publ : Bool)
  | reset (id : Nat) (publ : Bool)
  | other (id : Nat)
  /-- reply to a BnetFileControl or BnetCalibrControl order: `#bnet_cnt`, result, quality -/
  | subReply (cnt : Nat) (ok : Bool) (quality : Option Rat)
  /-- reply to a BnetCalibrRefresh order: `#refresh_cnt`, result, quality -/
  | refreshReply (cnt : Nat) (ok : Bool) (quality : Option Rat)
  /-- reply to the request for names; is the control time-out over -/
  | names (items : List NameItem) (ctrlOver : Bool) (publ : Bool) (newId : Nat)
  /-- reply to a control request: `#bnet_ctrl_id`, result, entries; is `fNewRunTm` over -/
  | ctrlReply (id : Nat) (ok : Bool) (items : List CtrlItem) (newRunOver : Bool)
  /-- the timer; have the current and the waiting command timed out -/
  | timer (curOver initOver : Bool)
deriving DecidableEq, Repr

/-- What happens, in the order of time: what came in and what the module does. -/
inductive Ev where
  | got (op : Op)
  /-- command `id` is replied with `cmd_true` or `cmd_false` -/
  | answer (id : Nat) (ok : Bool)
  /-- order for command `id`, with `#bnet_cnt`, to a builder or an input -/
  | order (id cnt : Nat) (builder : Bool) (node : String) (q : Query)
  | refreshOrder (id cnt : Nat) (node : String)
  /-- control request to a builder or an input -/
  | ctrlOrder (ctrlId : Nat) (builder : Bool) (node : String)
  | drop (node : String)
  /-- lastcalibr.txt is written -/
  | calibrFile (quality : Rat) (runid : Nat)
  /-- State and Quality, and the run, are shown -/
  | shown (state : String) (quality : Rat) (run : Option (Nat × String))
  /-- the module submits a StartRun to itself -/
  | autoStart
deriving DecidableEq, Repr

/-- Data of the control cycle, BnetMasterModule.h:55-73. -/
structure Ctrl where
  quality : Rat := 1
  name : String := ""
  inpCnt : Int := 0
  inpExpect : Int := 0
  bldCnt : Int := 0
  bldExpect : Int := 0
  runId : Nat := 0
  runPfx : String := ""
  /-- `fCtrlSzLimit`: 0 nothing, 1 check, 2 exceeded -/
  szLimit : Nat := 0
deriving DecidableEq, Repr

structure Cfg where
  /-- `fControl` -/
  control : Bool
  /-- `fMaxRunSize` in MB -/
  maxRunSize : Nat
deriving DecidableEq, Repr

/-- Members of the module, BnetMasterModule.h:39-76; `builders`, `inputs`, `masterRunId`,
`lastPfx` and `running` are fields of the hierarchy. -/
structure St where
  cur : Option RunCmd := none
  cmdCnt : Nat := 1
  replies : Int := 0
  quality : Rat := 1
  calibrRunId : Nat := 0
  /-- `fCurrentRefreshCmd` and its field `quality` -/
  refreshCmd : Option (Nat × Rat) := none
  refreshCnt : Nat := 1
  refreshReplies : Int := 0
  ctrlId : Nat := 1
  ctrlCnt : Int := 0
  ctrlError : Bool := false
  ctrlErrorCnt : Nat := 0
  ctrl : Ctrl := {}
  lastBuilders : List String := []
  same : Nat := 0
  initCmd : Option RunCmd := none
  builders : List String := []
  inputs : List String := []
  masterRunId : Nat := 0
  lastPfx : String := ""
  running : Bool := false
  log : List Ev := []

/-- The constructor, lines 23-116; the run id is the one read from lastcalibr.txt. -/
def St.init (calibrRunId : Nat) : St := { calibrRunId := calibrRunId }

def St.emit (s : St) (e : Ev) : St := { s with log := s.log ++ [e] }

def St.emits (s : St) (es : List Ev) : St := { s with log := s.log ++ es }

/-- `AddItem`, lines 118-134: before the first greater item. -/
def addItem (l : List (String × String)) (x : String × String) : List (String × String) :=
  match l with
  | [] => [x]
  | y :: r => if x.1 < y.1 then x :: y :: r else y :: addItem r x

/-- The lists `binp`/`nodes_inp` and `bbuild`/`nodes_build`, lines 182-196. -/
def collect (kind : String) (items : List NameItem) : List (String × String) :=
  items.foldl (fun l i => if i.bnet = some kind then addItem l (i.name, i.node) else l) []

/-- Is a file to be started, lines 521, 563-567. -/
def goStart (c : RunCmd) (lastPfx : String) : Bool :=
  c.start && !(c.pfx == "NO_FILE" || c.pfx == "--" ||
    (c.pfx == "" && (lastPfx == "--" || lastPfx == "")))

/-- The run id sent with a start, lines 560, 569-571; 0 when stopping. -/
def newRunId (c : RunCmd) (lastPfx : String) (newId : Nat) : Nat :=
  if goStart c lastPfx then (if c.runid = 0 then newId else c.runid) else 0

/-- The query for the builders, lines 572-580. -/
def fileQuery (c : RunCmd) (lastPfx : String) (newId : Nat) : Query :=
  if goStart c lastPfx then
    { start := true, runid := some (newRunId c lastPfx newId),
      pfx := if c.pfx = "" then none else some c.pfx }
  else { start := false }

/-- The query for the inputs, lines 603-608. -/
def calibrQuery (c : RunCmd) (lastPfx : String) (lastRunId newId : Nat) : Option Query :=
  if goStart c lastPfx && (c.pfx == "tc") && (lastPfx == "") then
    some { start := true, runid := some (newRunId c lastPfx newId) }
  else if !goStart c lastPfx && (lastPfx == "tc") then
    some { start := false, runid := some lastRunId }
  else none

/-- The orders of an accepted run command, lines 594-625. -/
def orders (s : St) (c : RunCmd) (newId : Nat) : List Ev :=
  s.builders.map (fun b =>
    Ev.order c.id (s.cmdCnt + 1) true b (fileQuery c s.lastPfx newId)) ++
  match calibrQuery c s.lastPfx s.masterRunId newId with
  | some q => s.inputs.map (fun b => Ev.order c.id (s.cmdCnt + 1) false b q)
  | none => []

/-- The accepted run command with its new fields, lines 611-612. -/
def marked (s : St) (c : RunCmd) (newId : Nat) : RunCmd :=
  match calibrQuery c s.lastPfx s.masterRunId newId with
  | some _ => { c with calibrRun := true, calibrRunId := s.masterRunId }
  | none => c

/-- Number of orders, `fCmdReplies`, lines 549, 598, 621. -/
def orderCnt (s : St) (c : RunCmd) (newId : Nat) : Int :=
  s.builders.length +
  match calibrQuery c s.lastPfx s.masterRunId newId with
  | some _ => (s.inputs.length : Int)
  | none => 0

/-- `ExecuteCommand` for StartRun and StopRun, lines 514-627; `none` is `cmd_postponed`. -/
def execRun (s : St) (c : RunCmd) (publ : Bool) (newId : Nat) : St × Option Bool :=
  if s.cur.isSome then (s, some false)
  else if c.start && decide (0 < c.oninit) && !c.verified then
    let s1 := match s.initCmd with
      | some i => s.emit (.answer i.id false)
      | none => s
    ({ s1 with initCmd := some c, same := 0 }, none)
  else if s.builders = [] then (s, some true)
  else if !publ then (s, some false)
  else
    ({ s with
        cur := some (marked s c newId)
        ctrl := if c.start then { s.ctrl with szLimit := 1 } else s.ctrl
        cmdCnt := s.cmdCnt + 1
        replies := orderCnt s c newId
        quality := 1
        running := true
        masterRunId := newRunId c s.lastPfx newId
        lastPfx := if goStart c s.lastPfx && !(c.pfx == "") then c.pfx else s.lastPfx
        log := s.log ++ orders s c newId }, none)

/-- The result of `ExecuteCommand` given back to the sender unless it is postponed. -/
def St.reply (p : St × Option Bool) (id : Nat) : St :=
  match p.2 with
  | some r => p.1.emit (.answer id r)
  | none => p.1

/-- `ExecuteCommand` for RefreshRun, lines 629-656. -/
def execRefresh (s : St) (id : Nat) (publ : Bool) : St × Option Bool :=
  if s.refreshCmd.isSome then (s, some false)
  else if !publ then (s, some false)
  else
    ({ s with
        refreshCmd := some (id, 1)
        refreshCnt := s.refreshCnt + 1
        refreshReplies := s.inputs.length
        log := s.log ++ s.inputs.map (fun b => Ev.refreshOrder id (s.refreshCnt + 1) b) },
      none)

/-- `ExecuteCommand` for ResetDAQ, lines 657-674. -/
def execReset (s : St) (publ : Bool) : St × Option Bool :=
  if !publ then (s, some false)
  else (s.emits (s.inputs.map Ev.drop ++ s.builders.map Ev.drop), some true)

/-- The current command stops a calibration run, line 298. -/
def stopCalibr (c : RunCmd) : Bool := !c.start && c.calibrRun

/-- `fCmdQuality`, lines 300-302. -/
def lowerQuality (c : RunCmd) (q0 : Rat) : Option Rat → Rat
  | some q => if stopCalibr c && decide (q < q0) then q else q0
  | none => q0

/-- `ReplyCommand` for `#bnet_cnt`, lines 291-314; the result of the reply is not read. -/
def subReply (s : St) (cnt : Nat) (q : Option Rat) : St :=
  match s.cur with
  | none => s
  | some c =>
    if cnt = s.cmdCnt then
      let s1 := { s with quality := lowerQuality c s.quality q, replies := s.replies - 1 }
      if s1.replies ≤ 0 then
        let s2 := ({ s1 with calibrRunId := c.calibrRunId, cur := none,
                             running := false } : St).emit (.answer c.id true)
        if stopCalibr c then s2.emit (.calibrFile s1.quality s2.calibrRunId) else s2
      else s1
    else s

/-- `ReplyCommand` for `#refresh_cnt`, lines 316-332. -/
def refreshReply (s : St) (cnt : Nat) (q : Option Rat) : St :=
  match s.refreshCmd with
  | none => s
  | some (id, q0) =>
    if cnt = s.refreshCnt then
      let q1 := if q.getD 1 < q0 then q.getD 1 else q0
      let s1 := { s with refreshCmd := some (id, q1), refreshReplies := s.refreshReplies - 1 }
      if s1.refreshReplies ≤ 0 then
        (({ s1 with refreshCmd := none } : St).emit (.answer id true)).emit
          (.calibrFile q1 s.calibrRunId)
      else s1
    else s

/-- The waiting StartRun with `oninit`, lines 198-213; the number compared with is the field
`oninit` of the request for names, which is never set: 0. -/
def checkInit (s : St) (bs : List String) (publ : Bool) (newId : Nat) : St :=
  if s.lastBuilders ≠ [] ∧ s.lastBuilders = bs then
    let s1 := { s with same := s.same + 1 }
    match s1.initCmd with
    | some i =>
      if 0 < s1.same then
        let p := execRun s1 { i with verified := true } publ newId
        { St.reply p i.id with initCmd := none }
      else s1
    | none => s1
  else { s with same := 0 }

/-- State and quality at the start of a cycle, lines 237-248, 270-282. -/
def cycleStart (s : St) (bs is : List String) (errCnt : Nat) : Ctrl :=
  if bs = [] ∧ is = [] then { quality := 0, name := "NoNodes", szLimit := s.ctrl.szLimit }
  else if is = [] then { quality := 0, name := "NoInputs", szLimit := s.ctrl.szLimit }
  else if bs = [] then { quality := 0, name := "NoBuilders", szLimit := s.ctrl.szLimit }
  else if 5 < errCnt then { quality := 1/10, name := "LostControl", szLimit := s.ctrl.szLimit }
  else { quality := 1, name := "", szLimit := s.ctrl.szLimit }

/-- A new control cycle, lines 224-289. -/
def newCycle (s : St) (bs is : List String) : St :=
  let err := s.ctrlError || decide (0 < s.ctrlCnt)
  let errCnt := if err then s.ctrlErrorCnt + 1 else 0
  let c := cycleStart s bs is errCnt
  let s1 := { s with
    ctrlErrorCnt := errCnt
    ctrlCnt := (bs.length : Int) + is.length
    ctrlId := s.ctrlId + 1
    ctrlError := false
    ctrl := c
    log := s.log ++ (bs.map (fun b => Ev.ctrlOrder (s.ctrlId + 1) true b) ++
      is.map (fun b => Ev.ctrlOrder (s.ctrlId + 1) false b)) }
  if c.name ≠ "" then s1.emit (.shown "NoNodes" c.quality none) else s1

/-- `ReplyCommand` for the list of names, lines 178-289. -/
def namesReply (s : St) (items : List NameItem) (ctrlOver publ : Bool) (newId : Nat) : St :=
  let bs := (collect "receiver" items).map Prod.fst
  let is := (collect "sender" items).map Prod.fst
  let s1 := checkInit s bs publ newId
  let s2 := { s1 with lastBuilders := bs, builders := bs, inputs := is }
  if s2.ctrlCnt ≠ 0 ∧ ctrlOver = false then s2
  else newCycle s2 bs is

/-- State and quality of the worst node, lines 361-367. -/
def worst (c : Ctrl) (i : CtrlItem) : Ctrl :=
  if c.name = "" ∨ i.quality < c.quality then { c with quality := i.quality, name := i.state }
  else c

/-- The size of the run, lines 376-378. -/
def bldSize (cfg : Cfg) (over : Bool) (c : Ctrl) (i : CtrlItem) : Ctrl :=
  if over && decide (0 < c.szLimit) && decide (0 < cfg.maxRunSize) &&
      decide (cfg.maxRunSize * 1000000 < i.runsize) then { c with szLimit := 2 } else c

/-- The run, lines 380-394. -/
def bldRun (over : Bool) (c : Ctrl) (i : CtrlItem) : Ctrl :=
  if i.runid ≠ 0 ∧ i.runpfx ≠ "" then
    if c.runId = 0 then { c with runId := i.runid, runPfx := i.runpfx }
    else if c.runId ≠ i.runid ∨ c.runPfx ≠ i.runpfx then
      if 0 < c.quality ∧ over = true then { c with name := "RunMismatch", quality := 0 } else c
    else c
  else c

/-- The number of inputs, lines 396-402. -/
def bldInputs (c : Ctrl) (i : CtrlItem) : Ctrl :=
  let c := if c.inpExpect = 0 then { c with inpExpect := i.ninputs } else c
  if c.inpExpect ≠ i.ninputs ∧ 0 < c.quality then
    { c with name := "InputsMismatch", quality := 0 } else c

/-- An entry of a builder, lines 376-402. -/
def bldItem (cfg : Cfg) (over : Bool) (c : Ctrl) (i : CtrlItem) : Ctrl :=
  bldInputs (bldRun over (bldSize cfg over c i) i) i

/-- An entry of an input, lines 405-410. -/
def inpItem (c : Ctrl) (i : CtrlItem) : Ctrl :=
  let c := if c.bldExpect = 0 then { c with bldExpect := i.nbuilders } else c
  if c.bldExpect ≠ i.nbuilders ∧ 0 < c.quality then
    { c with name := "BuildersMismatch", quality := 0 } else c

/-- One entry, lines 356-411; `isB` tells that this or an earlier entry of the same reply
was a receiver. -/
def ctrlItem (cfg : Cfg) (over : Bool) (c : Ctrl) (isB : Bool) (i : CtrlItem) : Ctrl :=
  let c := if isB then { c with bldCnt := c.bldCnt + 1 } else { c with inpCnt := c.inpCnt + 1 }
  let c := worst c i
  if isB then bldItem cfg over c i else inpItem c i

/-- All entries of a reply, lines 344-414. -/
def ctrlItems (cfg : Cfg) (over : Bool) (c : Ctrl) (isB : Bool) : List CtrlItem → Ctrl
  | [] => c
  | i :: r =>
    let isB := isB || i.receiver
    ctrlItems cfg over (ctrlItem cfg over c isB i) isB r

/-- The end of a cycle, lines 417-438. -/
def cycleEnd (c : Ctrl) : Ctrl :=
  let c := if c.name = "" then { c with name := "Ready", quality := 1 } else c
  let c := if c.inpCnt = 0 ∧ 0 < c.quality then { c with name := "NoInputs", quality := 0 } else c
  let c := if c.inpExpect ≠ c.inpCnt ∧ 0 < c.quality then
    { c with name := "InputsMismatch", quality := 0 } else c
  let c := if c.bldCnt = 0 ∧ 0 < c.quality then
    { c with name := "NoBuilders", quality := 0 } else c
  if c.bldExpect ≠ c.bldCnt ∧ 0 < c.quality then
    { c with name := "BuildersMismatch", quality := 0 } else c

/-- `ReplyCommand` for `#bnet_ctrl_id`, lines 334-485. -/
def ctrlReply (cfg : Cfg) (s : St) (id : Nat) (ok : Bool) (items : List CtrlItem)
    (over : Bool) : St :=
  if id = s.ctrlId then
    let s1 := { s with
      ctrlCnt := s.ctrlCnt - 1
      ctrlError := s.ctrlError || !ok
      ctrl := ctrlItems cfg over s.ctrl false items }
    if s1.ctrlCnt = 0 then
      let c := cycleEnd s1.ctrl
      let s2 := ({ s1 with ctrl := c, lastPfx := c.runPfx } : St).emit
        (.shown c.name c.quality (some (c.runId, c.runPfx)))
      if cfg.control && decide (1 < c.szLimit) && s2.cur.isNone then
        ({ s2 with ctrl := { c with szLimit := 0 } } : St).emit .autoStart
      else s2
    else s1
  else s

/-- `ProcessTimerEvent`, lines 494-510. -/
def timer (s : St) (curOver initOver : Bool) : St :=
  let s1 := match s.cur with
    | some c => if curOver then
        ({ s with cur := none, running := false } : St).emit (.answer c.id false) else s
    | none => s
  match s1.initCmd with
  | some i => if initOver then ({ s1 with initCmd := none } : St).emit (.answer i.id false) else s1
  | none => s1

/-- The module handles one thing at a time, in its thread. -/
def act (cfg : Cfg) (s : St) : Op → St
  | .run c publ newId => St.reply (execRun s c publ newId) c.id
  | .refresh id publ => St.reply (execRefresh s id publ) id
  | .reset id publ => St.reply (execReset s publ) id
  | .other id => s.emit (.answer id true)
  | .subReply cnt _ q => subReply s cnt q
  | .refreshReply cnt _ q => refreshReply s cnt q
  | .names items o p n => namesReply s items o p n
  | .ctrlReply id ok items over => ctrlReply cfg s id ok items over
  | .timer c i => timer s c i

def step (cfg : Cfg) (s : St) (op : Op) : St := act cfg (s.emit (.got op)) op

def run (cfg : Cfg) (s : St) (ops : List Op) : St := ops.foldl (step cfg) s

end Verif.BnetMaster
