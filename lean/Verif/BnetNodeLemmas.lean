import Verif.Spec.BnetNode

/-!
# What each function does, as one update of the state
-/

namespace Verif.BnetNode

open Spec

/-- The lines written by `storeStop`. -/
def stopLines (cfg : Cfg) (onexit : Bool) (newrun : Nat) (now : Rat) (s : St) : List Ev :=
  if !cfg.ora || s.runNumber == 0 then []
  else [.line (.stop s.runNumber s.pfx s.runNumber
    (if onexit || newrun == 0 then .clock now else .run newrun) s.built)]

/-- The lines written by `storeStart`. -/
def startLines (cfg : Cfg) (run : Nat) (pfx : String) : List Ev :=
  if !cfg.ora || run == 0 then [] else [.line (.start run pfx run)]

def fileDrop : Option FilePend → List Ev
  | none => []
  | some p => [.ans p.id false none]

def calDrop : Option CalPend → List Ev
  | none => []
  | some p => [.ans p.id false (some p.q)]

def refDrop : Option RefPend → List Ev
  | none => []
  | some p => [.ans p.id false (some p.q)]

theorem storeStop_eq (cfg : Cfg) (b : Bool) (n : Nat) (now : Rat) (s : St) :
    storeStop cfg b n now s = s.emit (stopLines cfg b n now s) := by
  unfold storeStop stopLines
  split <;> simp [St.emit]

theorem storeStart_eq (cfg : Cfg) (s : St) :
    storeStart cfg s = s.emit (startLines cfg s.runNumber s.pfx) := by
  unfold storeStart startLines
  split <;> simp [St.emit]

theorem storeStop_if (cfg : Cfg) (b : Bool) (n : Nat) (now : Rat) (s : St) :
    (if s.runNumber ≠ 0 then storeStop cfg b n now s else s)
      = s.emit (stopLines cfg b n now s) := by
  split
  · exact storeStop_eq cfg b n now s
  · rename_i h
    have h0 : s.runNumber = 0 := by simpa using h
    have hs : stopLines cfg b n now s = [] := by simp [stopLines, h0]
    rw [hs]
    simp [St.emit]

theorem dropFile_eq (s : St) :
    dropFile s = { s with file := none, log := s.log ++ fileDrop s.file } := by
  unfold dropFile
  cases hf : s.file with
  | none => cases s; simp_all [fileDrop]
  | some p => simp [fileDrop, St.emit]

theorem dropCal_eq (s : St) :
    dropCal s = { s with cal := none, log := s.log ++ calDrop s.cal } := by
  unfold dropCal
  cases hf : s.cal with
  | none => cases s; simp_all [calDrop]
  | some p => simp [calDrop, St.emit]

theorem dropRef_eq (s : St) :
    dropRef s = { s with ref := none, log := s.log ++ refDrop s.ref } := by
  unfold dropRef
  cases hf : s.ref with
  | none => cases s; simp_all [refDrop]
  | some p => simp [refDrop, St.emit]

theorem fileCmd_small {cfg : Cfg} (hn : cfg.nout < 2) (c : FileCmd) (now : Rat)
    (outs : List (Bool × Bool)) (s : St) :
    fileCmd cfg c now outs s = { s with log := s.log ++ [.ans c.id false none] } := by
  simp [fileCmd, hn, St.emit]

theorem fileCmd_start {cfg : Cfg} (hn : ¬ cfg.nout < 2) {c : FileCmd} (hm : c.mode = "start")
    (now : Rat) (outs : List (Bool × Bool)) (s : St) :
    fileCmd cfg c now outs s =
      { s with
        file := some ⟨c.id, cfg.nout - 1, c.runid, c.pfx, c.till.getD (now + 30)⟩
        log := s.log ++ (fileDrop s.file
          ++ (fileOuts cfg).map fun k => .restart c.id k c.pfx) } := by
  simp [fileCmd, hn, hm, St.emit, dropFile_eq]

theorem fileCmd_stop {cfg : Cfg} (hn : ¬ cfg.nout < 2) {c : FileCmd} (hm : c.mode = "stop")
    (now : Rat) (outs : List (Bool × Bool)) (s : St) :
    fileCmd cfg c now outs s =
      { s with
        file := none
        runNumber := 0
        log := s.log ++ (fileDrop s.file ++ stopLines cfg false 0 now s ++ [.flush]
          ++ eols outs (fileOuts cfg) ++ [.ans c.id true none]) } := by
  unfold fileCmd
  rw [if_neg hn]
  dsimp only
  rw [if_neg (by rw [hm]; decide), if_pos hm, storeStop_if, dropFile_eq]
  simp [St.emit, stopLines]

theorem fileCmd_other {cfg : Cfg} (hn : ¬ cfg.nout < 2) {c : FileCmd} (h1 : c.mode ≠ "start")
    (h2 : c.mode ≠ "stop") (now : Rat) (outs : List (Bool × Bool)) (s : St) :
    fileCmd cfg c now outs s =
      { s with
        file := none
        log := s.log ++ (fileDrop s.file ++ [.ans c.id true none]) } := by
  simp [fileCmd, hn, h1, h2, St.emit, dropFile_eq]

theorem restarted_none {cfg : Cfg} {s : St} (h : s.file = none) (now : Rat) :
    restarted cfg now s = s := by simp [restarted, h]

theorem restarted_more {cfg : Cfg} {s : St} {p : FilePend} (h : s.file = some p)
    (hl : p.left ≠ 1) (now : Rat) :
    restarted cfg now s = { s with file := some { p with left := p.left - 1 } } := by
  simp [restarted, h, hl]

/-- The prefix after a start. -/
def newPfx (old new : String) : String := if new = "" then old else new

theorem restarted_last {cfg : Cfg} {s : St} {p : FilePend} (h : s.file = some p)
    (hl : p.left = 1) (now : Rat) :
    restarted cfg now s =
      { s with
        file := none
        pfx := newPfx s.pfx p.pfx
        runNumber := p.runid
        built := 0
        log := s.log ++ (stopLines cfg false p.runid now s
          ++ startLines cfg p.runid (newPfx s.pfx p.pfx) ++ [.ans p.id true none]) } := by
  unfold restarted
  rw [h]
  dsimp only
  rw [if_pos hl, storeStop_if, storeStart_eq]
  by_cases hp : p.pfx = ""
  · simp [hp, newPfx, St.emit]
  · simp [hp, newPfx, St.emit]

theorem timer_cases (cfg : Cfg) (now : Rat) (s : St) :
    timer cfg now s = s ∨
    ∃ p, s.file = some p ∧ cfg.recv = true ∧ p.till ≤ now ∧
      timer cfg now s = { s with file := none, log := s.log ++ [.ans p.id false none] } := by
  unfold timer
  split
  · split
    · exact .inl rfl
    · rename_i p hp
      split
      · rename_i hr _ ht
        refine .inr ⟨p, hp, hr, ht, ?_⟩
        rw [dropFile_eq, hp]
        rfl
      · exact .inl rfl
  · exact .inl rfl

/-- The run whose directory is given to the inputs. -/
def calDirOf (cfg : Cfg) (c : CalCmd) : Option Nat :=
  if c.mode ≠ "start" ∧ cfg.calDir ≠ "" ∧ c.runid ≠ 0 then some c.runid else none

theorem calibr_none {cfg : Cfg} (h : (!cfg.send || cfg.nin == 0) = true) (c : CalCmd) (s : St) :
    calibr cfg c s = { s with log := s.log ++ [.ans c.id true none] } := by
  unfold calibr
  rw [if_pos h]
  rfl

theorem calibr_some {cfg : Cfg} (h : ¬ (!cfg.send || cfg.nin == 0) = true) (c : CalCmd) (s : St) :
    calibr cfg c s =
      { s with
        cal := some ⟨c.id, cfg.nin, 1, c.mode, calDirOf cfg c⟩
        log := s.log ++ (calDrop s.cal ++ (calDirOf cfg c).toList.map Ev.mkdir
          ++ (List.range cfg.nin).map fun n => .tdc c.id n c.mode (calDirOf cfg c)) } := by
  unfold calibr
  rw [if_neg h]
  dsimp only
  rw [dropCal_eq]
  simp [St.emit, calDirOf]

theorem calibrated_none {cfg : Cfg} {s : St} (h : s.cal = none) (q : Rat) :
    calibrated cfg q s = s := by simp [calibrated, h]

/-- The smaller quality. -/
def lower (q old : Rat) : Rat := if q < old then q else old

theorem calibrated_more {cfg : Cfg} {s : St} {p : CalPend} (h : s.cal = some p)
    (hl : p.left ≠ 1) (q : Rat) :
    calibrated cfg q s =
      { s with cal := some { p with q := lower q p.q, left := p.left - 1 } } := by
  unfold calibrated lower
  rw [h]
  dsimp only
  by_cases hq : q < p.q
  · simp [hq, hl]
  · simp [hq, hl]

/-- The call of the script. -/
def packEv (cfg : Cfg) (p : CalPend) : List Ev :=
  if cfg.pack ≠ "" ∧ p.mode = "stop" then p.dir.toList.map Ev.packed else []

theorem calibrated_last {cfg : Cfg} {s : St} {p : CalPend} (h : s.cal = some p)
    (hl : p.left = 1) (q : Rat) :
    calibrated cfg q s =
      { s with
        cal := none
        log := s.log ++ (packEv cfg p ++ [.ans p.id true (some (lower q p.q))]) } := by
  unfold calibrated lower packEv
  rw [h]
  dsimp only
  by_cases hq : q < p.q
  · by_cases hc : cfg.pack ≠ "" ∧ p.mode = "stop"
    · simp [hq, hl, hc, St.emit]
    · simp [hq, hl, hc, St.emit]
  · by_cases hc : cfg.pack ≠ "" ∧ p.mode = "stop"
    · simp [hq, hl, hc, St.emit]
    · simp [hq, hl, hc, St.emit]

theorem refresh_none {cfg : Cfg} (h : (!cfg.send || cfg.nin == 0) = true) (id : Nat) (s : St) :
    refresh cfg id s = { s with log := s.log ++ [.ans id true none] } := by
  unfold refresh
  rw [if_pos h]
  rfl

theorem refresh_some {cfg : Cfg} (h : ¬ (!cfg.send || cfg.nin == 0) = true) (id : Nat) (s : St) :
    refresh cfg id s =
      { s with
        ref := some ⟨id, cfg.nin, 1⟩
        log := s.log ++ (refDrop s.ref ++ (List.range cfg.nin).map fun n => .refr id n) } := by
  unfold refresh
  rw [if_neg h]
  dsimp only
  rw [dropRef_eq]
  simp [St.emit]

theorem refreshed_none {s : St} (h : s.ref = none) (q : Rat) : refreshed q s = s := by
  simp [refreshed, h]

theorem refreshed_more {s : St} {p : RefPend} (h : s.ref = some p) (hl : calLeft s ≠ 1) (q : Rat) :
    refreshed q s =
      { s with ref := some { p with q := lower q p.q, left := calLeft s - 1 } } := by
  unfold refreshed lower
  rw [h]
  dsimp only
  by_cases hq : q < p.q
  · simp [hq, hl]
  · simp [hq, hl]

theorem refreshed_last {s : St} {p : RefPend} (h : s.ref = some p) (hl : calLeft s = 1) (q : Rat) :
    refreshed q s =
      { s with
        ref := none
        log := s.log ++ [.ans p.id true (some (lower q p.q))] } := by
  unfold refreshed lower
  rw [h]
  dsimp only
  by_cases hq : q < p.q
  · simp [hq, hl, St.emit]
  · simp [hq, hl, St.emit]

theorem exit_eq (cfg : Cfg) (now : Rat) (s : St) :
    act cfg (.exit now) s = { s with log := s.log ++ stopLines cfg true 0 now s } :=
  storeStop_eq cfg true 0 now s

theorem build_eq (s : St) :
    build s = { s with built := s.built + 1, log := s.log ++ [.event s.runNumber (s.built + 1)] } :=
  rfl

/-- One step: the state afterwards without its log, and what was done. -/
inductive Eff (cfg : Cfg) (s : St) : Op → St → List Ev → Prop where
  | small (c : FileCmd) (now : Rat) (outs : List (Bool × Bool)) (hn : cfg.nout < 2) :
      Eff cfg s (.file c now outs) s [.ans c.id false none]
  | start (c : FileCmd) (now : Rat) (outs : List (Bool × Bool)) (hn : ¬ cfg.nout < 2)
      (hm : c.mode = "start") :
      Eff cfg s (.file c now outs)
        { s with file := some ⟨c.id, cfg.nout - 1, c.runid, c.pfx, c.till.getD (now + 30)⟩ }
        (fileDrop s.file ++ (fileOuts cfg).map fun k => .restart c.id k c.pfx)
  | stop (c : FileCmd) (now : Rat) (outs : List (Bool × Bool)) (hn : ¬ cfg.nout < 2)
      (hm : c.mode = "stop") :
      Eff cfg s (.file c now outs) { s with file := none, runNumber := 0 }
        (fileDrop s.file ++ stopLines cfg false 0 now s ++ [.flush]
          ++ eols outs (fileOuts cfg) ++ [.ans c.id true none])
  | other (c : FileCmd) (now : Rat) (outs : List (Bool × Bool)) (hn : ¬ cfg.nout < 2)
      (h1 : c.mode ≠ "start") (h2 : c.mode ≠ "stop") :
      Eff cfg s (.file c now outs) { s with file := none }
        (fileDrop s.file ++ [.ans c.id true none])
  | idle (id k : Nat) (ok : Bool) (now : Rat) (h : s.file = none) :
      Eff cfg s (.restarted id k ok now) s []
  | more (id k : Nat) (ok : Bool) (now : Rat) (p : FilePend) (h : s.file = some p)
      (hl : p.left ≠ 1) :
      Eff cfg s (.restarted id k ok now)
        { s with file := some { p with left := p.left - 1 } } []
  | last (id k : Nat) (ok : Bool) (now : Rat) (p : FilePend) (h : s.file = some p)
      (hl : p.left = 1) :
      Eff cfg s (.restarted id k ok now)
        { s with
          file := none
          pfx := newPfx s.pfx p.pfx
          runNumber := p.runid
          built := 0 }
        (stopLines cfg false p.runid now s ++ startLines cfg p.runid (newPfx s.pfx p.pfx)
          ++ [.ans p.id true none])
  | tick (now : Rat) (h : ∀ p, s.file = some p → cfg.recv = true → ¬ p.till ≤ now) :
      Eff cfg s (.timer now) s []
  | timeout (now : Rat) (p : FilePend) (h : s.file = some p) (hr : cfg.recv = true)
      (ht : p.till ≤ now) :
      Eff cfg s (.timer now) { s with file := none } [.ans p.id false none]
  | calNone (c : CalCmd) (h : (!cfg.send || cfg.nin == 0) = true) :
      Eff cfg s (.calibr c) s [.ans c.id true none]
  | cal (c : CalCmd) (h : ¬ (!cfg.send || cfg.nin == 0) = true) :
      Eff cfg s (.calibr c) { s with cal := some ⟨c.id, cfg.nin, 1, c.mode, calDirOf cfg c⟩ }
        (calDrop s.cal ++ (calDirOf cfg c).toList.map Ev.mkdir
          ++ (List.range cfg.nin).map fun n => .tdc c.id n c.mode (calDirOf cfg c))
  | calIdle (id n : Nat) (q : Rat) (h : s.cal = none) : Eff cfg s (.calibrated id n q) s []
  | calMore (id n : Nat) (q : Rat) (p : CalPend) (h : s.cal = some p) (hl : p.left ≠ 1) :
      Eff cfg s (.calibrated id n q)
        { s with cal := some { p with q := lower q p.q, left := p.left - 1 } } []
  | calLast (id n : Nat) (q : Rat) (p : CalPend) (h : s.cal = some p) (hl : p.left = 1) :
      Eff cfg s (.calibrated id n q) { s with cal := none }
        (packEv cfg p ++ [.ans p.id true (some (lower q p.q))])
  | refNone (id : Nat) (h : (!cfg.send || cfg.nin == 0) = true) :
      Eff cfg s (.refresh id) s [.ans id true none]
  | ref (id : Nat) (h : ¬ (!cfg.send || cfg.nin == 0) = true) :
      Eff cfg s (.refresh id) { s with ref := some ⟨id, cfg.nin, 1⟩ }
        (refDrop s.ref ++ (List.range cfg.nin).map fun n => .refr id n)
  | refIdle (id n : Nat) (q : Rat) (h : s.ref = none) : Eff cfg s (.refreshed id n q) s []
  | refMore (id n : Nat) (q : Rat) (p : RefPend) (h : s.ref = some p) (hl : calLeft s ≠ 1) :
      Eff cfg s (.refreshed id n q)
        { s with ref := some { p with q := lower q p.q, left := calLeft s - 1 } } []
  | refLast (id n : Nat) (q : Rat) (p : RefPend) (h : s.ref = some p) (hl : calLeft s = 1) :
      Eff cfg s (.refreshed id n q) { s with ref := none }
        [.ans p.id true (some (lower q p.q))]
  | build : Eff cfg s .build { s with built := s.built + 1 }
      [.event s.runNumber (s.built + 1)]
  | exit (now : Rat) : Eff cfg s (.exit now) s (stopLines cfg true 0 now s)

/-- Every step is one of these. -/
theorem step_eff (cfg : Cfg) (s : St) (op : Op) :
    ∃ s' es, Eff cfg s op s' es ∧
      step cfg s op = { s' with log := s.log ++ .got op :: es } := by
  unfold step
  cases op with
  | file c now outs =>
    simp only [act]
    by_cases hn : cfg.nout < 2
    · exact ⟨_, _, .small c now outs hn, by rw [fileCmd_small hn]; simp [St.emit]⟩
    · by_cases h1 : c.mode = "start"
      · exact ⟨_, _, .start c now outs hn h1, by rw [fileCmd_start hn h1]; simp [St.emit]⟩
      · by_cases h2 : c.mode = "stop"
        · exact ⟨_, _, .stop c now outs hn h2, by
            rw [fileCmd_stop hn h2]; simp [St.emit, stopLines]⟩
        · exact ⟨_, _, .other c now outs hn h1 h2, by
            rw [fileCmd_other hn h1 h2]; simp [St.emit]⟩
  | restarted id k ok now =>
    simp only [act]
    cases hf : s.file with
    | none =>
      exact ⟨_, _, .idle id k ok now hf, by
        rw [restarted_none (s := s.emit [.got (.restarted id k ok now)]) hf]; simp [St.emit]⟩
    | some p =>
      by_cases hl : p.left = 1
      · exact ⟨_, _, .last id k ok now p hf hl, by
          rw [restarted_last (s := s.emit [.got (.restarted id k ok now)]) hf hl]
          simp [St.emit, stopLines]⟩
      · exact ⟨_, _, .more id k ok now p hf hl, by
          rw [restarted_more (s := s.emit [.got (.restarted id k ok now)]) hf hl]
          simp [St.emit]⟩
  | timer now =>
    simp only [act]
    by_cases hx : ∃ p, s.file = some p ∧ cfg.recv = true ∧ p.till ≤ now
    · obtain ⟨p, hf, hr, ht⟩ := hx
      refine ⟨_, _, .timeout now p hf hr ht, ?_⟩
      simp [timer, hr, ht, hf, St.emit, dropFile]
    · refine ⟨_, _, .tick now (fun p hf hr ht => hx ⟨p, hf, hr, ht⟩), ?_⟩
      rcases timer_cases cfg now (s.emit [.got (.timer now)]) with h | ⟨p, hf, hr, ht, _⟩
      · rw [h]; simp [St.emit]
      · exact absurd ⟨p, hf, hr, ht⟩ hx
  | calibr c =>
    simp only [act]
    by_cases h : (!cfg.send || cfg.nin == 0) = true
    · exact ⟨_, _, .calNone c h, by rw [calibr_none h]; simp [St.emit]⟩
    · exact ⟨_, _, .cal c h, by rw [calibr_some h]; simp [St.emit]⟩
  | calibrated id n q =>
    simp only [act]
    cases hf : s.cal with
    | none =>
      exact ⟨_, _, .calIdle id n q hf, by
        rw [calibrated_none (s := s.emit [.got (.calibrated id n q)]) hf]; simp [St.emit]⟩
    | some p =>
      by_cases hl : p.left = 1
      · exact ⟨_, _, .calLast id n q p hf hl, by
          rw [calibrated_last (s := s.emit [.got (.calibrated id n q)]) hf hl]
          simp [St.emit]⟩
      · exact ⟨_, _, .calMore id n q p hf hl, by
          rw [calibrated_more (s := s.emit [.got (.calibrated id n q)]) hf hl]
          simp [St.emit]⟩
  | refresh id =>
    simp only [act]
    by_cases h : (!cfg.send || cfg.nin == 0) = true
    · exact ⟨_, _, .refNone id h, by rw [refresh_none h]; simp [St.emit]⟩
    · exact ⟨_, _, .ref id h, by rw [refresh_some h]; simp [St.emit]⟩
  | refreshed id n q =>
    simp only [act]
    cases hf : s.ref with
    | none =>
      exact ⟨_, _, .refIdle id n q hf, by
        rw [refreshed_none (s := s.emit [.got (.refreshed id n q)]) hf]; simp [St.emit]⟩
    | some p =>
      by_cases hl : calLeft s = 1
      · exact ⟨_, _, .refLast id n q p hf hl, by
          rw [refreshed_last (s := s.emit [.got (.refreshed id n q)]) hf hl]
          simp [St.emit]⟩
      · exact ⟨_, _, .refMore id n q p hf hl, by
          rw [refreshed_more (s := s.emit [.got (.refreshed id n q)]) hf hl]
          simp [St.emit, calLeft]⟩
  | build => exact ⟨_, _, .build, by simp [act, build_eq, St.emit]⟩
  | exit now => exact ⟨_, _, .exit now, by rw [exit_eq]; simp [St.emit, stopLines]⟩

/-- The events of a step are those of its description. -/
theorem eff_events (cfg : Cfg) (s : St) (op : Op) :
    ∃ s', Eff cfg s op s' (events cfg s op) ∧
      step cfg s op = { s' with log := s.log ++ .got op :: events cfg s op } := by
  obtain ⟨s', es, he, hs⟩ := step_eff cfg s op
  have : events cfg s op = es := by
    unfold events
    rw [hs]
    simp [List.drop_append]
  rw [this]
  exact ⟨s', he, hs⟩

theorem step_log (cfg : Cfg) (s : St) (op : Op) :
    (step cfg s op).log = s.log ++ .got op :: events cfg s op := by
  obtain ⟨s', _, hs⟩ := eff_events cfg s op
  rw [hs]

/-- Nothing comes in while something is done. -/
def NotGot : Ev → Prop
  | .got _ => False
  | _ => True

theorem notGot_fileDrop (o : Option FilePend) : ∀ e ∈ fileDrop o, NotGot e := by
  cases o <;> simp [fileDrop, NotGot]

theorem notGot_calDrop (o : Option CalPend) : ∀ e ∈ calDrop o, NotGot e := by
  cases o <;> simp [calDrop, NotGot]

theorem notGot_refDrop (o : Option RefPend) : ∀ e ∈ refDrop o, NotGot e := by
  cases o <;> simp [refDrop, NotGot]

theorem notGot_stopLines (cfg : Cfg) (b : Bool) (n : Nat) (now : Rat) (s : St) :
    ∀ e ∈ stopLines cfg b n now s, NotGot e := by
  unfold stopLines
  split <;> simp [NotGot]

theorem notGot_startLines (cfg : Cfg) (n : Nat) (p : String) :
    ∀ e ∈ startLines cfg n p, NotGot e := by
  unfold startLines
  split <;> simp [NotGot]

theorem notGot_packEv (cfg : Cfg) (p : CalPend) : ∀ e ∈ packEv cfg p, NotGot e := by
  unfold packEv
  split <;> simp [NotGot]

theorem notGot_eols (outs : List (Bool × Bool)) (ks : List Nat) :
    ∀ e ∈ eols outs ks, NotGot e := by
  intro e he
  obtain ⟨k, _, rfl⟩ := List.mem_map.1 he
  trivial

theorem eff_notGot {cfg : Cfg} {s : St} {op : Op} {s' : St} {es : List Ev}
    (h : Eff cfg s op s' es) : ∀ e ∈ es, NotGot e := by
  cases h <;>
    try simp only [List.forall_mem_append, List.forall_mem_map, List.mem_singleton, forall_eq,
      List.not_mem_nil, false_implies, implies_true]
  all_goals first
    | trivial
    | exact notGot_stopLines _ _ _ _ _
    | exact ⟨notGot_fileDrop _, fun _ _ => trivial⟩
    | exact ⟨⟨⟨⟨notGot_fileDrop _, notGot_stopLines _ _ _ _ _⟩, trivial⟩, notGot_eols _ _⟩, trivial⟩
    | exact ⟨notGot_fileDrop _, trivial⟩
    | exact ⟨⟨notGot_stopLines _ _ _ _ _, notGot_startLines _ _ _⟩, trivial⟩
    | exact ⟨⟨notGot_calDrop _, fun _ _ => trivial⟩, fun _ _ => trivial⟩
    | exact ⟨notGot_packEv _ _, trivial⟩
    | exact ⟨notGot_refDrop _, fun _ _ => trivial⟩

end Verif.BnetNode
