import Verif.BnetMasterMore

/-!
# C85, C86: the run control and the common state of a builder network

`Reach cfg s`: the module comes to state `s` when users send commands, nodes reply to what
they were asked, the list of nodes changes and time goes on, in any order.  `s.log` is the
list of everything that came in (`got`) and was done.  The events of one step are those after
`got op`, see `C85_events`.
-/

namespace Verif.BnetMaster

open Spec

/-! ## C85 -/

/-- Every step adds what came in and then what is done about it. -/
theorem C85_events (cfg : Cfg) (s : St) (op : Op) :
    ∃ es, (step cfg s op).log = s.log ++ .got op :: es :=
  step_log cfg s op

/-- Every command is answered exactly once: it was answered or is one of the at most three
commands that wait. -/
theorem C85_answered_once {cfg : Cfg} {s : St} (h : Reach cfg s) (id : Nat) :
    (received s.log).count id = (answered s.log).count id + (pending s).count id := by
  have := owed_reach h id
  unfold owed at this
  omega

/-- What an answer says. -/
theorem C85_answer_meaning {cfg : Cfg} {s : St} (h : Reach cfg s) (op : Op) (hv : Valid s.log op)
    (es : List Ev) (hl : (step cfg s op).log = s.log ++ .got op :: es)
    (id : Nat) (b : Bool) (hm : Ev.answer id b ∈ es) : Why s op id b :=
  why_step (runInv_reach h) (refInv_reach h) op hv es hl id b hm

/-- An accepted run command: every builder gets one order, all the same, with a new number; the
inputs get one each when a calibration run starts or stops. -/
theorem C85_orders {cfg : Cfg} {s : St} (h : Reach cfg s) (c : RunCmd) (n : Nat)
    (hc : s.cur = none) (ho : c.start = true → c.oninit ≤ 0) (hb : s.builders ≠ []) :
    ∃ cnt q iq, (step cfg s (.run c true n)).log = s.log ++ .got (.run c true n) ::
        (s.builders.map (fun b => Ev.order c.id cnt true b q) ++
         match iq with
         | some x => s.inputs.map (fun b => Ev.order c.id cnt false b x)
         | none => []) ∧
      (∀ i k b m x, Ev.order i k b m x ∈ s.log → k < cnt) ∧
      (WantsFile c s.lastPfx → q = ⟨true, some (if c.runid = 0 then n else c.runid),
        if c.pfx = "" then none else some c.pfx⟩) ∧
      (¬ WantsFile c s.lastPfx → q = ⟨false, none, none⟩) ∧
      (∀ x, iq = some x ↔
        (WantsFile c s.lastPfx ∧ c.pfx = "tc" ∧ s.lastPfx = "" ∧
          x = ⟨true, some (if c.runid = 0 then n else c.runid), none⟩) ∨
        (¬ WantsFile c s.lastPfx ∧ s.lastPfx = "tc" ∧ x = ⟨false, some (lastRun s.log), none⟩)) := by
  have hr := runInv_reach h
  refine ⟨s.cmdCnt + 1, fileQuery c s.lastPfx n, calibrQuery c s.lastPfx s.masterRunId n,
    ?_, ?_, fileQuery_wants n, fileQuery_stop n, ?_⟩
  · unfold step
    simp only [act]
    rcases execRun_cases (s.emit (.got (.run c true n))) c true n with ⟨k, _⟩ | ⟨_, k, _⟩ |
      ⟨_, _, k, _⟩ | ⟨_, _, _, k, _⟩ | ⟨_, _, _, _, e⟩
    · rw [show (s.emit (.got (.run c true n))).cur = none from hc] at k; cases k
    · have := ho k.1; have := k.2.1; omega
    · exact absurd k hb
    · cases k
    · rw [e]
      show (s.log ++ [Ev.got (.run c true n)]) ++ orders (s.emit (.got (.run c true n))) c n = _
      rw [List.append_assoc]; rfl
  · intro i k b m x hm
    have := hr.late i k b m x hm; omega
  · intro x
    rw [calibrQuery_some, hr.master]

/-- All builders are told the same for the same command. -/
theorem C85_same_for_all {cfg : Cfg} {s : St} (h : Reach cfg s) {i j cnt : Nat} {n m : String}
    {q r : Query} (h1 : Ev.order i cnt true n q ∈ s.log) (h2 : Ev.order j cnt true m r ∈ s.log) :
    i = j ∧ q = r :=
  (runInv_reach h).same i j cnt n m q r h1 h2

/-- A late reply for another command than the current one changes nothing. -/
theorem C85_late_reply {cfg : Cfg} {s : St} (h : Reach cfg s) {i cnt : Nat} {b : Bool}
    {n : String} {x : Query} (hm : Ev.order i cnt b n x ∈ s.log)
    (hc : ∀ c, s.cur = some c → c.id ≠ i) (ok : Bool) (q : Option Rat) :
    step cfg s (.subReply cnt ok q) = s.emit (.got (.subReply cnt ok q)) := by
  unfold step
  simp only [act]
  rcases subReply_cases (s.emit (.got (.subReply cnt ok q))) cnt q with
    ⟨e, _⟩ | ⟨c, k1, k2, _⟩ | ⟨c, k1, k2, _⟩
  · exact e
  · have k2 : cnt = s.cmdCnt := k2
    exact absurd ((runInv_reach h).cur c k1 |>.own i b n x (k2 ▸ hm)).symm (hc c k1)
  · have k2 : cnt = s.cmdCnt := k2
    exact absurd ((runInv_reach h).cur c k1 |>.own i b n x (k2 ▸ hm)).symm (hc c k1)

/-- The run id shown by the master is the one the builders were last told. -/
theorem C85_master_run {cfg : Cfg} {s : St} (h : Reach cfg s) : s.masterRunId = lastRun s.log :=
  (runInv_reach h).master

/-- The quality of a calibration is written when every node replied to the StopRun.  It is the
smallest of those in the replies, and belongs to the run the inputs were told to stop. -/
theorem C85_calibration {cfg : Cfg} {s : St} (h : Reach cfg s) (cnt : Nat) (ok : Bool)
    (q : Option Rat) (es : List Ev)
    (hl : (step cfg s (.subReply cnt ok q)).log = s.log ++ .got (.subReply cnt ok q) :: es)
    (m : Rat) (r : Nat) (hm : Ev.calibrFile m r ∈ es) :
    (∃ c, s.cur = some c ∧ c.start = false ∧ Ev.answer c.id true ∈ es) ∧
    AllReplied (s.log ++ [.got (.subReply cnt ok q)]) cnt ∧
    IsMin m (qualities cnt (s.log ++ [.got (.subReply cnt ok q)])) ∧
    ∀ i n x, Ev.order i cnt false n x ∈ s.log → x = ⟨false, some r, none⟩ := by
  have hr := runInv_reach h
  rcases subReply_cases (s.emit (.got (.subReply cnt ok q))) cnt q with
    ⟨e, _⟩ | ⟨c, k1, k2, k3, e⟩ | ⟨c, k1, k2, k3, e⟩
  · rw [events_eq hl (fs := []) (by simp only [act]; rw [e]; simp)] at hm; cases hm
  · rw [events_eq hl (fs := []) (by simp only [act]; rw [e]; simp)] at hm; cases hm
  · have k1 : s.cur = some c := k1
    have k2 : cnt = s.cmdCnt := k2
    have k3 : s.replies - 1 ≤ 0 := k3
    subst k2
    have he := events_eq hl (by simp only [act]; exact e)
    obtain ⟨i1, i2⟩ := subReply_curInv hr c k1 ok q
    have ic := hr.cur c k1
    rw [he] at hm
    have hs : stopCalibr c = true := by
      cases hs : stopCalibr c with
      | true => rfl
      | false => rw [hs] at hm; simp at hm
    rw [if_pos hs] at hm
    simp only [List.mem_cons, reduceCtorEq, Ev.calibrFile.injEq, List.not_mem_nil, or_false,
      false_or] at hm
    obtain ⟨rfl, rfl⟩ := hm
    have hst : c.start = false := by
      unfold stopCalibr at hs
      simp only [Bool.and_eq_true, Bool.not_eq_true'] at hs
      exact hs.1
    refine ⟨⟨c, k1, hst, by rw [he]; simp⟩, ?_, i2 hs, ?_⟩
    · unfold AllReplied
      have := ic.left
      omega
    · intro i n x hx
      exact (ic.calibr i n x hx).2 hst

/-- The quality written after RefreshRun is the smallest of those the inputs replied. -/
theorem C85_refresh {cfg : Cfg} {s : St} (h : Reach cfg s) (cnt : Nat) (ok : Bool)
    (q : Option Rat) (hv : Valid s.log (.refreshReply cnt ok q)) (es : List Ev)
    (hl : (step cfg s (.refreshReply cnt ok q)).log = s.log ++ .got (.refreshReply cnt ok q) :: es)
    (m : Rat) (r : Nat) (hm : Ev.calibrFile m r ∈ es) :
    (∃ id q0, s.refreshCmd = some (id, q0) ∧ Ev.answer id true ∈ es) ∧
    AllRefreshed (s.log ++ [.got (.refreshReply cnt ok q)]) cnt ∧
    IsMin m (refreshQualities cnt (s.log ++ [.got (.refreshReply cnt ok q)])) := by
  have hi := refInv_reach h
  rcases refreshReply_cases (s.emit (.got (.refreshReply cnt ok q))) cnt q with
    ⟨e, _⟩ | ⟨id, q0, k1, k2, k3, e⟩ | ⟨id, q0, k1, k2, k3, e⟩
  · rw [events_eq hl (fs := []) (by simp only [act]; rw [e]; simp)] at hm; cases hm
  · have k1 : s.refreshCmd = some (id, q0) := k1
    have k2 : cnt = s.refreshCnt := k2
    have k3 : s.refreshReplies - 1 ≤ 0 := k3
    subst k2
    have he := events_eq hl (by simp only [act]; rw [e])
    have ic := hi.cur id q0 k1
    rw [he] at hm
    simp only [List.mem_cons, reduceCtorEq, Ev.calibrFile.injEq, List.not_mem_nil, or_false,
      false_or] at hm
    obtain ⟨rfl, rfl⟩ := hm
    refine ⟨⟨id, q0, k1, by rw [he]; simp⟩, ?_, ?_⟩
    · have := ic.replies
      simp only [Valid] at hv
      unfold AllRefreshed
      simp only [List.countP_append, List.countP_cons, List.countP_nil, isRefreshReply,
        isRefreshOrder]
      simp
      omega
    · have hq : refreshQualities s.refreshCnt (s.log ++ [.got (.refreshReply s.refreshCnt ok q)]) =
          refreshQualities s.refreshCnt s.log ++ [q.getD 1] := by
        rw [refreshQualities_append]; simp [refreshQualities]
      rw [hq]
      exact isMin_cons_end ic.quality _
  · rw [events_eq hl (fs := []) (by simp only [act]; rw [e]; simp)] at hm; cases hm

/-- A StartRun told to wait for the builders (`oninit`) is executed when the builders are the
same as in the list before, and there are some.  Missing: the number given with `oninit` is not
observed, see `C85_oninit_counterexample`. -/
theorem C85_waiting_start_partial {cfg : Cfg} {s : St} (h : Reach cfg s) (items : List NameItem)
    (o p : Bool) (n : Nat) (es : List Ev)
    (hl : (step cfg s (.names items o p n)).log = s.log ++ .got (.names items o p n) :: es)
    (i cnt : Nat) (b : Bool) (m : String) (q : Query) (hm : Ev.order i cnt b m q ∈ es) :
    s.cur = none ∧ p = true ∧ s.builders ≠ [] ∧
    (s.builders).Perm ((items.filter (fun i => i.bnet == some "receiver")).map NameItem.name) ∧
    ∃ w, s.initCmd = some w ∧ i = w.id ∧ ∀ b ∈ s.builders, ∃ x, Ev.order w.id cnt true b x ∈ es := by
  obtain ⟨k1, k2, k3, k4, w, k5, fs, k6, k7⟩ := names_orders (runInv_reach h) hl hm
  have hp := (collect_fold "receiver" items [] List.Pairwise.nil).2
  refine ⟨k1, k2, k3, ?_, w, k5, ?_, ?_⟩
  · rw [k4]
    have := hp.map Prod.fst
    rw [List.append_nil, List.map_map] at this
    exact this
  · rw [k6] at hm
    rcases mem_orders (mem_quiet k7 hm) with ⟨_, _, e⟩ | ⟨_, _, _, _, e⟩ <;> cases e <;> rfl
  · intro b' hb'
    rw [k6] at hm
    have hcnt : cnt = s.cmdCnt + 1 := by
      rcases mem_orders (mem_quiet k7 hm) with ⟨_, _, e⟩ | ⟨_, _, _, _, e⟩ <;> cases e <;> rfl
    refine ⟨fileQuery { w with verified := true } s.lastPfx n, ?_⟩
    rw [k6, hcnt]
    refine List.mem_append.2 (.inl ?_)
    unfold orders
    exact List.mem_append.2 (.inl (List.mem_map.2 ⟨b', hb', rfl⟩))

/-- The lists of builders and inputs: every node of the kind once, in the order of names, each
with its own node. -/
theorem C85_nodes (kind : String) (items : List NameItem) :
    (collect kind items).Perm
      ((items.filter (fun i => i.bnet == some kind)).map (fun i => (i.name, i.node))) ∧
    (collect kind items).Pairwise (fun a b => a.1 ≤ b.1) := by
  obtain ⟨h1, h2⟩ := collect_fold kind items [] List.Pairwise.nil
  rw [List.append_nil] at h2
  exact ⟨h2, h1⟩

/-! ### Where the code does not do this -/

/-- A StartRun is answered `true` although no builder and no input could do it. -/
theorem C85_failed_orders_counterexample :
    ∃ s, Reach ⟨false, 0⟩ s ∧
      (∀ e ∈ s.log, (match e with | .got (.subReply _ ok _) => !ok | _ => true) = true) ∧
      Ev.order 1 2 true "B1" ⟨true, some 5, some "tc"⟩ ∈ s.log ∧
      s.log.getLast? = some (.answer 1 true) :=
  ⟨run ⟨false, 0⟩ (St.init 0)
    [.names [⟨some "receiver", "B1", "N1"⟩, ⟨some "sender", "I1", "N2"⟩] false true 7,
     .run { id := 1, start := true, pfx := "tc" } true 5,
     .subReply 2 false none, .subReply 2 false none],
   reach_run _ (.init 0) (by decide +kernel), by decide +kernel, by decide +kernel,
   by decide +kernel⟩

/-- With no builder a StartRun is answered `true` and nothing is done. -/
theorem C85_no_builders_counterexample {cfg : Cfg} {s : St} (hb : s.builders = [])
    (hc : s.cur = none) (c : RunCmd) (ho : c.oninit ≤ 0) (p : Bool) (n : Nat) :
    step cfg s (.run c p n) =
      { s with log := s.log ++ [.got (.run c p n), .answer c.id true] } := by
  unfold step
  simp only [act]
  rcases execRun_cases (s.emit (.got (.run c p n))) c p n with ⟨k, _⟩ | ⟨_, k, _⟩ |
    ⟨_, _, _, e⟩ | ⟨_, _, k, _⟩ | ⟨_, _, k, _⟩
  · rw [show (s.emit (.got (.run c p n))).cur = none from hc] at k; cases k
  · have := k.2.1; omega
  · rw [e]; simp [St.reply, St.emit]
  · exact absurd hb k
  · exact absurd hb k

/-- With no input a RefreshRun is never answered, and no other one is accepted any more. -/
theorem C85_refresh_no_inputs_counterexample {cfg : Cfg} {s t : St} (h : Reach cfg s)
    (h1 : s.refreshCmd = none) (h2 : s.inputs = []) (id : Nat)
    (ht : Steps cfg (step cfg s (.refresh id true)) t) :
    id ∈ pending t ∧ ∀ j p, (step cfg t (.refresh j p)).log =
      t.log ++ [.got (.refresh j p), .answer j false] := by
  have hs := stuck_steps (stuck_refresh h h1 h2 id) (.step s _ h trivial) ht
  obtain ⟨⟨q, hq⟩, _⟩ := hs
  refine ⟨by unfold pending; simp [hq], ?_⟩
  intro j p
  unfold step
  simp only [act]
  unfold execRefresh
  rw [if_pos (by simp [St.emit, hq])]
  simp [St.reply, St.emit]

/-- A node list for the examples. -/
def nodes11 : List NameItem :=
  [⟨some "receiver", "B1", "N1"⟩, ⟨none, "x", "N3"⟩, ⟨some "sender", "I1", "N2"⟩]

/-- A StartRun that has to wait until the builders were the same 5 times is executed the
first time they are the same. -/
theorem C85_oninit_counterexample :
    ∃ s, Reach ⟨false, 0⟩ s ∧
      Ev.order 1 2 true "B1" ⟨true, some 9, some "be"⟩ ∈ s.log ∧
      s.log.countP (fun e => match e with | .got (.names ..) => true | _ => false) = 2 ∧
      Ev.got (.run { id := 1, start := true, pfx := "be", oninit := 5 } true 4) ∈ s.log :=
  ⟨run ⟨false, 0⟩ (St.init 0)
    [.names nodes11 false true 7, .run { id := 1, start := true, pfx := "be", oninit := 5 } true 4,
     .names nodes11 false true 9],
   reach_run _ (.init 0) (by decide +kernel), by decide +kernel, by decide +kernel,
   by decide +kernel⟩

/-- A RefreshRun after a usual run writes its quality for the run 0, whatever the calibration
run was. -/
theorem C85_refresh_run_counterexample :
    ∃ s, Reach ⟨false, 0⟩ s ∧ s.log.getLast? = some (.calibrFile (1/2) 0) ∧
      (run ⟨false, 0⟩ (St.init 77) [.names nodes11 false true 7]).calibrRunId = 77 :=
  ⟨run ⟨false, 0⟩ (St.init 77)
    [.names nodes11 false true 7, .run { id := 1, start := true, pfx := "be" } true 4,
     .subReply 2 true none, .refresh 2 true, .refreshReply 2 true (some (1/2))],
   reach_run _ (.init 77) (by decide +kernel), by decide +kernel, by decide +kernel⟩

/-- A second StopRun before the nodes were asked again writes the calibration of the run 0. -/
theorem C85_second_stop_counterexample :
    ∃ s, Reach ⟨false, 0⟩ s ∧ Ev.calibrFile 1 5 ∈ s.log ∧
      s.log.getLast? = some (.calibrFile 1 0) :=
  ⟨run ⟨false, 0⟩ (St.init 0)
    [.names nodes11 false true 7, .run { id := 1, start := true, pfx := "tc" } true 5,
     .subReply 2 true none, .subReply 2 true none,
     .run { id := 2, start := false } true 6, .subReply 3 true none, .subReply 3 true none,
     .run { id := 3, start := false } true 6, .subReply 4 true none, .subReply 4 true none],
   reach_run _ (.init 0) (by decide +kernel), by decide +kernel, by decide +kernel⟩

/-! ## C86 -/

/-- State and quality come out when every node asked has replied, and the run shown is the one of
the first builder that writes a file. -/
theorem C86_shown_when_all_replied {cfg : Cfg} {s : St} (h : Reach cfg s) (id : Nat) (ok : Bool)
    (items : List CtrlItem) (over : Bool) (hv : Valid s.log (.ctrlReply id ok items over))
    (es : List Ev) (hl : (step cfg s (.ctrlReply id ok items over)).log =
      s.log ++ .got (.ctrlReply id ok items over) :: es)
    (st : String) (q : Rat) (r : Option (Nat × String)) (hm : Ev.shown st q r ∈ es) :
    (s.log ++ [Ev.got (.ctrlReply id ok items over)]).countP (isCtrlReply id) =
      s.log.countP (isCtrlOrder id) ∧
    r = some (shownRun (reports id (s.log ++ [.got (.ctrlReply id ok items over)]))) := by
  obtain ⟨c0, h0, _, h2, h3⟩ := shown_end (cycleInv_reach h) id ok items over hv es hl
    (List.ne_nil_of_mem hm)
  refine ⟨?_, ?_⟩
  · rw [h2, List.countP_append]; rfl
  · rw [← noted_end cfg h0]
    rcases h3 with h3 | h3 <;> rw [h3] at hm <;> simp at hm <;> rw [hm.2.2]

/-- A quality above 0 tells that there are builders and inputs, that they know of each other, and,
when the last start of a run is long enough ago, that the builders write the same run; and no
node has a lower quality.  Missing: nodes with an empty state or that report no partner, see the
counterexamples. -/
theorem C86_good_quality_partial {cfg : Cfg} {s : St} (h : Reach cfg s) (id : Nat) (ok : Bool)
    (items : List CtrlItem) (over : Bool) (hv : Valid s.log (.ctrlReply id ok items over))
    (es : List Ev) (hl : (step cfg s (.ctrlReply id ok items over)).log =
      s.log ++ .got (.ctrlReply id ok items over) :: es)
    (st : String) (q : Rat) (r : Option (Nat × String)) (hm : Ev.shown st q r ∈ es) (hq : 0 < q)
    (ht : ∀ x ∈ reports id (s.log ++ [.got (.ctrlReply id ok items over)]),
      x.2.2.state ≠ "" ∧ (x.2.1 = true → x.2.2.ninputs ≠ 0) ∧
        (x.2.1 = false → x.2.2.nbuilders ≠ 0)) :
    Consistent (reports id (s.log ++ [.got (.ctrlReply id ok items over)])) ∧
    ((∀ x ∈ reports id (s.log ++ [.got (.ctrlReply id ok items over)]), x.1 = true) →
      SameRun (reports id (s.log ++ [.got (.ctrlReply id ok items over)]))) ∧
    ∀ x ∈ reports id (s.log ++ [.got (.ctrlReply id ok items over)]), q ≤ x.2.2.quality := by
  obtain ⟨c0, h0, _, _, h3⟩ := shown_end (cycleInv_reach h) id ok items over hv es hl
    (List.ne_nil_of_mem hm)
  have he : q = (cycleEnd ((reports id (s.log ++ [.got (.ctrlReply id ok items over)])).foldl
      (report cfg) c0)).quality := by
    rcases h3 with h3 | h3 <;> rw [h3] at hm <;> simp at hm <;> exact hm.2.1
  rw [he] at hq ⊢
  exact sound_end cfg h0 ht hq

/-- When the nodes agree, the state shown is the one of the node with the lowest quality. -/
theorem C86_worst_state {cfg : Cfg} {s : St} (h : Reach cfg s) (id : Nat) (ok : Bool)
    (items : List CtrlItem) (over : Bool) (hv : Valid s.log (.ctrlReply id ok items over))
    (es : List Ev) (hl : (step cfg s (.ctrlReply id ok items over)).log =
      s.log ++ .got (.ctrlReply id ok items over) :: es)
    (st : String) (q : Rat) (r : Option (Nat × String)) (hm : Ev.shown st q r ∈ es)
    (hb : ∃ n, Ev.ctrlOrder id true n ∈ s.log) (hi : ∃ n, Ev.ctrlOrder id false n ∈ s.log)
    (he : s.ctrlErrorCnt ≤ 5)
    (hs : ∀ x ∈ reports id (s.log ++ [.got (.ctrlReply id ok items over)]), x.2.2.state ≠ "")
    (hc : Consistent (reports id (s.log ++ [.got (.ctrlReply id ok items over)])))
    (hr : SameRun (reports id (s.log ++ [.got (.ctrlReply id ok items over)]))) :
    ∃ x ∈ reports id (s.log ++ [.got (.ctrlReply id ok items over)]),
      q = x.2.2.quality ∧ st = x.2.2.state ∧
      ∀ y ∈ reports id (s.log ++ [.got (.ctrlReply id ok items over)]),
        x.2.2.quality ≤ y.2.2.quality := by
  obtain ⟨c0, h0, h1, _, h3⟩ := shown_end (cycleInv_reach h) id ok items over hv es hl
    (List.ne_nil_of_mem hm)
  obtain ⟨x, hx, e1, e2, e3⟩ := best_end cfg h0 (h1 hb hi he) hs hc hr
  refine ⟨x, hx, ?_, ?_, e3⟩
  · rw [← e1]; rcases h3 with h3 | h3 <;> rw [h3] at hm <;> simp at hm <;> exact hm.2.1
  · rw [← e2]; rcases h3 with h3 | h3 <;> rw [h3] at hm <;> simp at hm <;> exact hm.1

/-- A reply to an earlier cycle changes nothing. -/
theorem C86_late_reply {cfg : Cfg} {s : St} (id k : Nat) (b : Bool) (n : String)
    (h : Reach cfg s) (hk : Ev.ctrlOrder k b n ∈ s.log) (hid : id < k) (ok : Bool)
    (items : List CtrlItem) (over : Bool) :
    step cfg s (.ctrlReply id ok items over) = s.emit (.got (.ctrlReply id ok items over)) := by
  have := (cycleInv_reach h).late k b n hk
  unfold step
  simp only [act, ctrlReply]
  rw [if_neg (by simp [St.emit]; omega)]

/-- The module starts a new file by itself only when it has the control, no run command is
in work and a builder reported a file above the limit after the last start of a file. -/
theorem C86_auto_start {cfg : Cfg} {s : St} (h : Reach cfg s) (id : Nat) (ok : Bool)
    (items : List CtrlItem) (over : Bool) (es : List Ev)
    (hl : (step cfg s (.ctrlReply id ok items over)).log =
      s.log ++ .got (.ctrlReply id ok items over) :: es) (hm : Ev.autoStart ∈ es) :
    cfg.control = true ∧ s.cur = none ∧
    TooBig cfg (s.log ++ [.got (.ctrlReply id ok items over)]) :=
  (szInv_ctrlReply (szInv_reach h) id ok items over).2 es hl hm

/-- There is at most one automatic start for each StartRun received. -/
theorem C86_auto_start_once {cfg : Cfg} {s : St} (h : Reach cfg s) :
    autoStarts s.log ≤ startsReceived s.log := by
  have := (szInv_reach h).count
  omega

/-! ### Where the code does not do this -/

/-- The builder with quality 0 and an empty state is not seen: "Ready" with quality 1. -/
theorem C86_empty_state_counterexample :
    ∃ s, Reach ⟨false, 0⟩ s ∧ s.log.getLast? = some (.shown "Ready" 1 (some (0, ""))) ∧
      (true, true, ({ receiver := true, state := "", quality := 0, ninputs := 1 } : CtrlItem)) ∈
        reports 2 s.log :=
  ⟨run ⟨false, 0⟩ (St.init 0)
    [.names nodes11 false true 7,
     .ctrlReply 2 true [{ receiver := true, state := "", quality := 0, ninputs := 1 }] true,
     .ctrlReply 2 true [{ receiver := false, state := "Ready", quality := 1, nbuilders := 1 }] true],
   reach_run _ (.init 0) (by decide +kernel), by decide +kernel, by decide +kernel⟩

/-- The list of nodes for the next one. -/
def nodes21 : List NameItem :=
  [⟨some "receiver", "B2", "N3"⟩, ⟨some "receiver", "B1", "N1"⟩, ⟨some "sender", "I1", "N2"⟩]

/-- A builder without inputs is not seen when it replies first, and is when it replies last. -/
theorem C86_no_inputs_counterexample :
    let b0 : CtrlItem := { receiver := true, state := "Ready", quality := 1, ninputs := 0 }
    let b1 : CtrlItem := { receiver := true, state := "Ready", quality := 1, ninputs := 1 }
    let i1 : CtrlItem := { receiver := false, state := "Ready", quality := 1, nbuilders := 2 }
    (∃ s, Reach ⟨false, 0⟩ s ∧ s.log.getLast? = some (.shown "Ready" 1 (some (0, ""))) ∧
      reports 2 s.log = [(true, true, b0), (true, true, b1), (true, false, i1)]) ∧
    (∃ s, Reach ⟨false, 0⟩ s ∧ s.log.getLast? = some (.shown "InputsMismatch" 0 (some (0, ""))) ∧
      reports 2 s.log = [(true, true, b1), (true, true, b0), (true, false, i1)]) :=
  ⟨⟨run ⟨false, 0⟩ (St.init 0)
    [.names nodes21 false true 7,
     .ctrlReply 2 true [{ receiver := true, state := "Ready", quality := 1, ninputs := 0 }] true,
     .ctrlReply 2 true [{ receiver := true, state := "Ready", quality := 1, ninputs := 1 }] true,
     .ctrlReply 2 true [{ receiver := false, state := "Ready", quality := 1, nbuilders := 2 }] true],
    reach_run _ (.init 0) (by decide +kernel), by decide +kernel, by decide +kernel⟩,
   ⟨run ⟨false, 0⟩ (St.init 0)
    [.names nodes21 false true 7,
     .ctrlReply 2 true [{ receiver := true, state := "Ready", quality := 1, ninputs := 1 }] true,
     .ctrlReply 2 true [{ receiver := true, state := "Ready", quality := 1, ninputs := 0 }] true,
     .ctrlReply 2 true [{ receiver := false, state := "Ready", quality := 1, nbuilders := 2 }] true],
    reach_run _ (.init 0) (by decide +kernel), by decide +kernel, by decide +kernel⟩⟩

/-- With builders but no inputs "NoNodes" is shown. -/
theorem C86_no_nodes_counterexample :
    ∃ s, Reach ⟨false, 0⟩ s ∧ s.log.getLast? = some (.shown "NoNodes" 0 none) ∧
      s.builders = ["B1"] :=
  ⟨run ⟨false, 0⟩ (St.init 0) [.names [⟨some "receiver", "B1", "N1"⟩] false true 7],
   reach_run _ (.init 0) (by decide +kernel), by decide +kernel, by decide +kernel⟩

/-- After many cycles without replies of the nodes "NoNodes" with quality 1/10 is shown, not
"LostControl", although there are builders and inputs. -/
theorem C86_lost_control_counterexample :
    ∃ s, Reach ⟨false, 0⟩ s ∧ s.log.getLast? = some (.shown "NoNodes" (1/10) none) ∧
      s.builders = ["B1"] ∧ s.inputs = ["I1"] :=
  ⟨run ⟨false, 0⟩ (St.init 0) (List.replicate 7 (.names nodes11 true true 7)),
   reach_run _ (.init 0) (by decide +kernel), by decide +kernel, by decide +kernel,
   by decide +kernel⟩

/-! ## The hypotheses can be met -/

/-- A calibration run is started and stopped. -/
def exampleStop : List Op :=
  [.names nodes11 false true 7, .run { id := 1, start := true, pfx := "tc" } true 5,
   .subReply 2 true none, .subReply 2 true none,
   .run { id := 2, start := false } true 6, .subReply 3 true none]

example : Reach ⟨false, 0⟩ (run ⟨false, 0⟩ (St.init 0) exampleStop) :=
  reach_run _ (.init 0) (by decide +kernel)

/-- `C85_calibration` and `C85_answer_meaning`. -/
example :
    let s := run ⟨false, 0⟩ (St.init 0) exampleStop
    Valid s.log (.subReply 3 true (some (1/3))) ∧
    (step ⟨false, 0⟩ s (.subReply 3 true (some (1/3)))).log =
      s.log ++ .got (.subReply 3 true (some (1/3))) :: [.answer 2 true, .calibrFile (1/3) 5] := by
  decide +kernel

/-- `C85_late_reply`: the reply to the first command comes late. -/
example :
    let s := run ⟨false, 0⟩ (St.init 0)
      [.names nodes11 false true 7, .run { id := 1, start := true, pfx := "tc" } true 5,
       .timer true false, .run { id := 2, start := false } true 6]
    Ev.order 1 2 true "B1" ⟨true, some 5, some "tc"⟩ ∈ s.log ∧ s.cur.map RunCmd.id = some 2 := by
  decide +kernel

/-- `C85_refresh`. -/
example :
    let s := run ⟨false, 0⟩ (St.init 3) [.names nodes11 false true 7, .refresh 1 true]
    Valid s.log (.refreshReply 2 true (some (1/3))) ∧
    (step ⟨false, 0⟩ s (.refreshReply 2 true (some (1/3)))).log =
      s.log ++ .got (.refreshReply 2 true (some (1/3))) :: [.answer 1 true, .calibrFile (1/3) 3] := by
  decide +kernel

/-- `C85_orders`: a state with builders. -/
example :
    let s := run ⟨false, 0⟩ (St.init 3) [.names nodes11 false true 7]
    s.cur.isNone = true ∧ s.builders = ["B1"] ∧ s.inputs = ["I1"] := by
  decide +kernel

/-- `C85_refresh_no_inputs_counterexample`: a state without inputs. -/
example : (St.init 3).refreshCmd = none ∧ (St.init 3).inputs = [] := ⟨rfl, rfl⟩

/-- `C86_good_quality_partial`, `C86_worst_state` and `C86_auto_start`. -/
example :
    let s := run ⟨true, 1⟩ (St.init 0)
      [.names nodes11 false true 7, .run { id := 1, start := true, pfx := "be" } true 5,
       .subReply 2 true none,
       .ctrlReply 2 true [⟨true, "Ready", 1, 2000000, 5, "be", 1, 0⟩] true]
    let op : Op :=
      .ctrlReply 2 true [{ receiver := false, state := "Slow", quality := 1/2, nbuilders := 1 }] true
    Valid s.log op ∧ s.ctrlErrorCnt ≤ 5 ∧
    Ev.ctrlOrder 2 true "B1" ∈ s.log ∧ Ev.ctrlOrder 2 false "I1" ∈ s.log ∧
    (step ⟨true, 1⟩ s op).log = s.log ++ .got op ::
      [.shown "Slow" (1/2) (some (5, "be")), .autoStart] := by
  decide +kernel

end Verif.BnetMaster
