import Verif.BnetNodeMore

/-!
# C87: a node of a builder network does what it confirms

`Reach cfg pfx run0 s`: the module, configured with `cfg`, a file prefix and (outside of a network)
a run number, comes to state `s` when commands, replies of its transports, timer events, events to
build and its end happen in any order.  `s.log` is the list of everything that came in (`got`) and
was done.
-/

namespace Verif.BnetNode

open Spec

/-- Every step adds what came in and then what is done about it. -/
theorem C87_events (cfg : Cfg) (s : St) (op : Op) :
    (step cfg s op).log = s.log ++ .got op :: events cfg s op ∧
    ∀ op', Ev.got op' ∉ events cfg s op := by
  obtain ⟨s', he, hs⟩ := eff_events cfg s op
  exact ⟨step_log cfg s op, fun op' h => eff_notGot he _ h⟩

/-- Every command is answered exactly once: it was answered or is one of the at most three
commands under way. -/
theorem C87_answered_once {cfg : Cfg} {pfx : String} {run0 : Nat} {s : St}
    (h : Reach cfg pfx run0 s) (id : Nat) :
    received s.log id ≤ 1 ∧ answers s.log id ≤ received s.log id ∧
    (answers s.log id < received s.log id ↔
      s.file.map (·.id) = some id ∨ s.cal.map (·.id) = some id ∨ s.ref.map (·.id) = some id) := by
  obtain ⟨h1, h2⟩ := owed_reach h id
  refine ⟨h2, by omega, ?_⟩
  have hf : fileOwes s.file id = if s.file.map (·.id) = some id then 1 else 0 := by
    cases s.file <;> simp [fileOwes]
  have hc : calOwes s.cal id = if s.cal.map (·.id) = some id then 1 else 0 := by
    cases s.cal <;> simp [calOwes]
  have hr : refOwes s.ref id = if s.ref.map (·.id) = some id then 1 else 0 := by
    cases s.ref <;> simp [refOwes]
  unfold owes at h1
  rw [hf, hc, hr] at h1
  constructor
  · intro hlt
    by_cases a : s.file.map (·.id) = some id
    · exact .inl a
    · by_cases b : s.cal.map (·.id) = some id
      · exact .inr (.inl b)
      · by_cases c : s.ref.map (·.id) = some id
        · exact .inr (.inr c)
        · rw [if_neg a, if_neg b, if_neg c] at h1
          omega
  · rintro (a | a | a)
    · rw [if_pos a] at h1; omega
    · rw [if_pos a] at h1; omega
    · rw [if_pos a] at h1; omega

/-! ## Starting and stopping files -/

/-- An accepted start: a start still under way is answered with `false`, then every output with a
file gets one order with the prefix. -/
theorem C87_start_orders {cfg : Cfg} (hn : 2 ≤ cfg.nout) (s : St) {c : FileCmd}
    (hm : c.mode = "start") (now : Rat) (outs : List (Bool × Bool)) :
    events cfg s (.file c now outs) =
      (s.file.toList.map fun p => .ans p.id false none) ++
      (List.range' 1 (cfg.nout - 1)).map fun k => .restart c.id k c.pfx := by
  obtain ⟨s', he, _⟩ := eff_events cfg s (.file c now outs)
  generalize events cfg s (.file c now outs) = es at *
  have hd : ∀ o : Option FilePend, fileDrop o = o.toList.map fun p => .ans p.id false none :=
    fun o => by cases o <;> rfl
  cases he with
  | small _ _ _ hn' => omega
  | start _ _ _ hn' hm' => rw [hd, fileOuts_eq]
  | stop _ _ _ hn' hm' => rw [hm] at hm'; exact absurd hm' (by decide)
  | other _ _ _ hn' h1 h2 => exact absurd hm h1

/-- A start is confirmed when, after it came, there were as many replies as outputs with files;
when these are replies to it, every output replied.  Missing: replies to an earlier start are
counted too, see `C87_stale_counterexample`, and failures are not seen, see
`C87_failed_counterexample`. -/
theorem C87_start_confirmed_partial {cfg : Cfg} {pfx : String} {run0 : Nat} {s : St}
    (h : Reach cfg pfx run0 s) {op : Op} (hv : Valid s.log op) {c : FileCmd} {t : Rat}
    {o : List (Bool × Bool)} (hg : Ev.got (.file c t o) ∈ s.log) {q : Option Rat}
    (hm : c.mode = "start") (ha : Ev.ans c.id true q ∈ events cfg s op) :
    ∃ l1 l2, s.log ++ [.got op] = l1 ++ .got (.file c t o) :: l2 ∧
      (restarts l2).length + 1 = cfg.nout ∧
      ((∀ x ∈ restarts l2, x.1 = c.id) →
        ∀ k, 1 ≤ k → k < cfg.nout → ∃ b t', Ev.got (.restarted c.id k b t') ∈ l2) := by
  obtain ⟨id, k, ok, now, p, rfl, hf, hl, hid, hq, l1, l2, hlog, hlen, hno, _⟩ :=
    start_confirmed h hv hg hm ha
  have hr1 : restarts (l2 ++ [.got (.restarted id k ok now)]) = restarts l2 ++ [(id, k)] := by
    rw [restarts_append]; rfl
  have hrep := replies_reach (Reach.step _ h hv)
  have hslog : (step cfg s (.restarted id k ok now)).log =
      (l1 ++ [.got (.file c t o)]) ++ ((l2 ++ [.got (.restarted id k ok now)])
        ++ events cfg s (.restarted id k ok now)) := by
    rw [step_log, hlog]; simp
  refine ⟨l1, l2 ++ [.got (.restarted id k ok now)], by rw [hlog]; simp, ?_, ?_⟩
  · rw [hr1]; simp; omega
  · intro hall j hj1 hj2
    have hnd : (restarts (l2 ++ [.got (.restarted id k ok now)])).Nodup := by
      have := hrep.outs1
      rw [hslog, restarts_append, restarts_append (l2 ++ _)] at this
      exact (List.nodup_append.1 (List.nodup_append.1 this).2.1).1
    have hsub : ∀ x ∈ restarts (l2 ++ [.got (.restarted id k ok now)]), x.2 ∈ fileOuts cfg := by
      intro x hx
      refine hrep.outs x.1 x.2 ?_
      rw [hslog, restarts_append, restarts_append (l2 ++ _)]
      exact List.mem_append_right _ (List.mem_append_left _ hx)
    generalize hL : restarts (l2 ++ [.got (.restarted id k ok now)]) = L at *
    have hnd2 : (L.map (·.2)).Nodup := by
      refine List.Nodup.map_on ?_ hnd
      intro x hx y hy hxy
      exact Prod.ext ((hall x hx).trans (hall y hy).symm) hxy
    have := all_of_count (l := L.map (·.2)) (m := fileOuts cfg) hnd2
      (by
        intro x hx
        obtain ⟨y, hy, rfl⟩ := List.mem_map.1 hx
        exact hsub y hy)
      (by
        rw [fileOuts_length, List.length_map, hr1]
        simp; omega) j (mem_fileOuts.2 ⟨hj1, hj2⟩)
    obtain ⟨⟨i, j'⟩, hy, rfl⟩ := List.mem_map.1 this
    have hi : i = c.id := hall _ hy
    subst hi
    rw [← hL] at hy
    exact mem_restarts.1 hy

/-- A start is refused when there is no output with a file, when another command for files comes,
or, in a builder, when its time is over. -/
theorem C87_start_refused {cfg : Cfg} {pfx : String} {run0 : Nat} {s : St}
    (h : Reach cfg pfx run0 s) {op : Op} (hv : Valid s.log op) {c : FileCmd} {t : Rat}
    {o : List (Bool × Bool)} (hg : Ev.got (.file c t o) ∈ s.log ++ [.got op]) {q : Option Rat}
    (ha : Ev.ans c.id false q ∈ events cfg s op) :
    (op = .file c t o ∧ cfg.nout < 2) ∨
    (c.mode = "start" ∧ ∃ c' t' o', op = .file c' t' o' ∧ Ev.got (.file c t o) ∈ s.log) ∨
    (c.mode = "start" ∧ cfg.recv = true ∧
      ∃ now, op = .timer now ∧ c.till.getD (t + 30) ≤ now) := by
  have hu := (owed_reach (Reach.step op h hv) c.id).2
  have hsub : ∀ e, e ∈ s.log ++ [.got op] → e ∈ (step cfg s op).log := by
    intro e he
    rw [step_log]
    rcases List.mem_append.1 he with he | he
    · exact List.mem_append_left _ he
    · exact List.mem_append_right _ (by rw [List.mem_singleton.1 he]; exact List.mem_cons_self)
  have hg' := hsub _ hg
  generalize hid : c.id = cid at ha hu
  have hcid : cmdId (.file c t o) = some cid := by simp [cmdId, hid]
  have key : ∀ p, s.file = some p → p.id = cid → c.mode = "start" ∧
      p.till = c.till.getD (t + 30) ∧ Ev.got (.file c t o) ∈ s.log := by
    intro p hf hpid
    obtain ⟨l1, l2, c', t', o', hlog, hid', hm', hr', hp', ht', hn', hc, h1, hno⟩ :=
      (pend_reach h).file p hf
    have hg2 : Ev.got (.file c' t' o') ∈ s.log := by rw [hlog]; simp
    have := got_unique hu (hsub _ (List.mem_append_left _ hg2)) hg'
      (by simp [cmdId, hid', hpid]) hcid
    injection this with e1 e2 e3
    subst e1; subst e2; subst e3
    exact ⟨hm', ht', hg2⟩
  cases events_false ha with
  | small c' now outs hn =>
    left
    refine ⟨?_, hn⟩
    exact got_unique hu (hsub _ (by simp)) hg' (by simp [cmdId]) hcid
  | drop c' now outs p hf =>
    obtain ⟨a, _, b⟩ := key p hf rfl
    exact .inr (.inl ⟨a, c', now, outs, rfl, b⟩)
  | timeout now p hf hr ht =>
    obtain ⟨a, b, _⟩ := key p hf rfl
    exact .inr (.inr ⟨a, hr, now, rfl, b ▸ ht⟩)
  | calDrop c' p hf =>
    obtain ⟨l1, l2, c', hlog, hid', _⟩ := (pend_reach h).cal p hf
    have hg2 : Ev.got (.calibr c') ∈ s.log := by rw [hlog]; simp
    cases got_unique hu (hsub _ (List.mem_append_left _ hg2)) hg' (by simp [cmdId, hid']) hcid
  | refDrop id p hf =>
    cases got_unique hu (hsub _ (List.mem_append_left _ ((pend_reach h).ref p hf))) hg'
      (by simp [cmdId]) hcid

/-- In a builder a start whose time is over is answered with `false` at the next timer event. -/
theorem C87_timeout {cfg : Cfg} (hr : cfg.recv = true) {s : St} {p : FilePend}
    (hf : s.file = some p) {now : Rat} (ht : p.till ≤ now) :
    events cfg s (.timer now) = [.ans p.id false none] ∧
    (step cfg s (.timer now)).file = none := by
  obtain ⟨s', he, hs⟩ := eff_events cfg s (.timer now)
  rw [hs]
  generalize events cfg s (.timer now) = es at *
  cases he with
  | tick _ hh => exact absurd ht (hh p hf hr)
  | timeout _ p' hf' hr' ht' =>
    rw [hf] at hf'
    cases hf'
    exact ⟨rfl, rfl⟩

/-- A stop: first the data collected so far, then the end-of-run buffer for every output which
can take one while there is a buffer, then the answer.  Missing: the others, see
`C87_stop_skipped_counterexample`. -/
theorem C87_stop_partial {cfg : Cfg} (hn : 2 ≤ cfg.nout) (s : St) {c : FileCmd}
    (hm : c.mode = "stop") (now : Rat) (outs : List (Bool × Bool)) :
    ∃ (pre : List Ev) (ks : List Nat), events cfg s (.file c now outs)
        = pre ++ .flush :: (ks.map Ev.eol ++ [.ans c.id true none]) ∧
      (∀ k, Ev.eol k ∉ pre) ∧ (∀ i q, Ev.ans i true q ∉ pre) ∧ ks.Nodup ∧
      ∀ k, k ∈ ks ↔ 1 ≤ k ∧ k < cfg.nout ∧ outs[k - 1]? = some (true, true) := by
  obtain ⟨s', he, _⟩ := eff_events cfg s (.file c now outs)
  generalize events cfg s (.file c now outs) = es at *
  cases he with
  | small _ _ _ hn' => omega
  | start _ _ _ hn' hm' => rw [hm] at hm'; exact absurd hm' (by decide)
  | stop _ _ _ hn' hm' =>
    refine ⟨fileDrop s.file ++ stopLines cfg false 0 now s,
      (fileOuts cfg).filter fun k =>
        (outs.getD (k - 1) (false, false)).1 && (outs.getD (k - 1) (false, false)).2,
      ?_, ?_, ?_, ?_, ?_⟩
    · simp [eols]
    · intro k hk
      rcases List.mem_append.1 hk with hk | hk
      · cases hh : s.file with
        | none => rw [hh] at hk; cases hk
        | some p => rw [hh] at hk; cases List.mem_singleton.1 hk
      · unfold stopLines at hk
        split at hk
        · cases hk
        · cases List.mem_singleton.1 hk
    · intro i q hk
      rcases List.mem_append.1 hk with hk | hk
      · cases (fileDrop_mem hk).1
      · exact ans_of_noAns (noAns_stopLines _ _ _ _ _) hk
    · refine List.Nodup.filter _ ?_
      rw [fileOuts_eq]
      exact List.nodup_range'
    · intro k
      rw [List.mem_filter, mem_fileOuts, List.getD_eq_getElem?_getD]
      cases hh : outs[k - 1]? with
      | none => simp
      | some x =>
        obtain ⟨a, b⟩ := x
        cases a <;> cases b <;> simp
  | other _ _ _ hn' h1 h2 => exact absurd hm h2

/-! ## Runs -/

/-- Every event gets the run which was confirmed last and not stopped, and the events of a run are
counted from 1. -/
theorem C87_event_numbers {cfg : Cfg} {pfx : String} {run0 : Nat} {s : St}
    (h : Reach cfg pfx run0 s) (hb : cfg.recv = true ∨ cfg.send = true) :
    events cfg s .build =
      [.event (tracked pfx 0 s.log).run ((tracked pfx 0 s.log).count + 1)] := by
  have ht := track_reach h
  have h0 : firstRun cfg run0 = 0 := by
    unfold firstRun
    rcases hb with hb | hb <;> simp [hb]
  rw [h0] at ht
  rw [ht.run, ht.count]
  obtain ⟨s', he, _⟩ := eff_events cfg s .build
  generalize events cfg s .build = es at *
  cases he
  rfl

/-- The run information of a node in a network: start and stop of runs follow each other, each stop
names run and file which were started; what is open is the run under way. -/
theorem C87_run_info {cfg : Cfg} (ho : cfg.ora = true) (hb : cfg.recv = true ∨ cfg.send = true)
    {pfx : String} {run0 : Nat} {s : St} (h : Reach cfg pfx run0 s) :
    paired none (lines s.log) =
      some (if ended s.log ∨ (tracked pfx 0 s.log).run = 0 then none
        else some ((tracked pfx 0 s.log).run, (tracked pfx 0 s.log).pfx)) := by
  have ht := track_reach h
  have hl := lines_reach ho h
  have h0 : firstRun cfg run0 = 0 := by
    unfold firstRun
    rcases hb with hb | hb <;> simp [hb]
  rw [h0] at ht hl
  unfold LinesOk at hl
  have : opened 0 pfx = none := rfl
  rw [this] at hl
  rw [hl, ht.run, ht.name]
  unfold opened
  by_cases he : ended s.log = true
  · simp [he]
  · by_cases hz : s.runNumber = 0
    · simp [hz]
    · simp [he, hz]

/-- A stop line is for the run under way and tells its number of events.  Its time is the one
of the stop or exit, or the one when the next run begins. -/
theorem C87_stop_line {cfg : Cfg} {pfx : String} {run0 : Nat} {s : St}
    (h : Reach cfg pfx run0 s) (hb : cfg.recv = true ∨ cfg.send = true) (op : Op)
    (hv : Valid s.log op) {r n : Nat} {p : String} {f : Nat} {tm : StopAt}
    (hm : Ev.line (.stop r p f tm n) ∈ events cfg s op) :
    r = (tracked pfx 0 s.log).run ∧ r ≠ 0 ∧ n = (tracked pfx 0 s.log).count ∧
    ((∃ c now o, op = .file c now o ∧ c.mode = "stop" ∧ tm = .clock now) ∨
     (∃ now, op = .exit now ∧ tm = .clock now) ∨
     (∃ i k b now, op = .restarted i k b now ∧
       tm = if (tracked pfx 0 (step cfg s op).log).run = 0 then .clock now
         else .run (tracked pfx 0 (step cfg s op).log).run)) := by
  have ht := track_reach h
  have ht' := track_reach (Reach.step op h hv)
  have h0 : firstRun cfg run0 = 0 := by
    unfold firstRun
    rcases hb with hb | hb <;> simp [hb]
  rw [h0] at ht ht'
  rw [ht.run, ht.count, ht'.run]
  obtain ⟨s', he, hs⟩ := eff_events cfg s op
  have hrun : (step cfg s op).runNumber = s'.runNumber := by rw [hs]
  rw [hrun]
  clear hs hrun ht ht'
  generalize events cfg s op = es at *
  have noline : ∀ {l : List Ev}, (lines l = []) → Ev.line (.stop r p f tm n) ∉ l := by
    intro l hl hx
    have : Line.stop r p f tm n ∈ lines l := List.mem_filterMap.2 ⟨_, hx, rfl⟩
    rw [hl] at this
    cases this
  have key : ∀ {b : Bool} {m : Nat} {now : Rat},
      Ev.line (.stop r p f tm n) ∈ stopLines cfg b m now s →
      r = s.runNumber ∧ r ≠ 0 ∧ n = s.built ∧
        tm = if b || m == 0 then .clock now else .run m := by
    intro b m now hx
    unfold stopLines at hx
    split at hx
    · cases hx
    · rename_i hz
      have := List.mem_singleton.1 hx
      injection this with this
      injection this with e1 e2 e3 e4 e5
      have hz' : s.runNumber ≠ 0 := by
        intro h0
        simp [h0] at hz
      exact ⟨e1, e1 ▸ hz', e5, e4⟩
  cases he with
  | stop c now outs hn hm' =>
    have hm2 : Ev.line (.stop r p f tm n) ∈ stopLines cfg false 0 now s := by
      rcases List.mem_append.1 hm with hm | hm
      · rcases List.mem_append.1 hm with hm | hm
        · rcases List.mem_append.1 hm with hm | hm
          · rcases List.mem_append.1 hm with hm | hm
            · exact absurd hm (noline (lines_fileDrop _))
            · exact hm
          · cases List.mem_singleton.1 hm
        · exact absurd hm (noline (lines_eols _ _))
      · cases List.mem_singleton.1 hm
    obtain ⟨a, b, c', d⟩ := key hm2
    exact ⟨a, b, c', .inl ⟨c, now, outs, rfl, hm', d⟩⟩
  | last id' k ok now pp hf hl =>
    have hm2 : Ev.line (.stop r p f tm n) ∈ stopLines cfg false pp.runid now s := by
      rcases List.mem_append.1 hm with hm | hm
      · rcases List.mem_append.1 hm with hm | hm
        · exact hm
        · unfold startLines at hm
          split at hm
          · cases hm
          · cases List.mem_singleton.1 hm
      · cases List.mem_singleton.1 hm
    obtain ⟨a, b, c', d⟩ := key hm2
    refine ⟨a, b, c', .inr (.inr ⟨id', k, ok, now, rfl, ?_⟩)⟩
    rw [d]
    by_cases hz : pp.runid = 0 <;> simp [hz]
  | exit now =>
    obtain ⟨a, b, c', d⟩ := key hm
    exact ⟨a, b, c', .inr (.inl ⟨now, rfl, d⟩)⟩
  | small c now outs hn => exact absurd hm (noline rfl)
  | start c now outs hn hm' =>
    refine absurd hm (noline ?_)
    rw [lines_append, lines_fileDrop,
      lines_map (fun k => Ev.restart c.id k c.pfx) (fun _ => trivial)]
    rfl
  | other c now outs hn h1 h2 =>
    refine absurd hm (noline ?_)
    rw [lines_append, lines_fileDrop]
    rfl
  | idle id' k ok now hf => cases hm
  | more id' k ok now pp hf hl => cases hm
  | tick now hh => cases hm
  | timeout now pp hf hr ht => exact absurd hm (noline rfl)
  | calNone c hh => exact absurd hm (noline rfl)
  | cal c hh =>
    refine absurd hm (noline ?_)
    rw [lines_append, lines_append, lines_calDrop, lines_map Ev.mkdir (fun _ => trivial),
      lines_map (fun n => Ev.tdc c.id n c.mode (calDirOf cfg c)) (fun _ => trivial)]
    rfl
  | calIdle id' n' q hf => cases hm
  | calMore id' n' q pp hf hl => cases hm
  | calLast id' n' q pp hf hl =>
    refine absurd hm (noline ?_)
    rw [lines_append, lines_packEv]
    rfl
  | refNone id' hh => exact absurd hm (noline rfl)
  | ref id' hh =>
    refine absurd hm (noline ?_)
    rw [lines_append, lines_refDrop, lines_map (fun n => Ev.refr id' n) (fun _ => trivial)]
    rfl
  | refIdle id' n' q hf => cases hm
  | refMore id' n' q pp hf hl => cases hm
  | refLast id' n' q pp hf hl => exact absurd hm (noline rfl)
  | build => exact absurd hm (noline rfl)

/-- Without the option nothing is written. -/
theorem C87_no_info {cfg : Cfg} (ho : cfg.ora = false) {pfx : String} {run0 : Nat} {s : St}
    (h : Reach cfg pfx run0 s) : lines s.log = [] := by
  induction h with
  | init => rfl
  | @step s op hr hv ih =>
    have hl : s.log ++ .got op :: events cfg s op = s.log ++ ([.got op] ++ events cfg s op) := by
      simp
    rw [step_log, hl, lines_append, lines_append, ih]
    have hg : lines [.got op] = [] := rfl
    rw [hg]
    obtain ⟨s', he, _⟩ := eff_events cfg s op
    generalize events cfg s op = es at *
    have hst : ∀ b m now, stopLines cfg b m now s = [] := by
      intro b m now; simp [stopLines, ho]
    have hsa : ∀ n p, startLines cfg n p = [] := by
      intro n p; simp [startLines, ho]
    cases he with
    | small c now outs hn => rfl
    | start c now outs hn hm' =>
      rw [lines_append, lines_fileDrop,
        lines_map (fun k => Ev.restart c.id k c.pfx) (fun _ => trivial)]
      rfl
    | stop c now outs hn hm' =>
      rw [hst, lines_append, lines_append, lines_append, lines_append, lines_fileDrop, lines_eols]
      rfl
    | other c now outs hn h1 h2 =>
      rw [lines_append, lines_fileDrop]
      rfl
    | idle id' k ok now hf => rfl
    | more id' k ok now pp hf hl => rfl
    | last id' k ok now pp hf hl => rw [hst, hsa]; rfl
    | tick now hh => rfl
    | timeout now pp hf hr ht => rfl
    | calNone c hh => rfl
    | cal c hh =>
      rw [lines_append, lines_append, lines_calDrop, lines_map Ev.mkdir (fun _ => trivial),
        lines_map (fun n => Ev.tdc c.id n c.mode (calDirOf cfg c)) (fun _ => trivial)]
      rfl
    | calIdle id' n' q hf => rfl
    | calMore id' n' q pp hf hl => rfl
    | calLast id' n' q pp hf hl =>
      rw [lines_append, lines_packEv]
      rfl
    | refNone id' hh => rfl
    | ref id' hh =>
      rw [lines_append, lines_refDrop, lines_map (fun n => Ev.refr id' n) (fun _ => trivial)]
      rfl
    | refIdle id' n' q hf => rfl
    | refMore id' n' q pp hf hl => rfl
    | refLast id' n' q pp hf hl => rfl
    | build => rfl
    | exit now => rw [hst]; rfl

/-! ## Calibrations -/

/-- An accepted calibration command: one still under way is answered with `false`; every input gets
one order with the mode.  The directory of the run is made and given to them unless it is a
start, no run is named or no directory is configured. -/
theorem C87_calibr_orders {cfg : Cfg} (hs : cfg.send = true) (hn : cfg.nin ≠ 0) (s : St)
    (c : CalCmd) :
    ∃ dir : Option Nat,
      (dir = if c.mode = "start" ∨ cfg.calDir = "" ∨ c.runid = 0 then none else some c.runid) ∧
      events cfg s (.calibr c) =
        (s.cal.toList.map fun p => .ans p.id false (some p.q)) ++ dir.toList.map Ev.mkdir ++
        (List.range cfg.nin).map fun n => .tdc c.id n c.mode dir := by
  refine ⟨calDirOf cfg c, ?_, ?_⟩
  · unfold calDirOf
    by_cases h1 : c.mode = "start" <;> by_cases h2 : cfg.calDir = "" <;>
      by_cases h3 : c.runid = 0 <;> simp [h1, h2, h3]
  · obtain ⟨s', he, _⟩ := eff_events cfg s (.calibr c)
    generalize events cfg s (.calibr c) = es at *
    have hd : ∀ o : Option CalPend,
        calDrop o = o.toList.map fun p => .ans p.id false (some p.q) :=
      fun o => by cases o <;> rfl
    cases he with
    | calNone _ hh => simp [hs, hn] at hh
    | cal _ hh => rw [hd]

/-- A calibration is confirmed when, after it came, there were as many replies as inputs; its
quality is the smallest one in them.  When these are replies to it, every input replied.  The script
is called exactly once before, for the directory of the run, when it was a stop.  Missing: replies
to an earlier command are counted too, see `C87_stale_calibr_counterexample`. -/
theorem C87_calibr_confirmed_partial {cfg : Cfg} {pfx : String} {run0 : Nat} {s : St}
    (h : Reach cfg pfx run0 s) {op : Op} (hv : Valid s.log op) {c : CalCmd}
    (hg : Ev.got (.calibr c) ∈ s.log) {q : Option Rat}
    (ha : Ev.ans c.id true q ∈ events cfg s op) :
    ∃ l1 l2 x, s.log ++ [.got op] = l1 ++ .got (.calibr c) :: l2 ∧
      (calibrs l2).length = cfg.nin ∧
      q = some x ∧ Smallest x ((calibrs l2).map (·.2.2)) ∧
      ((∀ y ∈ calibrs l2, y.1 = c.id) →
        ∀ n, n < cfg.nin → ∃ q', Ev.got (.calibrated c.id n q') ∈ l2) ∧
      events cfg s op =
        (if c.mode = "stop" ∧ cfg.pack ≠ "" ∧ cfg.calDir ≠ "" ∧ c.runid ≠ 0 then
          [.packed c.runid] else []) ++ [.ans c.id true (some x)] := by
  obtain ⟨id, n, q', p, rfl, hf, hl, hid, hq, l1, l2, hlog, hlen, hsm, hmode, hdir⟩ :=
    cal_confirmed h hv hg ha
  have hr1 : calibrs (l2 ++ [.got (.calibrated id n q')]) = calibrs l2 ++ [(id, n, q')] := by
    rw [calibrs_append]; rfl
  have hrep := replies_reach (Reach.step _ h hv)
  have hslog : (step cfg s (.calibrated id n q')).log =
      (l1 ++ [.got (.calibr c)]) ++ ((l2 ++ [.got (.calibrated id n q')])
        ++ events cfg s (.calibrated id n q')) := by
    rw [step_log, hlog]; simp
  refine ⟨l1, l2 ++ [.got (.calibrated id n q')], lower q' p.q, by rw [hlog]; simp, ?_, hq, ?_, ?_,
    ?_⟩
  · rw [hr1]; simp; omega
  · rw [hr1, List.map_append]
    exact smallest_snoc hsm q'
  · intro hall j hj
    have hnd : ((calibrs (l2 ++ [.got (.calibrated id n q')])).map fun x => (x.1, x.2.1)).Nodup := by
      have := hrep.ins1
      rw [hslog, calibrs_append, calibrs_append (l2 ++ _), List.map_append, List.map_append] at this
      exact (List.nodup_append.1 (List.nodup_append.1 this).2.1).1
    have hsub : ∀ x ∈ calibrs (l2 ++ [.got (.calibrated id n q')]), x.2.1 < cfg.nin := by
      intro x hx
      refine hrep.ins x.1 x.2.1 x.2.2 ?_
      rw [hslog, calibrs_append, calibrs_append (l2 ++ _)]
      exact List.mem_append_right _ (List.mem_append_left _ hx)
    generalize hL : calibrs (l2 ++ [.got (.calibrated id n q')]) = L at *
    have hnd2 : (L.map (·.2.1)).Nodup := by
      have hmm : L.map (·.2.1) = (L.map fun x => (x.1, x.2.1)).map (·.2) := by
        rw [List.map_map]; rfl
      rw [hmm]
      refine List.Nodup.map_on ?_ hnd
      intro x hx y hy hxy
      obtain ⟨x', hx', rfl⟩ := List.mem_map.1 hx
      obtain ⟨y', hy', rfl⟩ := List.mem_map.1 hy
      exact Prod.ext ((hall x' hx').trans (hall y' hy').symm) hxy
    have := all_of_count (l := L.map (·.2.1)) (m := List.range cfg.nin) hnd2
      (by
        intro x hx
        obtain ⟨y, hy, rfl⟩ := List.mem_map.1 hx
        exact List.mem_range.2 (hsub y hy))
      (by
        rw [List.length_range, List.length_map, hr1]
        simp; omega) j (List.mem_range.2 hj)
    obtain ⟨⟨i, j', q''⟩, hy, rfl⟩ := List.mem_map.1 this
    have hi : i = c.id := hall _ hy
    subst hi
    rw [← hL] at hy
    exact ⟨q'', mem_calibrs.1 hy⟩
  · obtain ⟨s', he, _⟩ := eff_events cfg s (.calibrated id n q')
    generalize events cfg s (.calibrated id n q') = es at *
    cases he with
    | calIdle _ _ _ hf' => rw [hf] at hf'; cases hf'
    | calMore _ _ _ p' hf' hl' => rw [hf] at hf'; cases hf'; exact absurd hl hl'
    | calLast _ _ _ p' hf' hl' =>
      rw [hf] at hf'
      cases hf'
      have hpk : packEv cfg p = if c.mode = "stop" ∧ cfg.pack ≠ "" ∧ cfg.calDir ≠ "" ∧ c.runid ≠ 0
          then [.packed c.runid] else [] := by
        unfold packEv
        rw [hdir, ← hmode]
        unfold calDirOf
        by_cases hstop : c.mode = "stop"
        · have : c.mode ≠ "start" := by rw [hstop]; decide
          by_cases h1 : cfg.pack = "" <;> by_cases h2 : cfg.calDir = "" <;>
            by_cases h3 : c.runid = 0 <;> simp [hstop, h1, h2, h3]
        · simp [hstop]
      rw [hpk, hid]

/-- A refresh command gives every input one order. -/
theorem C87_refresh_orders {cfg : Cfg} (hs : cfg.send = true) (hn : cfg.nin ≠ 0) (s : St)
    (id : Nat) :
    events cfg s (.refresh id) =
      (s.ref.toList.map fun p => .ans p.id false (some p.q)) ++
      (List.range cfg.nin).map fun n => .refr id n := by
  obtain ⟨s', he, _⟩ := eff_events cfg s (.refresh id)
  generalize events cfg s (.refresh id) = es at *
  have hd : ∀ o : Option RefPend,
      refDrop o = o.toList.map fun p => .ans p.id false (some p.q) :=
    fun o => by cases o <;> rfl
  cases he with
  | refNone _ hh => simp [hs, hn] at hh
  | ref _ hh => rw [hd]

/-! ## Where the code does not do this -/

/-- A builder with two outputs for files. -/
def builder2 : Cfg := ⟨true, false, true, 3, 1, "", ""⟩

/-- An input node with two inputs. -/
def input2 : Cfg := ⟨false, true, false, 1, 2, "cal", "pack"⟩

/-- Replies to an earlier start confirm a later one although no output replied to it: the run is
taken over while the outputs still have the old prefix. -/
theorem C87_stale_counterexample :
    ∃ s, Reach builder2 "" 0 s ∧ Ev.ans 2 true none ∈ s.log ∧
      restarts s.log = [(1, 1), (1, 2)] := by
  refine ⟨run builder2 (St.init builder2 "" 0)
    [.file ⟨1, "start", 10, "a", none⟩ 0 [], .file ⟨2, "start", 20, "b", none⟩ 1 [],
     .restarted 1 1 true 2, .restarted 1 2 true 3], reach_run .init ?_, ?_⟩
  · decide +kernel
  · decide +kernel

/-- A start is confirmed although every output failed to take it. -/
theorem C87_failed_counterexample :
    ∃ s, Reach builder2 "" 0 s ∧ Ev.ans 1 true none ∈ s.log ∧
      Ev.got (.restarted 1 1 false 1) ∈ s.log ∧ Ev.got (.restarted 1 2 false 1) ∈ s.log := by
  refine ⟨run builder2 (St.init builder2 "" 0)
    [.file ⟨1, "start", 10, "a", none⟩ 0 [],
     .restarted 1 1 false 1, .restarted 1 2 false 1], reach_run .init ?_, ?_⟩
  · decide +kernel
  · decide +kernel

/-- A stop is confirmed although no output was told to end its file: their queues are full, or
there is no buffer. -/
theorem C87_stop_skipped_counterexample {cfg : Cfg} (hn : 2 ≤ cfg.nout) (s : St) {c : FileCmd}
    (hm : c.mode = "stop") (now : Rat) (outs : List (Bool × Bool))
    (ho : ∀ x ∈ outs, x ≠ (true, true)) :
    Ev.ans c.id true none ∈ events cfg s (.file c now outs) ∧
    ∀ k, Ev.eol k ∉ events cfg s (.file c now outs) := by
  obtain ⟨pre, ks, he, hpre, _, _, hks⟩ := C87_stop_partial hn s hm now outs
  rw [he]
  refine ⟨by simp, fun k hk => ?_⟩
  rcases List.mem_append.1 hk with hk | hk
  · exact hpre k hk
  · rcases List.mem_cons.1 hk with hk | hk
    · cases hk
    · rcases List.mem_append.1 hk with hk | hk
      · obtain ⟨k', hk', heq⟩ := List.mem_map.1 hk
        have := ((hks k').1 hk').2.2
        exact ho _ (List.mem_of_getElem? this) rfl
      · cases List.mem_singleton.1 hk

/-- Outside of a builder a start does not end by time. -/
theorem C87_no_timeout_counterexample {cfg : Cfg} (hr : cfg.recv = false) (s : St) (now : Rat) :
    events cfg s (.timer now) = [] ∧ (step cfg s (.timer now)).file = s.file := by
  obtain ⟨s', he, hs⟩ := eff_events cfg s (.timer now)
  rw [hs]
  generalize events cfg s (.timer now) = es at *
  cases he with
  | tick _ hh => exact ⟨rfl, rfl⟩
  | timeout _ p' hf' hr' ht' => rw [hr] at hr'; cases hr'

/-- Outside of a network the first line is the stop of a run which was not started. -/
theorem C87_first_line_counterexample :
    ∃ s, Reach ⟨false, false, true, 2, 1, "", ""⟩ "te" 5 s ∧
      lines s.log = [.stop 5 "te" 5 (.clock 7) 0] ∧ paired none (lines s.log) = none := by
  refine ⟨run ⟨false, false, true, 2, 1, "", ""⟩
    (St.init ⟨false, false, true, 2, 1, "", ""⟩ "te" 5)
    [.file ⟨1, "stop", 0, "", none⟩ 7 []], reach_run .init ?_, ?_⟩
  · decide +kernel
  · decide +kernel

/-- A refresh command is never answered, whatever its inputs reply, unless another refresh or
a calibration comes. -/
theorem C87_refresh_counterexample {cfg : Cfg} {pfx : String} {run0 : Nat} {s : St} {id : Nat}
    (hr : s.ref.map (·.id) = some id) (hc : s.cal = none) {ops : List Op}
    (ho : ∀ op ∈ ops, (∀ c, op ≠ .calibr c) ∧ ∀ i, op ≠ .refresh i)
    (h : Reach cfg pfx run0 (run cfg s ops)) :
    answers (run cfg s ops).log id = 0 := by
  obtain ⟨h1, h2, h3⟩ := C87_answered_once h id
  have := h3.2 (.inr (.inr (refresh_stuck hr hc ho)))
  omega

/-- When a calibration waits for its last reply, a refresh command is confirmed with the first
reply to it. -/
theorem C87_refresh_early_counterexample :
    ∃ s, Reach input2 "" 0 s ∧ Ev.ans 2 true (some 1) ∈ s.log ∧
      Ev.refr 2 1 ∈ s.log ∧ ∀ q, Ev.got (.refreshed 2 1 q) ∉ s.log := by
  refine ⟨run input2 (St.init input2 "" 0)
    [.calibr ⟨1, "start", 0⟩, .calibrated 1 0 1, .refresh 2, .refreshed 2 0 1],
    reach_run .init ?_, ?_, ?_, ?_⟩
  · decide +kernel
  · decide +kernel
  · decide +kernel
  · intro q hq
    have hl : (run input2 (St.init input2 "" 0)
        [.calibr ⟨1, "start", 0⟩, .calibrated 1 0 1, .refresh 2, .refreshed 2 0 1]).log.any
        (fun e => match e with
          | .got (.refreshed 2 1 _) => true
          | _ => false) = false := by decide +kernel
    rw [List.any_eq_false] at hl
    exact absurd rfl (hl _ hq)

/-- A calibration is confirmed with the quality of an earlier one, before any input replied
to it. -/
theorem C87_stale_calibr_counterexample :
    ∃ s, Reach input2 "" 0 s ∧ Ev.ans 2 true (some (1/2)) ∈ s.log ∧
      calibrs s.log = [(1, 0, 1/2), (1, 1, 1)] := by
  refine ⟨run input2 (St.init input2 "" 0)
    [.calibr ⟨1, "start", 0⟩, .calibr ⟨2, "stop", 7⟩, .calibrated 1 0 (1/2), .calibrated 1 1 1],
    reach_run .init ?_, ?_⟩
  · decide +kernel
  · decide +kernel

/-! ## The hypotheses can be met -/

/-- `C87_start_confirmed_partial`, `C87_run_info` and `C87_stop_line`: two runs. -/
example :
    let ops : List Op := [.file ⟨1, "start", 10, "a", none⟩ 0 [], .restarted 1 1 true 1,
      .restarted 1 2 true 1, .build, .build, .file ⟨2, "start", 20, "b", none⟩ 5 [],
      .restarted 2 2 true 6]
    let s := run builder2 (St.init builder2 "" 0) ops
    allValid builder2 (St.init builder2 "" 0) ops = true ∧
    validB s.log (.restarted 2 1 true 7) = true ∧
    events builder2 s (.restarted 2 1 true 7) =
      [.line (.stop 10 "a" 10 (.run 20) 2), .line (.start 20 "b" 20), .ans 2 true none] ∧
    events builder2 (step builder2 s (.restarted 2 1 true 7)) .build = [.event 20 1] := by
  decide +kernel

/-- `C87_start_refused` and `C87_timeout`. -/
example :
    let ops : List Op := [.file ⟨1, "start", 10, "a", none⟩ 0 []]
    let s := run builder2 (St.init builder2 "" 0) ops
    allValid builder2 (St.init builder2 "" 0) ops = true ∧
    events builder2 s (.timer 30) = [.ans 1 false none] := by
  decide +kernel

/-- `C87_calibr_confirmed_partial`. -/
example :
    let ops : List Op := [.calibr ⟨1, "stop", 7⟩, .calibrated 1 1 (3/4)]
    let s := run input2 (St.init input2 "" 0) ops
    allValid input2 (St.init input2 "" 0) ops = true ∧
    validB s.log (.calibrated 1 0 (1/2)) = true ∧
    events input2 s (.calibrated 1 0 (1/2)) = [.packed 7, .ans 1 true (some (1/2))] := by
  decide +kernel

/-- `C87_refresh_counterexample`: both inputs replied. -/
example :
    let s := run input2 (St.init input2 "" 0) [.refresh 1]
    let ops : List Op := [.refreshed 1 0 1, .refreshed 1 1 1, .timer 1000]
    allValid input2 (St.init input2 "" 0) (.refresh 1 :: ops) = true ∧
    s.ref.map (·.id) = some 1 ∧ s.cal = none ∧ answers (run input2 s ops).log 1 = 0 := by
  decide +kernel

end Verif.BnetNode
