import Verif.BnetNodeInv
import Mathlib.Data.List.Perm.Subperm
import Mathlib.Data.List.Induction

/-!
# Runs, run information and the replies of outputs
-/

namespace Verif.BnetNode

open Spec

/-! ## The run according to the log -/

/-- Nothing which the specification of the run looks at. -/
def NoTrack : Ev → Prop
  | .got (.file _ _ _) => False
  | .event _ _ => False
  | .ans _ true _ => False
  | _ => True

theorem track_quiet {es : List Ev} (h : ∀ e ∈ es, NoTrack e) (t : Track) :
    es.foldl track t = t := by
  induction es generalizing t with
  | nil => rfl
  | cons e es ih =>
    rw [List.foldl_cons]
    have he := h e List.mem_cons_self
    have : track t e = t := by
      unfold track
      split
      · exact False.elim he
      · exact False.elim he
      · exact False.elim he
      · rfl
    rw [this]
    exact ih (fun e he => h e (List.mem_cons_of_mem _ he)) t

theorem noTrack_fileDrop (o : Option FilePend) : ∀ e ∈ fileDrop o, NoTrack e := by
  cases o <;> simp [fileDrop, NoTrack]

theorem noTrack_calDrop (o : Option CalPend) : ∀ e ∈ calDrop o, NoTrack e := by
  cases o <;> simp [calDrop, NoTrack]

theorem noTrack_refDrop (o : Option RefPend) : ∀ e ∈ refDrop o, NoTrack e := by
  cases o <;> simp [refDrop, NoTrack]

theorem noTrack_stopLines (cfg : Cfg) (b : Bool) (n : Nat) (now : Rat) (s : St) :
    ∀ e ∈ stopLines cfg b n now s, NoTrack e := by
  unfold stopLines
  split <;> simp [NoTrack]

theorem noTrack_startLines (cfg : Cfg) (n : Nat) (p : String) :
    ∀ e ∈ startLines cfg n p, NoTrack e := by
  unfold startLines
  split <;> simp [NoTrack]

theorem noTrack_packEv (cfg : Cfg) (p : CalPend) : ∀ e ∈ packEv cfg p, NoTrack e := by
  unfold packEv
  split <;> simp [NoTrack]

theorem noTrack_eols (outs : List (Bool × Bool)) (ks : List Nat) :
    ∀ e ∈ eols outs ks, NoTrack e := by
  intro e he
  obtain ⟨k, _, rfl⟩ := List.mem_map.1 he
  trivial

theorem tracked_append (pfx : String) (run0 : Nat) (a b : List Ev) :
    tracked pfx run0 (a ++ b) = b.foldl track (tracked pfx run0 a) := by
  simp [tracked, List.foldl_append]

theorem track_cmds (t : Track) (e : Ev) (c : FileCmd) :
    c ∈ (track t e).cmds ↔ c ∈ t.cmds ∨ ∃ tm o, e = .got (.file c tm o) := by
  unfold track
  split
  · rename_i c' tm o
    constructor
    · intro h
      rcases List.mem_cons.1 h with h | h
      · subst h; exact .inr ⟨tm, o, rfl⟩
      · exact .inl h
    · rintro (h | ⟨tm', o', h⟩)
      · exact List.mem_cons_of_mem _ h
      · injection h with h
        injection h with h
        subst h
        exact List.mem_cons_self
  · simp
  · split
    · simp
    · split
      · simp
      · split
        · simp
        · simp
  · rename_i h1 h2 h3
    constructor
    · exact .inl
    · rintro (h | ⟨tm, o, h⟩)
      · exact h
      · exact absurd h (h1 c tm o)

theorem tracked_cmds (pfx : String) (run0 : Nat) (log : List Ev) (c : FileCmd) :
    c ∈ (tracked pfx run0 log).cmds ↔ ∃ tm o, Ev.got (.file c tm o) ∈ log := by
  induction log using List.reverseRecOn with
  | nil => simp [tracked]
  | append_singleton l e ih =>
    rw [tracked_append, List.foldl_cons, List.foldl_nil, track_cmds, ih]
    constructor
    · rintro (⟨tm, o, h⟩ | ⟨tm, o, h⟩)
      · exact ⟨tm, o, List.mem_append_left _ h⟩
      · exact ⟨tm, o, by rw [h]; simp⟩
    · rintro ⟨tm, o, h⟩
      rcases List.mem_append.1 h with h | h
      · exact .inl ⟨tm, o, h⟩
      · exact .inr ⟨tm, o, (List.mem_singleton.1 h).symm⟩

/-- The run at the beginning: none in a builder network. -/
def firstRun (cfg : Cfg) (run0 : Nat) : Nat := if cfg.recv || cfg.send then 0 else run0

/-- Confirming a command which is not for files changes nothing. -/
theorem track_foreign {t : Track} {id : Nat} {q : Option Rat} (h : ∀ c ∈ t.cmds, c.id ≠ id) :
    track t (.ans id true q) = t := by
  have : t.cmds.find? (fun c => c.id == id) = none := by
    rw [List.find?_eq_none]
    intro c hc
    simp [h c hc]
  simp [track, this]

/-- The command found is the one with the number. -/
theorem find_cmd {cs : List FileCmd} {c : FileCmd} (hc : c ∈ cs)
    (hu : ∀ c' ∈ cs, c'.id = c.id → c' = c) :
    cs.find? (fun x => x.id == c.id) = some c := by
  cases hf : cs.find? (fun x => x.id == c.id) with
  | none =>
    rw [List.find?_eq_none] at hf
    have := hf c hc
    simp at this
  | some d =>
    have h1 := List.find?_some hf
    have h2 := List.mem_of_find?_eq_some hf
    rw [hu d h2 (by simpa using h1)]

/-- The state follows the log. -/
structure TrackOk (pfx : String) (run0 : Nat) (s : St) : Prop where
  run : (tracked pfx run0 s.log).run = s.runNumber
  name : (tracked pfx run0 s.log).pfx = s.pfx
  count : (tracked pfx run0 s.log).count = s.built

theorem trackOk_quiet {pfx : String} {run0 : Nat} {s s' : St} {log es : List Ev}
    (h : TrackOk pfx run0 s) (hes : ∀ e ∈ es, NoTrack e) (hl : log = s.log ++ es)
    (h1 : s'.runNumber = s.runNumber) (h2 : s'.pfx = s.pfx) (h3 : s'.built = s.built) :
    TrackOk pfx run0 { s' with log := log } := by
  have : tracked pfx run0 log = tracked pfx run0 s.log := by
    rw [hl, tracked_append, track_quiet hes]
  refine ⟨?_, ?_, ?_⟩
  · show (tracked pfx run0 log).run = s'.runNumber
    rw [this, h.run, h1]
  · show (tracked pfx run0 log).pfx = s'.pfx
    rw [this, h.name, h2]
  · show (tracked pfx run0 log).count = s'.built
    rw [this, h.count, h3]

theorem cons_noTrack {e : Ev} {es : List Ev} (h1 : NoTrack e) (h2 : ∀ e ∈ es, NoTrack e) :
    ∀ x ∈ e :: es, NoTrack x := by
  intro x hx
  rcases List.mem_cons.1 hx with hx | hx
  · rw [hx]; exact h1
  · exact h2 x hx

theorem append_noTrack {a b : List Ev} (h1 : ∀ e ∈ a, NoTrack e) (h2 : ∀ e ∈ b, NoTrack e) :
    ∀ x ∈ a ++ b, NoTrack x := by
  intro x hx
  rcases List.mem_append.1 hx with hx | hx
  · exact h1 x hx
  · exact h2 x hx

theorem nil_noTrack : ∀ e ∈ ([] : List Ev), NoTrack e := fun _ h => by cases h

/-- A command which is not for files, confirmed at the end. -/
theorem trackOk_foreign {pfx : String} {run0 : Nat} {s s' : St} {log es : List Ev} {id : Nat}
    {q : Option Rat} {op : Op} (h : TrackOk pfx run0 s) (hes : ∀ e ∈ es, NoTrack e)
    (hl : log = s.log ++ (es ++ [.ans id true q]))
    (hr : received log id ≤ 1) (hg : Ev.got op ∈ log) (hi : cmdId op = some id)
    (hf : isFile op = false)
    (h1 : s'.runNumber = s.runNumber) (h2 : s'.pfx = s.pfx) (h3 : s'.built = s.built) :
    TrackOk pfx run0 { s' with log := log } := by
  have : tracked pfx run0 log = tracked pfx run0 s.log := by
    rw [hl, tracked_append, List.foldl_append, track_quiet hes, List.foldl_cons, List.foldl_nil]
    refine track_foreign fun c hc hid => ?_
    obtain ⟨tm, o, hm⟩ := (tracked_cmds _ _ _ _).1 hc
    have hm' : Ev.got (.file c tm o) ∈ log := by rw [hl]; exact List.mem_append_left _ hm
    have := got_unique hr hm' hg (by simp [cmdId, hid]) hi
    rw [← this] at hf
    cases hf
  refine ⟨?_, ?_, ?_⟩
  · show (tracked pfx run0 log).run = s'.runNumber
    rw [this, h.run, h1]
  · show (tracked pfx run0 log).pfx = s'.pfx
    rw [this, h.name, h2]
  · show (tracked pfx run0 log).count = s'.built
    rw [this, h.count, h3]

theorem track_reach {cfg : Cfg} {pfx : String} {run0 : Nat} {s : St} (h : Reach cfg pfx run0 s) :
    TrackOk pfx (firstRun cfg run0) s := by
  induction h with
  | init => exact ⟨rfl, rfl, rfl⟩
  | @step s op hr hv ih =>
    have hrec := fun id => (owed_reach (Reach.step op hr hv) id).2
    have hp := pend_reach hr
    obtain ⟨s', he, hs⟩ := eff_events cfg s op
    rw [hs] at hrec ⊢
    generalize events cfg s op = es at *
    clear hs
    dsimp only at hrec
    cases he with
    | small c now outs hn =>
      have h0 : (tracked pfx (firstRun cfg run0)
          (s.log ++ [.got (.file c now outs), .ans c.id false none])) =
          { tracked pfx (firstRun cfg run0) s.log with
            cmds := c :: (tracked pfx (firstRun cfg run0) s.log).cmds } := by
        rw [tracked_append]; rfl
      exact ⟨by dsimp only; rw [h0]; exact ih.run, by dsimp only; rw [h0]; exact ih.name,
        by dsimp only; rw [h0]; exact ih.count⟩
    | start c now outs hn hm =>
      have h0 : (tracked pfx (firstRun cfg run0)
          (s.log ++ .got (.file c now outs) :: (fileDrop s.file
            ++ (fileOuts cfg).map fun k => .restart c.id k c.pfx))) =
          { tracked pfx (firstRun cfg run0) s.log with
            cmds := c :: (tracked pfx (firstRun cfg run0) s.log).cmds } := by
        rw [tracked_append, List.foldl_cons, track_quiet]
        · rfl
        · refine append_noTrack (noTrack_fileDrop _) fun e he => ?_
          obtain ⟨k, _, rfl⟩ := List.mem_map.1 he
          trivial
      exact ⟨by dsimp only; rw [h0]; exact ih.run, by dsimp only; rw [h0]; exact ih.name,
        by dsimp only; rw [h0]; exact ih.count⟩
    | stop c now outs hn hm =>
      have h0 : (tracked pfx (firstRun cfg run0)
          (s.log ++ .got (.file c now outs) :: (fileDrop s.file ++ stopLines cfg false 0 now s
            ++ [.flush] ++ eols outs (fileOuts cfg) ++ [.ans c.id true none]))) =
          { tracked pfx (firstRun cfg run0) s.log with
            cmds := c :: (tracked pfx (firstRun cfg run0) s.log).cmds
            run := 0 } := by
        rw [tracked_append, List.foldl_cons, List.foldl_append,
          track_quiet (append_noTrack (append_noTrack (append_noTrack (noTrack_fileDrop _)
            (noTrack_stopLines _ _ _ _ _)) (cons_noTrack (e := .flush) trivial nil_noTrack))
            (noTrack_eols _ _))]
        simp [track, hm]
      exact ⟨by dsimp only; rw [h0], by dsimp only; rw [h0]; exact ih.name,
        by dsimp only; rw [h0]; exact ih.count⟩
    | other c now outs hn h1 h2 =>
      have h0 : (tracked pfx (firstRun cfg run0)
          (s.log ++ .got (.file c now outs) :: (fileDrop s.file ++ [.ans c.id true none]))) =
          { tracked pfx (firstRun cfg run0) s.log with
            cmds := c :: (tracked pfx (firstRun cfg run0) s.log).cmds } := by
        rw [tracked_append, List.foldl_cons, List.foldl_append, track_quiet (noTrack_fileDrop _)]
        simp [track, h1, h2]
      exact ⟨by dsimp only; rw [h0]; exact ih.run, by dsimp only; rw [h0]; exact ih.name,
        by dsimp only; rw [h0]; exact ih.count⟩
    | idle id' k ok now hf =>
      exact trackOk_quiet ih (cons_noTrack (e := .got (.restarted id' k ok now)) trivial nil_noTrack)
        rfl rfl rfl rfl
    | more id' k ok now p hf hl =>
      exact trackOk_quiet ih (cons_noTrack (e := .got (.restarted id' k ok now)) trivial nil_noTrack)
        rfl rfl rfl rfl
    | last id' k ok now p hf hl =>
      obtain ⟨l1, l2, c, t, o, hlog, hid, hm, hrun, hpfx, ht, hn, hc, h1, hno⟩ := hp.file p hf
      have hg : Ev.got (.file c t o) ∈ s.log := by rw [hlog]; simp
      have hfind : (tracked pfx (firstRun cfg run0) s.log).cmds.find? (fun x => x.id == p.id)
          = some c := by
        rw [← hid]
        refine find_cmd ((tracked_cmds _ _ _ _).2 ⟨t, o, hg⟩) fun c' hc' hid' => ?_
        obtain ⟨t', o', hg'⟩ := (tracked_cmds _ _ _ _).1 hc'
        have := got_unique (hrec c.id) (List.mem_append_left _ hg') (List.mem_append_left _ hg)
          (by simp [cmdId, hid']) rfl
        injection this
      have h0 : (tracked pfx (firstRun cfg run0)
          (s.log ++ .got (.restarted id' k ok now) :: (stopLines cfg false p.runid now s
            ++ startLines cfg p.runid (newPfx s.pfx p.pfx) ++ [.ans p.id true none]))) =
          { tracked pfx (firstRun cfg run0) s.log with
            run := c.runid
            pfx := if c.pfx = "" then (tracked pfx (firstRun cfg run0) s.log).pfx else c.pfx
            count := 0 } := by
        rw [tracked_append, List.foldl_cons, List.foldl_append,
          track_quiet (append_noTrack (noTrack_stopLines _ _ _ _ _) (noTrack_startLines _ _ _))]
        show track (tracked pfx (firstRun cfg run0) s.log) (.ans p.id true none) = _
        simp [track, hfind, hm]
      refine ⟨by dsimp only; rw [h0]; exact hrun, ?_, by dsimp only; rw [h0]⟩
      dsimp only
      rw [h0]
      dsimp only
      rw [ih.name, hpfx]
      rfl
    | tick now hh =>
      exact trackOk_quiet ih (cons_noTrack (e := .got (.timer now)) trivial nil_noTrack)
        rfl rfl rfl rfl
    | timeout now p hf hrr ht =>
      exact trackOk_quiet ih (cons_noTrack (e := .got (.timer now)) trivial
        (cons_noTrack (e := .ans p.id false none) trivial nil_noTrack)) rfl rfl rfl rfl
    | calNone c hh =>
      exact trackOk_foreign (es := [.got (.calibr c)]) (op := .calibr c) ih
        (cons_noTrack trivial nil_noTrack) rfl (hrec c.id) (by simp) rfl rfl rfl rfl rfl
    | cal c hh =>
      refine trackOk_quiet ih (cons_noTrack (e := .got (.calibr c)) trivial ?_) rfl rfl rfl rfl
      refine append_noTrack (append_noTrack (noTrack_calDrop _) fun e he => ?_) fun e he => ?_
      · obtain ⟨k, _, rfl⟩ := List.mem_map.1 he
        trivial
      · obtain ⟨k, _, rfl⟩ := List.mem_map.1 he
        trivial
    | calIdle id' n q hf =>
      exact trackOk_quiet ih (cons_noTrack (e := .got (.calibrated id' n q)) trivial nil_noTrack)
        rfl rfl rfl rfl
    | calMore id' n q p hf hl =>
      exact trackOk_quiet ih (cons_noTrack (e := .got (.calibrated id' n q)) trivial nil_noTrack)
        rfl rfl rfl rfl
    | calLast id' n q p hf hl =>
      obtain ⟨l1, l2, c, hlog, hid, _⟩ := hp.cal p hf
      exact trackOk_foreign (es := .got (.calibrated id' n q) :: packEv cfg p) (op := .calibr c) ih
        (cons_noTrack trivial (noTrack_packEv _ _)) rfl (hrec p.id)
        (List.mem_append_left _ (by rw [hlog]; simp)) (by simp [cmdId, hid]) rfl rfl rfl rfl
    | refNone id' hh =>
      exact trackOk_foreign (es := [.got (.refresh id')]) (op := .refresh id') ih
        (cons_noTrack trivial nil_noTrack) rfl (hrec id') (by simp) rfl rfl rfl rfl rfl
    | ref id' hh =>
      refine trackOk_quiet ih (cons_noTrack (e := .got (.refresh id')) trivial ?_) rfl rfl rfl rfl
      refine append_noTrack (noTrack_refDrop _) fun e he => ?_
      obtain ⟨k, _, rfl⟩ := List.mem_map.1 he
      trivial
    | refIdle id' n q hf =>
      exact trackOk_quiet ih (cons_noTrack (e := .got (.refreshed id' n q)) trivial nil_noTrack)
        rfl rfl rfl rfl
    | refMore id' n q p hf hl =>
      exact trackOk_quiet ih (cons_noTrack (e := .got (.refreshed id' n q)) trivial nil_noTrack)
        rfl rfl rfl rfl
    | refLast id' n q p hf hl =>
      exact trackOk_foreign (es := [.got (.refreshed id' n q)]) (op := .refresh p.id) ih
        (cons_noTrack trivial nil_noTrack) rfl (hrec p.id)
        (List.mem_append_left _ (hp.ref p hf)) rfl rfl rfl rfl rfl
    | build =>
      have h0 : (tracked pfx (firstRun cfg run0)
          (s.log ++ [.got .build, .event s.runNumber (s.built + 1)])) =
          { tracked pfx (firstRun cfg run0) s.log with
            count := (tracked pfx (firstRun cfg run0) s.log).count + 1 } := by
        rw [tracked_append]; rfl
      exact ⟨by dsimp only; rw [h0]; exact ih.run, by dsimp only; rw [h0]; exact ih.name,
        by dsimp only; rw [h0]; exact congrArg (· + 1) ih.count⟩
    | exit now =>
      exact trackOk_quiet ih (cons_noTrack (e := .got (.exit now)) trivial
        (noTrack_stopLines _ _ _ _ _)) rfl rfl rfl rfl

/-! ## The run information -/

theorem lines_append (a b : List Ev) : lines (a ++ b) = lines a ++ lines b := by
  simp [lines, List.filterMap_append]

/-- No line of the run information. -/
def NoLine : Ev → Prop
  | .line _ => False
  | _ => True

theorem lines_quiet {es : List Ev} (h : ∀ e ∈ es, NoLine e) : lines es = [] := by
  unfold lines
  refine List.filterMap_eq_nil_iff.2 fun e he => ?_
  have := h e he
  cases e <;> simp_all [NoLine]

theorem lines_fileDrop (o : Option FilePend) : lines (fileDrop o) = [] := by
  cases o <;> rfl

theorem lines_calDrop (o : Option CalPend) : lines (calDrop o) = [] := by
  cases o <;> rfl

theorem lines_refDrop (o : Option RefPend) : lines (refDrop o) = [] := by
  cases o <;> rfl

theorem lines_packEv (cfg : Cfg) (p : CalPend) : lines (packEv cfg p) = [] := by
  refine lines_quiet ?_
  unfold packEv
  split <;> simp [NoLine]

theorem lines_eols (outs : List (Bool × Bool)) (ks : List Nat) : lines (eols outs ks) = [] := by
  refine lines_quiet fun e he => ?_
  obtain ⟨k, _, rfl⟩ := List.mem_map.1 he
  trivial

theorem lines_map {l : List Nat} (f : Nat → Ev) (h : ∀ n, NoLine (f n)) :
    lines (l.map f) = [] := by
  refine lines_quiet fun e he => ?_
  obtain ⟨k, _, rfl⟩ := List.mem_map.1 he
  exact h k

theorem paired_append (o : Option (Nat × String)) (a b : List Line) :
    paired o (a ++ b) = (paired o a).bind fun o => paired o b := by
  induction a generalizing o with
  | nil => rw [List.nil_append]; cases o <;> simp [paired]
  | cons l a ih =>
    cases o with
    | none =>
      cases l with
      | start r p f =>
        simp only [List.cons_append, paired]
        split
        · exact ih _
        · rfl
      | stop r p f t n => rfl
    | some rp =>
      obtain ⟨r, p⟩ := rp
      cases l with
      | start r' p' f => rfl
      | stop r' p' f t n =>
        simp only [List.cons_append, paired]
        split
        · exact ih _
        · rfl

/-- Run and prefix which are open. -/
def opened (run : Nat) (pfx : String) : Option (Nat × String) :=
  if run = 0 then none else some (run, pfx)

theorem paired_stopLines {cfg : Cfg} (ho : cfg.ora = true) (b : Bool) (n : Nat) (now : Rat)
    (s : St) : paired (opened s.runNumber s.pfx) (lines (stopLines cfg b n now s)) = some none := by
  unfold stopLines opened
  by_cases hz : s.runNumber = 0
  · simp [hz, lines, paired]
  · simp [hz, ho, lines, paired]

theorem paired_startLines {cfg : Cfg} (ho : cfg.ora = true) (run : Nat) (pfx : String) :
    paired none (lines (startLines cfg run pfx)) = some (opened run pfx) := by
  unfold startLines opened
  by_cases hz : run = 0
  · simp [hz, lines, paired]
  · simp [hz, ho, lines, paired]

/-- The lines follow each other in pairs. -/
def LinesOk (o : Option (Nat × String)) (s : St) : Prop :=
  paired o (lines s.log) = some (if ended s.log then none else opened s.runNumber s.pfx)

theorem eff_lines {cfg : Cfg} (ho : cfg.ora = true) {s : St} {op : Op} {s' : St} {es : List Ev}
    (h : Eff cfg s op s' es) :
    paired (opened s.runNumber s.pfx) (lines es)
      = some (if ended [.got op] then none else opened s'.runNumber s'.pfx) := by
  have nil_ok : ∀ o, paired o [] = some o := fun o => by cases o <;> rfl
  cases h with
  | small c now outs hn => exact nil_ok _
  | start c now outs hn hm =>
    rw [lines_append, lines_fileDrop,
      lines_map (fun k => Ev.restart c.id k c.pfx) (fun _ => trivial)]
    exact nil_ok _
  | stop c now outs hn hm =>
    have : lines (fileDrop s.file ++ stopLines cfg false 0 now s ++ [.flush]
        ++ eols outs (fileOuts cfg) ++ [.ans c.id true none])
        = lines (stopLines cfg false 0 now s) := by
      rw [lines_append, lines_append, lines_append, lines_append, lines_fileDrop, lines_eols]
      simp [lines]
    rw [this, paired_stopLines ho]
    rfl
  | other c now outs hn h1 h2 =>
    rw [lines_append, lines_fileDrop]
    exact nil_ok _
  | idle id' k ok now hf => exact nil_ok _
  | more id' k ok now p hf hl => exact nil_ok _
  | last id' k ok now p hf hl =>
    have : lines (stopLines cfg false p.runid now s
        ++ startLines cfg p.runid (newPfx s.pfx p.pfx) ++ [.ans p.id true none])
        = lines (stopLines cfg false p.runid now s)
          ++ lines (startLines cfg p.runid (newPfx s.pfx p.pfx)) := by
      rw [lines_append, lines_append]
      simp [lines]
    rw [this, paired_append, paired_stopLines ho]
    exact paired_startLines ho _ _
  | tick now hh => exact nil_ok _
  | timeout now p hf hr ht => exact nil_ok _
  | calNone c hh => exact nil_ok _
  | cal c hh =>
    rw [lines_append, lines_append, lines_calDrop, lines_map Ev.mkdir (fun _ => trivial),
      lines_map (fun n => Ev.tdc c.id n c.mode (calDirOf cfg c)) (fun _ => trivial)]
    exact nil_ok _
  | calIdle id' n q hf => exact nil_ok _
  | calMore id' n q p hf hl => exact nil_ok _
  | calLast id' n q p hf hl =>
    rw [lines_append, lines_packEv]
    exact nil_ok _
  | refNone id' hh => exact nil_ok _
  | ref id' hh =>
    rw [lines_append, lines_refDrop, lines_map (fun n => Ev.refr id' n) (fun _ => trivial)]
    exact nil_ok _
  | refIdle id' n q hf => exact nil_ok _
  | refMore id' n q p hf hl => exact nil_ok _
  | refLast id' n q p hf hl => exact nil_ok _
  | build => exact nil_ok _
  | exit now =>
    rw [paired_stopLines ho]
    rfl

theorem lines_reach {cfg : Cfg} (ho : cfg.ora = true) {pfx : String} {run0 : Nat} {s : St}
    (h : Reach cfg pfx run0 s) : LinesOk (opened (firstRun cfg run0) pfx) s := by
  induction h with
  | init =>
    show paired _ [] = some (if ended [] then none else opened (firstRun cfg run0) pfx)
    cases hh : opened (firstRun cfg run0) pfx <;> rfl
  | @step s op hr hv ih =>
    obtain ⟨s', he, hs⟩ := eff_events cfg s op
    have hne : ended s.log = false := by
      cases hx : ended s.log with
      | false => rfl
      | true =>
        obtain ⟨t, ht⟩ := (ended_iff _).1 hx
        exact absurd ht (hv.1 t)
    unfold LinesOk at ih
    rw [hne] at ih
    rw [hs]
    unfold LinesOk
    dsimp only
    have : s.log ++ .got op :: events cfg s op = s.log ++ ([.got op] ++ events cfg s op) := by simp
    rw [this, lines_append, lines_append, paired_append, ih, ended_append, ended_append, hne,
      ended_quiet (eff_notGot he)]
    have hg : lines [.got op] = [] := rfl
    rw [hg]
    simpa using eff_lines ho he

/-! ## The replies of outputs -/

theorem mem_fileOuts {cfg : Cfg} {k : Nat} : k ∈ fileOuts cfg ↔ 1 ≤ k ∧ k < cfg.nout := by
  unfold fileOuts
  rw [List.mem_drop_iff_getElem]
  constructor
  · rintro ⟨i, hi, rfl⟩
    simp at hi ⊢
    omega
  · rintro ⟨h1, h2⟩
    refine ⟨k - 1, by simp; omega, by simp; omega⟩

theorem fileOuts_length (cfg : Cfg) : (fileOuts cfg).length = cfg.nout - 1 := by
  simp [fileOuts]

/-- Orders are for the outputs with files and for the inputs. -/
def OrderOk (cfg : Cfg) : Ev → Prop
  | .restart _ k _ => k ∈ fileOuts cfg
  | .tdc _ n _ _ => n < cfg.nin
  | _ => True

theorem order_fileDrop (cfg : Cfg) (o : Option FilePend) : ∀ e ∈ fileDrop o, OrderOk cfg e := by
  cases o <;> simp [fileDrop, OrderOk]

theorem order_calDrop (cfg : Cfg) (o : Option CalPend) : ∀ e ∈ calDrop o, OrderOk cfg e := by
  cases o <;> simp [calDrop, OrderOk]

theorem order_refDrop (cfg : Cfg) (o : Option RefPend) : ∀ e ∈ refDrop o, OrderOk cfg e := by
  cases o <;> simp [refDrop, OrderOk]

theorem order_stopLines (cfg : Cfg) (b : Bool) (n : Nat) (now : Rat) (s : St) :
    ∀ e ∈ stopLines cfg b n now s, OrderOk cfg e := by
  unfold stopLines
  split <;> simp [OrderOk]

theorem order_startLines (cfg : Cfg) (n : Nat) (p : String) :
    ∀ e ∈ startLines cfg n p, OrderOk cfg e := by
  unfold startLines
  split <;> simp [OrderOk]

theorem order_packEv (cfg : Cfg) (p : CalPend) : ∀ e ∈ packEv cfg p, OrderOk cfg e := by
  unfold packEv
  split <;> simp [OrderOk]

theorem order_eols (cfg : Cfg) (outs : List (Bool × Bool)) (ks : List Nat) :
    ∀ e ∈ eols outs ks, OrderOk cfg e := by
  intro e he
  obtain ⟨k, _, rfl⟩ := List.mem_map.1 he
  trivial

theorem eff_orders {cfg : Cfg} {s : St} {op : Op} {s' : St} {es : List Ev}
    (h : Eff cfg s op s' es) : ∀ e ∈ es, OrderOk cfg e := by
  cases h <;>
    try simp only [List.forall_mem_append, List.forall_mem_map, List.mem_singleton, forall_eq,
      List.not_mem_nil, false_implies, implies_true]
  all_goals first
    | trivial
    | exact order_stopLines _ _ _ _ _
    | exact ⟨order_fileDrop _ _, fun _ hk => hk⟩
    | exact ⟨⟨⟨⟨order_fileDrop _ _, order_stopLines _ _ _ _ _⟩, trivial⟩, order_eols _ _ _⟩,
        trivial⟩
    | exact ⟨order_fileDrop _ _, trivial⟩
    | exact ⟨⟨order_stopLines _ _ _ _ _, order_startLines _ _ _⟩, trivial⟩
    | exact ⟨⟨order_calDrop _ _, fun _ _ => trivial⟩, fun _ hn => List.mem_range.1 hn⟩
    | exact ⟨order_packEv _ _, trivial⟩
    | exact ⟨order_refDrop _ _, fun _ _ => trivial⟩

/-- Replies come from the outputs and inputs which were asked, once. -/
structure Replies (cfg : Cfg) (log : List Ev) : Prop where
  order : ∀ e ∈ log, OrderOk cfg e
  outs : ∀ id k, (id, k) ∈ restarts log → k ∈ fileOuts cfg
  ins : ∀ id n q, (id, n, q) ∈ calibrs log → n < cfg.nin
  outs1 : (restarts log).Nodup
  ins1 : ((calibrs log).map fun x => (x.1, x.2.1)).Nodup

theorem mem_restarts {log : List Ev} {id k : Nat} :
    (id, k) ∈ restarts log ↔ ∃ b t, Ev.got (.restarted id k b t) ∈ log := by
  unfold restarts
  rw [List.mem_filterMap]
  constructor
  · rintro ⟨e, he, h⟩
    split at h
    · rename_i id' k' b t
      have h' : (id', k') = (id, k) := by injection h
      cases h'
      exact ⟨b, t, he⟩
    · cases h
  · rintro ⟨b, t, h⟩
    exact ⟨_, h, rfl⟩

theorem mem_calibrs {log : List Ev} {id n : Nat} {q : Rat} :
    (id, n, q) ∈ calibrs log ↔ Ev.got (.calibrated id n q) ∈ log := by
  unfold calibrs
  rw [List.mem_filterMap]
  constructor
  · rintro ⟨e, he, h⟩
    split at h
    · rename_i id' n' q'
      have h' : (id', n', q') = (id, n, q) := by injection h
      cases h'
      exact he
    · cases h
  · intro h
    exact ⟨_, h, rfl⟩

theorem replies_reach {cfg : Cfg} {pfx : String} {run0 : Nat} {s : St} (h : Reach cfg pfx run0 s) :
    Replies cfg s.log := by
  induction h with
  | init => exact ⟨fun _ h => (by cases h), fun _ _ h => (by cases h), fun _ _ _ h => (by cases h),
      List.nodup_nil, List.nodup_nil⟩
  | @step s op hr hv ih =>
    obtain ⟨s', he, hs⟩ := eff_events cfg s op
    rw [hs]
    dsimp only
    have hq := eff_notGot he
    have ho := eff_orders he
    generalize events cfg s op = es at *
    have hl : s.log ++ .got op :: es = s.log ++ ([.got op] ++ es) := by simp
    have hres : restarts (s.log ++ .got op :: es) = restarts s.log ++ restarts [.got op] := by
      rw [hl, restarts_append, restarts_append, restarts_quiet hq, List.append_nil]
    have hcal : calibrs (s.log ++ .got op :: es) = calibrs s.log ++ calibrs [.got op] := by
      rw [hl, calibrs_append, calibrs_append, calibrs_quiet hq, List.append_nil]
    have hord : ∀ e ∈ s.log ++ .got op :: es, OrderOk cfg e := by
      intro e hm
      rcases List.mem_append.1 hm with hm | hm
      · exact ih.order e hm
      · rcases List.mem_cons.1 hm with hm | hm
        · rw [hm]; trivial
        · exact ho e hm
    by_cases h1 : isRestarted op = true
    · cases op <;> try cases h1
      rename_i id k b t
      have hc0 : calibrs [.got (.restarted id k b t)] = [] := rfl
      have hr0 : restarts [.got (.restarted id k b t)] = [(id, k)] := rfl
      obtain ⟨_, ⟨p, hp⟩, hnew⟩ := hv
      refine ⟨hord, ?_, ?_, ?_, ?_⟩
      · rw [hres, hr0]
        intro id' k' hm
        rcases List.mem_append.1 hm with hm | hm
        · exact ih.outs id' k' hm
        · cases List.mem_singleton.1 hm
          exact ih.order _ hp
      · rw [hcal, hc0, List.append_nil]; exact ih.ins
      · rw [hres, hr0]
        refine List.nodup_append.2 ⟨ih.outs1, by simp, ?_⟩
        intro a ha b' hb hab
        rw [List.mem_singleton.1 hb] at hab
        rw [hab] at ha
        obtain ⟨b'', t', hm⟩ := mem_restarts.1 ha
        exact hnew _ _ hm
      · rw [hcal, hc0, List.append_nil]; exact ih.ins1
    · have hr0 := restarts_got (op := op) (by simpa using h1)
      by_cases h2 : isCalibrated op = true
      · cases op <;> try cases h2
        rename_i id n q
        have hc0 : calibrs [.got (.calibrated id n q)] = [(id, n, q)] := rfl
        obtain ⟨_, ⟨m, d, hp⟩, hnew⟩ := hv
        refine ⟨hord, ?_, ?_, ?_, ?_⟩
        · rw [hres, hr0, List.append_nil]; exact ih.outs
        · rw [hcal, hc0]
          intro id' n' q' hm
          rcases List.mem_append.1 hm with hm | hm
          · exact ih.ins id' n' q' hm
          · cases List.mem_singleton.1 hm
            exact ih.order _ hp
        · rw [hres, hr0, List.append_nil]; exact ih.outs1
        · rw [hcal, hc0, List.map_append]
          refine List.nodup_append.2 ⟨ih.ins1, by simp, ?_⟩
          intro a ha b' hb hab
          rw [List.mem_singleton.1 hb] at hab
          rw [hab] at ha
          obtain ⟨⟨i, n', q'⟩, hm, heq⟩ := List.mem_map.1 ha
          cases heq
          exact hnew _ (mem_calibrs.1 hm)
      · have hc0 := calibrs_got (op := op) (by simpa using h2)
        refine ⟨hord, ?_, ?_, ?_, ?_⟩
        · rw [hres, hr0, List.append_nil]; exact ih.outs
        · rw [hcal, hc0, List.append_nil]; exact ih.ins
        · rw [hres, hr0, List.append_nil]; exact ih.outs1
        · rw [hcal, hc0, List.append_nil]; exact ih.ins1

/-- As many different ones as there are: all. -/
theorem all_of_count {l m : List Nat} (hn : l.Nodup) (hs : ∀ x ∈ l, x ∈ m)
    (hl : m.length ≤ l.length) : ∀ x ∈ m, x ∈ l := by
  have hp := List.subperm_of_subset hn (fun x hx => hs x hx)
  exact fun x hx => (hp.perm_of_length_le hl).symm.subset hx

end Verif.BnetNode
