import Verif.BnetNodeRun
import Mathlib.Data.List.Nodup

/-!
# What answers mean
-/

namespace Verif.BnetNode

open Spec

/-- Why a command can be answered with `true`. -/
inductive WhyTrue (cfg : Cfg) (s : St) : Op → Nat → Option Rat → Prop where
  | file (c : FileCmd) (now : Rat) (outs : List (Bool × Bool)) (hn : ¬ cfg.nout < 2)
      (hm : c.mode ≠ "start") : WhyTrue cfg s (.file c now outs) c.id none
  | last (id k : Nat) (ok : Bool) (now : Rat) (p : FilePend) (h : s.file = some p)
      (hl : p.left = 1) : WhyTrue cfg s (.restarted id k ok now) p.id none
  | calNone (c : CalCmd) (h : (!cfg.send || cfg.nin == 0) = true) :
      WhyTrue cfg s (.calibr c) c.id none
  | calLast (id n : Nat) (q : Rat) (p : CalPend) (h : s.cal = some p) (hl : p.left = 1) :
      WhyTrue cfg s (.calibrated id n q) p.id (some (lower q p.q))
  | refNone (id : Nat) (h : (!cfg.send || cfg.nin == 0) = true) :
      WhyTrue cfg s (.refresh id) id none
  | refLast (id n : Nat) (q : Rat) (p : RefPend) (h : s.ref = some p) (hl : calLeft s = 1) :
      WhyTrue cfg s (.refreshed id n q) p.id (some (lower q p.q))

/-- Why a command can be answered with `false`. -/
inductive WhyFalse (cfg : Cfg) (s : St) : Op → Nat → Prop where
  | small (c : FileCmd) (now : Rat) (outs : List (Bool × Bool)) (hn : cfg.nout < 2) :
      WhyFalse cfg s (.file c now outs) c.id
  | drop (c : FileCmd) (now : Rat) (outs : List (Bool × Bool)) (p : FilePend)
      (h : s.file = some p) : WhyFalse cfg s (.file c now outs) p.id
  | timeout (now : Rat) (p : FilePend) (h : s.file = some p) (hr : cfg.recv = true)
      (ht : p.till ≤ now) : WhyFalse cfg s (.timer now) p.id
  | calDrop (c : CalCmd) (p : CalPend) (h : s.cal = some p) : WhyFalse cfg s (.calibr c) p.id
  | refDrop (id : Nat) (p : RefPend) (h : s.ref = some p) : WhyFalse cfg s (.refresh id) p.id

theorem fileDrop_mem {o : Option FilePend} {id : Nat} {b : Bool} {q : Option Rat}
    (h : Ev.ans id b q ∈ fileDrop o) : b = false ∧ ∃ p, o = some p ∧ p.id = id := by
  cases o with
  | none => cases h
  | some p =>
    have := List.mem_singleton.1 h
    injection this with h1 h2 h3
    exact ⟨h2, p, rfl, h1.symm⟩

theorem calDrop_mem {o : Option CalPend} {id : Nat} {b : Bool} {q : Option Rat}
    (h : Ev.ans id b q ∈ calDrop o) : b = false ∧ ∃ p, o = some p ∧ p.id = id := by
  cases o with
  | none => cases h
  | some p =>
    have := List.mem_singleton.1 h
    injection this with h1 h2 h3
    exact ⟨h2, p, rfl, h1.symm⟩

theorem refDrop_mem {o : Option RefPend} {id : Nat} {b : Bool} {q : Option Rat}
    (h : Ev.ans id b q ∈ refDrop o) : b = false ∧ ∃ p, o = some p ∧ p.id = id := by
  cases o with
  | none => cases h
  | some p =>
    have := List.mem_singleton.1 h
    injection this with h1 h2 h3
    exact ⟨h2, p, rfl, h1.symm⟩

theorem ans_of_noAns {es : List Ev} (h : ∀ e ∈ es, NoAns e) {id : Nat} {b : Bool} {q : Option Rat}
    (hm : Ev.ans id b q ∈ es) : False := h _ hm

theorem eff_ans {cfg : Cfg} {s : St} {op : Op} {s' : St} {es : List Ev}
    (h : Eff cfg s op s' es) {id : Nat} {b : Bool} {q : Option Rat} (hm : Ev.ans id b q ∈ es) :
    (b = true ∧ WhyTrue cfg s op id q) ∨ (b = false ∧ WhyFalse cfg s op id) := by
  cases h with
  | small c now outs hn =>
    cases List.mem_singleton.1 hm
    exact .inr ⟨rfl, .small c now outs hn⟩
  | start c now outs hn hm' =>
    rcases List.mem_append.1 hm with hm | hm
    · obtain ⟨rfl, p, hp, rfl⟩ := fileDrop_mem hm
      exact .inr ⟨rfl, .drop c now outs p hp⟩
    · obtain ⟨k, _, hk⟩ := List.mem_map.1 hm
      cases hk
  | stop c now outs hn hm' =>
    rcases List.mem_append.1 hm with hm | hm
    · rcases List.mem_append.1 hm with hm | hm
      · rcases List.mem_append.1 hm with hm | hm
        · rcases List.mem_append.1 hm with hm | hm
          · obtain ⟨rfl, p, hp, rfl⟩ := fileDrop_mem hm
            exact .inr ⟨rfl, .drop c now outs p hp⟩
          · exact (ans_of_noAns (noAns_stopLines _ _ _ _ _) hm).elim
        · cases List.mem_singleton.1 hm
      · exact (ans_of_noAns (noAns_eols _ _) hm).elim
    · cases List.mem_singleton.1 hm
      exact .inl ⟨rfl, .file c now outs hn (by rw [hm']; decide)⟩
  | other c now outs hn h1 h2 =>
    rcases List.mem_append.1 hm with hm | hm
    · obtain ⟨rfl, p, hp, rfl⟩ := fileDrop_mem hm
      exact .inr ⟨rfl, .drop c now outs p hp⟩
    · cases List.mem_singleton.1 hm
      exact .inl ⟨rfl, .file c now outs hn h1⟩
  | idle id' k ok now hf => cases hm
  | more id' k ok now p hf hl => cases hm
  | last id' k ok now p hf hl =>
    rcases List.mem_append.1 hm with hm | hm
    · rcases List.mem_append.1 hm with hm | hm
      · exact (ans_of_noAns (noAns_stopLines _ _ _ _ _) hm).elim
      · exact (ans_of_noAns (noAns_startLines _ _ _) hm).elim
    · cases List.mem_singleton.1 hm
      exact .inl ⟨rfl, .last id' k ok now p hf hl⟩
  | tick now hh => cases hm
  | timeout now p hf hr ht =>
    cases List.mem_singleton.1 hm
    exact .inr ⟨rfl, .timeout now p hf hr ht⟩
  | calNone c hh =>
    cases List.mem_singleton.1 hm
    exact .inl ⟨rfl, .calNone c hh⟩
  | cal c hh =>
    rcases List.mem_append.1 hm with hm | hm
    · rcases List.mem_append.1 hm with hm | hm
      · obtain ⟨rfl, p, hp, rfl⟩ := calDrop_mem hm
        exact .inr ⟨rfl, .calDrop c p hp⟩
      · obtain ⟨k, _, hk⟩ := List.mem_map.1 hm
        cases hk
    · obtain ⟨k, _, hk⟩ := List.mem_map.1 hm
      cases hk
  | calIdle id' n q hf => cases hm
  | calMore id' n q p hf hl => cases hm
  | calLast id' n q p hf hl =>
    rcases List.mem_append.1 hm with hm | hm
    · exact (ans_of_noAns (noAns_packEv _ _) hm).elim
    · cases List.mem_singleton.1 hm
      exact .inl ⟨rfl, .calLast id' n q p hf hl⟩
  | refNone id' hh =>
    cases List.mem_singleton.1 hm
    exact .inl ⟨rfl, .refNone _ hh⟩
  | ref id' hh =>
    rcases List.mem_append.1 hm with hm | hm
    · obtain ⟨rfl, p, hp, rfl⟩ := refDrop_mem hm
      exact .inr ⟨rfl, .refDrop id' p hp⟩
    · obtain ⟨k, _, hk⟩ := List.mem_map.1 hm
      cases hk
  | refIdle id' n q hf => cases hm
  | refMore id' n q p hf hl => cases hm
  | refLast id' n q p hf hl =>
    cases List.mem_singleton.1 hm
    exact .inl ⟨rfl, .refLast id' n q p hf hl⟩
  | build => cases List.mem_singleton.1 hm
  | exit now => exact (ans_of_noAns (noAns_stopLines _ _ _ _ _) hm).elim

theorem events_true {cfg : Cfg} {s : St} {op : Op} {id : Nat} {q : Option Rat}
    (hm : Ev.ans id true q ∈ events cfg s op) : WhyTrue cfg s op id q := by
  obtain ⟨s', he, _⟩ := eff_events cfg s op
  rcases eff_ans he hm with h | h
  · exact h.2
  · cases h.1

theorem events_false {cfg : Cfg} {s : St} {op : Op} {id : Nat} {q : Option Rat}
    (hm : Ev.ans id false q ∈ events cfg s op) : WhyFalse cfg s op id := by
  obtain ⟨s', he, _⟩ := eff_events cfg s op
  rcases eff_ans he hm with h | h
  · cases h.1
  · exact h.2

/-- A command which was received before does not come again. -/
theorem cmd_new {log : List Ev} {op op' : Op} (hv : Valid log op) {id : Nat}
    (hg : Ev.got op' ∈ log) (h' : cmdId op' = some id) (h : cmdId op = some id) : False := by
  have h0 := valid_fresh hv h
  unfold received at h0
  have := (List.countP_eq_zero (l := log)).1 h0 _ hg
  simp [h'] at this

/-- A start which is confirmed. -/
theorem start_confirmed {cfg : Cfg} {pfx : String} {run0 : Nat} {s : St}
    (h : Reach cfg pfx run0 s) {op : Op} (hv : Valid s.log op) {c : FileCmd} {t : Rat}
    {o : List (Bool × Bool)} (hg : Ev.got (.file c t o) ∈ s.log) {q : Option Rat}
    (hm : c.mode = "start") (ha : Ev.ans c.id true q ∈ events cfg s op) :
    ∃ id k ok now p, op = .restarted id k ok now ∧ s.file = some p ∧ p.left = 1 ∧ p.id = c.id ∧
      q = none ∧
      ∃ l1 l2, s.log = l1 ++ .got (.file c t o) :: l2 ∧
        (restarts l2).length + 2 = cfg.nout ∧ (∀ c t o, Ev.got (.file c t o) ∉ l2) ∧
        c.runid = p.runid ∧ c.pfx = p.pfx := by
  have hu := (owed_reach h c.id).2
  generalize hid : c.id = cid at ha
  have hcid : cmdId (.file c t o) = some cid := by simp [cmdId, hid]
  rw [hid] at hu
  cases events_true ha with
  | file c' now outs hn hm' => exact (cmd_new hv hg hcid (by simp [cmdId])).elim
  | last id k ok now p hf hl =>
    obtain ⟨l1, l2, c', t', o', hlog, hid', hm', hr', hp', ht', hn', hc, h1, hno⟩ :=
      (pend_reach h).file p hf
    have hg' : Ev.got (.file c' t' o') ∈ s.log := by rw [hlog]; simp
    have := got_unique hu hg' hg (by simp [cmdId, hid']) hcid
    injection this with e1 e2 e3
    subst e1; subst e2; subst e3
    exact ⟨id, k, ok, now, p, rfl, hf, hl, rfl, rfl, l1, l2, hlog, by omega, hno, hr', hp'⟩
  | calNone c' hh => exact (cmd_new hv hg hcid (by simp [cmdId])).elim
  | calLast id n q' p hf hl =>
    obtain ⟨l1, l2, c', hlog, hid', _⟩ := (pend_reach h).cal p hf
    have hg' : Ev.got (.calibr c') ∈ s.log := by rw [hlog]; simp
    cases got_unique hu hg' hg (by simp [cmdId, hid']) hcid
  | refNone id hh => exact (cmd_new hv hg hcid (by simp [cmdId])).elim
  | refLast id n q' p hf hl =>
    cases got_unique hu ((pend_reach h).ref p hf) hg (by simp [cmdId]) hcid

/-- A calibration which is confirmed. -/
theorem cal_confirmed {cfg : Cfg} {pfx : String} {run0 : Nat} {s : St}
    (h : Reach cfg pfx run0 s) {op : Op} (hv : Valid s.log op) {c : CalCmd}
    (hg : Ev.got (.calibr c) ∈ s.log) {q : Option Rat}
    (ha : Ev.ans c.id true q ∈ events cfg s op) :
    ∃ id n q' p, op = .calibrated id n q' ∧ s.cal = some p ∧ p.left = 1 ∧ p.id = c.id ∧
      q = some (lower q' p.q) ∧
      ∃ l1 l2, s.log = l1 ++ .got (.calibr c) :: l2 ∧
        (calibrs l2).length + 1 = cfg.nin ∧ Smallest p.q ((calibrs l2).map (·.2.2)) ∧
        c.mode = p.mode ∧ p.dir = calDirOf cfg c := by
  have hu := (owed_reach h c.id).2
  generalize hid : c.id = cid at ha
  have hcid : cmdId (.calibr c) = some cid := by simp [cmdId, hid]
  rw [hid] at hu
  cases events_true ha with
  | file c' now outs hn hm' => exact (cmd_new hv hg hcid (by simp [cmdId])).elim
  | last id k ok now p hf hl =>
    obtain ⟨l1, l2, c', t', o', hlog, hid', _⟩ := (pend_reach h).file p hf
    have hg' : Ev.got (.file c' t' o') ∈ s.log := by rw [hlog]; simp
    cases got_unique hu hg' hg (by simp [cmdId, hid']) hcid
  | calNone c' hh => exact (cmd_new hv hg hcid (by simp [cmdId])).elim
  | calLast id n q' p hf hl =>
    obtain ⟨l1, l2, c', hlog, hid', hm', hd, hs, hc, h1, hq, hno⟩ := (pend_reach h).cal p hf
    have hg' : Ev.got (.calibr c') ∈ s.log := by rw [hlog]; simp
    have := got_unique hu hg' hg (by simp [cmdId, hid']) hcid
    injection this with e1
    subst e1
    exact ⟨id, n, q', p, rfl, hf, hl, rfl, rfl, l1, l2, hlog, by omega, hq, hm', hd⟩
  | refNone id hh => exact (cmd_new hv hg hcid (by simp [cmdId])).elim
  | refLast id n q' p hf hl =>
    cases got_unique hu ((pend_reach h).ref p hf) hg (by simp [cmdId]) hcid

theorem fileOuts_eq (cfg : Cfg) : fileOuts cfg = List.range' 1 (cfg.nout - 1) := by
  unfold fileOuts
  rw [List.range_eq_range', List.drop_range']

/-! ## Runs for the examples -/

/-- `Valid` as a check. -/
def validB (log : List Ev) (op : Op) : Bool :=
  !ended log &&
  match op with
  | .restarted id k _ _ =>
      (log.any fun e => match e with
        | .restart i j _ => i == id && j == k
        | _ => false) && !(restarts log).contains (id, k)
  | .calibrated id n _ =>
      (log.any fun e => match e with
        | .tdc i j _ _ => i == id && j == n
        | _ => false) && !((calibrs log).map fun x => (x.1, x.2.1)).contains (id, n)
  | .refreshed id n _ =>
      log.contains (.refr id n) && !(log.any fun e => match e with
        | .got (.refreshed i j _) => i == id && j == n
        | _ => false)
  | op => match cmdId op with
    | none => true
    | some id => received log id == 0

theorem valid_of_validB {log : List Ev} {op : Op} (h : validB log op = true) : Valid log op := by
  unfold validB at h
  rw [Bool.and_eq_true] at h
  obtain ⟨h0, h⟩ := h
  refine ⟨fun t ht => ?_, ?_⟩
  · have := (ended_iff log).2 ⟨t, ht⟩
    rw [this] at h0
    cases h0
  · cases op with
    | restarted id k b t =>
      dsimp only at h ⊢
      rw [Bool.and_eq_true] at h
      obtain ⟨h1, h2⟩ := h
      constructor
      · rw [List.any_eq_true] at h1
        obtain ⟨e, he, h1⟩ := h1
        split at h1
        · rename_i i j p
          simp at h1
          obtain ⟨rfl, rfl⟩ := h1
          exact ⟨p, he⟩
        · cases h1
      · intro b' t' hm
        have := mem_restarts.2 ⟨b', t', hm⟩
        simp [this] at h2
    | calibrated id n q =>
      dsimp only at h ⊢
      rw [Bool.and_eq_true] at h
      obtain ⟨h1, h2⟩ := h
      constructor
      · rw [List.any_eq_true] at h1
        obtain ⟨e, he, h1⟩ := h1
        split at h1
        · rename_i i j m d
          simp at h1
          obtain ⟨rfl, rfl⟩ := h1
          exact ⟨m, d, he⟩
        · cases h1
      · intro q' hm
        have h3 : (id, n) ∈ (calibrs log).map fun x => (x.1, x.2.1) :=
          List.mem_map.2 ⟨_, mem_calibrs.2 hm, rfl⟩
        rw [List.contains_iff_mem.2 h3] at h2
        cases h2
    | refreshed id n q =>
      dsimp only at h ⊢
      rw [Bool.and_eq_true] at h
      obtain ⟨h1, h2⟩ := h
      refine ⟨List.contains_iff_mem.1 h1, fun q' hm => ?_⟩
      have : (log.any fun e => match e with
        | .got (.refreshed i j _) => i == id && j == n
        | _ => false) = true := List.any_eq_true.2 ⟨_, hm, by simp⟩
      rw [this] at h2
      cases h2
    | file c t o => intro id hid; dsimp only [cmdId] at h hid; cases hid; simpa using h
    | calibr c => intro id hid; dsimp only [cmdId] at h hid; cases hid; simpa using h
    | refresh i => intro id hid; dsimp only [cmdId] at h hid; cases hid; simpa using h
    | timer t => intro id hid; cases hid
    | build => intro id hid; cases hid
    | exit t => intro id hid; cases hid

/-- Every step of a run is possible. -/
def allValid (cfg : Cfg) (s : St) : List Op → Bool
  | [] => true
  | op :: ops => validB s.log op && allValid cfg (step cfg s op) ops

theorem reach_run {cfg : Cfg} {pfx : String} {run0 : Nat} {s : St} (h : Reach cfg pfx run0 s)
    {ops : List Op} (hv : allValid cfg s ops = true) : Reach cfg pfx run0 (run cfg s ops) := by
  induction ops generalizing s with
  | nil => exact h
  | cons op ops ih =>
    unfold allValid at hv
    rw [Bool.and_eq_true] at hv
    exact ih (Reach.step op h (valid_of_validB hv.1)) hv.2

/-- While no calibration is under way and neither a calibration nor another refresh command comes,
a refresh command stays under way. -/
theorem refresh_stuck {cfg : Cfg} {s : St} {id : Nat} (hr : s.ref.map (·.id) = some id)
    (hc : s.cal = none) {ops : List Op}
    (ho : ∀ op ∈ ops, (∀ c, op ≠ .calibr c) ∧ ∀ i, op ≠ .refresh i) :
    (run cfg s ops).ref.map (·.id) = some id := by
  induction ops generalizing s with
  | nil => exact hr
  | cons op ops ih =>
    have hop := ho op List.mem_cons_self
    obtain ⟨s', es, he, hs⟩ := step_eff cfg s op
    have hboth : (step cfg s op).ref.map (·.id) = some id ∧ (step cfg s op).cal = none := by
      rw [hs]
      cases he with
      | calNone c hh => exact absurd rfl (hop.1 c)
      | cal c hh => exact absurd rfl (hop.1 c)
      | refNone i hh => exact absurd rfl (hop.2 i)
      | ref i hh => exact absurd rfl (hop.2 i)
      | refMore i n q p hf hl =>
        rw [hf] at hr
        exact ⟨hr, hc⟩
      | refLast i n q p hf hl =>
        simp [calLeft, hc] at hl
      | calMore i n q p hf hl => rw [hc] at hf; cases hf
      | calLast i n q p hf hl => rw [hc] at hf; cases hf
      | _ => exact ⟨hr, hc⟩
    exact ih hboth.1 hboth.2 fun op' h' => ho op' (List.mem_cons_of_mem _ h')

end Verif.BnetNode
