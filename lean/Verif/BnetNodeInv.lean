import Verif.BnetNodeLemmas

/-!
# Invariants of a node
-/

namespace Verif.BnetNode

open Spec

/-! ## What only depends on what came in -/

theorem received_append (a b : List Ev) (id : Nat) :
    received (a ++ b) id = received a id + received b id := by
  unfold received
  rw [List.countP_append]

theorem received_quiet {es : List Ev} (h : ∀ e ∈ es, NotGot e) (id : Nat) :
    received es id = 0 := by
  unfold received
  refine (List.countP_eq_zero (l := es)).2 fun e he => ?_
  have := h e he
  cases e <;> simp_all [NotGot]

theorem received_got (op : Op) (id : Nat) :
    received [.got op] id = if cmdId op = some id then 1 else 0 := by
  simp [received, List.countP_cons]

theorem restarts_append (a b : List Ev) : restarts (a ++ b) = restarts a ++ restarts b := by
  simp [restarts, List.filterMap_append]

theorem restarts_quiet {es : List Ev} (h : ∀ e ∈ es, NotGot e) : restarts es = [] := by
  unfold restarts
  refine List.filterMap_eq_nil_iff.2 fun e he => ?_
  have := h e he
  cases e <;> simp_all [NotGot]

theorem calibrs_append (a b : List Ev) : calibrs (a ++ b) = calibrs a ++ calibrs b := by
  simp [calibrs, List.filterMap_append]

theorem calibrs_quiet {es : List Ev} (h : ∀ e ∈ es, NotGot e) : calibrs es = [] := by
  unfold calibrs
  refine List.filterMap_eq_nil_iff.2 fun e he => ?_
  have := h e he
  cases e <;> simp_all [NotGot]

theorem ended_append (a b : List Ev) : ended (a ++ b) = (ended a || ended b) := by
  simp [ended, List.any_append]

theorem ended_quiet {es : List Ev} (h : ∀ e ∈ es, NotGot e) : ended es = false := by
  unfold ended
  rw [List.any_eq_false]
  intro e he
  have := h e he
  cases e <;> simp_all [NotGot]

theorem ended_iff (log : List Ev) : ended log = true ↔ ∃ t, Ev.got (.exit t) ∈ log := by
  unfold ended
  rw [List.any_eq_true]
  constructor
  · rintro ⟨e, he, h⟩
    split at h
    · exact ⟨_, he⟩
    · cases h
  · rintro ⟨t, h⟩
    exact ⟨_, h, rfl⟩

theorem got_of_append {a es : List Ev} {op op' : Op} (hq : ∀ e ∈ es, NotGot e)
    (h : Ev.got op' ∈ a ++ .got op :: es) : Ev.got op' ∈ a ∨ op' = op := by
  rcases List.mem_append.1 h with h | h
  · exact .inl h
  · rcases List.mem_cons.1 h with h | h
    · exact .inr (by injection h)
    · exact False.elim (hq _ h)

/-- `Valid` for commands. -/
theorem valid_fresh {log : List Ev} {op : Op} (h : Valid log op) {id : Nat}
    (hc : cmdId op = some id) : received log id = 0 := by
  cases op <;> first | (cases hc; done) | exact h.2 id hc

/-! ## Every command is answered once -/

def fileOwes (o : Option FilePend) (id : Nat) : Nat :=
  match o with
  | none => 0
  | some p => if p.id = id then 1 else 0

def calOwes (o : Option CalPend) (id : Nat) : Nat :=
  match o with
  | none => 0
  | some p => if p.id = id then 1 else 0

def refOwes (o : Option RefPend) (id : Nat) : Nat :=
  match o with
  | none => 0
  | some p => if p.id = id then 1 else 0

/-- How often a command is one of the three under way. -/
def owes (s : St) (id : Nat) : Nat := fileOwes s.file id + calOwes s.cal id + refOwes s.ref id

theorem answers_append (a b : List Ev) (id : Nat) :
    answers (a ++ b) id = answers a id + answers b id := by
  unfold answers
  rw [List.countP_append]

/-- Neither something that came in nor an answer. -/
def NoAns : Ev → Prop
  | .ans _ _ _ => False
  | _ => True

theorem answers_quiet {es : List Ev} (h : ∀ e ∈ es, NoAns e) (id : Nat) : answers es id = 0 := by
  unfold answers
  refine (List.countP_eq_zero (l := es)).2 fun e he => ?_
  have := h e he
  cases e <;> simp_all [NoAns]

theorem answers_one (i : Nat) (b : Bool) (q : Option Rat) (id : Nat) :
    answers [.ans i b q] id = if i = id then 1 else 0 := by
  simp [answers, List.countP_cons]

theorem answers_fileDrop (o : Option FilePend) (id : Nat) :
    answers (fileDrop o) id = fileOwes o id := by
  cases o with
  | none => rfl
  | some p => exact answers_one _ _ _ _

theorem answers_calDrop (o : Option CalPend) (id : Nat) :
    answers (calDrop o) id = calOwes o id := by
  cases o with
  | none => rfl
  | some p => exact answers_one _ _ _ _

theorem answers_refDrop (o : Option RefPend) (id : Nat) :
    answers (refDrop o) id = refOwes o id := by
  cases o with
  | none => rfl
  | some p => exact answers_one _ _ _ _

theorem noAns_stopLines (cfg : Cfg) (b : Bool) (n : Nat) (now : Rat) (s : St) :
    ∀ e ∈ stopLines cfg b n now s, NoAns e := by
  unfold stopLines
  split <;> simp [NoAns]

theorem noAns_startLines (cfg : Cfg) (n : Nat) (p : String) :
    ∀ e ∈ startLines cfg n p, NoAns e := by
  unfold startLines
  split <;> simp [NoAns]

theorem noAns_packEv (cfg : Cfg) (p : CalPend) : ∀ e ∈ packEv cfg p, NoAns e := by
  unfold packEv
  split <;> simp [NoAns]

theorem noAns_eols (outs : List (Bool × Bool)) (ks : List Nat) : ∀ e ∈ eols outs ks, NoAns e := by
  intro e he
  obtain ⟨k, _, rfl⟩ := List.mem_map.1 he
  trivial

theorem answers_restart (id : Nat) (p : String) (l : List Nat) (i : Nat) :
    answers (l.map fun k => .restart id k p) i = 0 := by
  refine answers_quiet (fun e he => ?_) i
  obtain ⟨k, _, rfl⟩ := List.mem_map.1 he
  trivial

theorem answers_mkdir (l : List Nat) (i : Nat) : answers (l.map Ev.mkdir) i = 0 := by
  refine answers_quiet (fun e he => ?_) i
  obtain ⟨k, _, rfl⟩ := List.mem_map.1 he
  trivial

theorem answers_tdc (id : Nat) (m : String) (d : Option Nat) (l : List Nat) (i : Nat) :
    answers (l.map fun n => .tdc id n m d) i = 0 := by
  refine answers_quiet (fun e he => ?_) i
  obtain ⟨k, _, rfl⟩ := List.mem_map.1 he
  trivial

theorem answers_refr (id : Nat) (l : List Nat) (i : Nat) :
    answers (l.map fun n => .refr id n) i = 0 := by
  refine answers_quiet (fun e he => ?_) i
  obtain ⟨k, _, rfl⟩ := List.mem_map.1 he
  trivial

theorem eff_answers {cfg : Cfg} {s : St} {op : Op} {s' : St} {es : List Ev}
    (h : Eff cfg s op s' es) (id : Nat) :
    answers es id + owes s' id = owes s id + if cmdId op = some id then 1 else 0 := by
  cases h with
  | small c now outs hn => simp [answers_one, cmdId]; omega
  | start c now outs hn hm =>
    rw [answers_append, answers_fileDrop, answers_restart]
    simp [owes, cmdId, fileOwes]; omega
  | stop c now outs hn hm =>
    rw [answers_append, answers_append, answers_append, answers_append, answers_fileDrop,
      answers_quiet (noAns_stopLines _ _ _ _ _), answers_quiet (noAns_eols _ _), answers_one]
    have : answers [.flush] id = 0 := rfl
    rw [this]
    simp [owes, cmdId, fileOwes]; omega
  | other c now outs hn h1 h2 =>
    rw [answers_append, answers_fileDrop, answers_one]
    simp [owes, cmdId, fileOwes]; omega
  | idle id' k ok now hf => simp [answers, cmdId]
  | more id' k ok now p hf hl => simp [answers, cmdId, owes, fileOwes, hf]
  | last id' k ok now p hf hl =>
    rw [answers_append, answers_append, answers_quiet (noAns_stopLines _ _ _ _ _),
      answers_quiet (noAns_startLines _ _ _), answers_one]
    simp [owes, cmdId, fileOwes, hf]; omega
  | tick now hh => simp [answers, cmdId]
  | timeout now p hf hr ht =>
    rw [answers_one]
    simp [owes, cmdId, fileOwes, hf]; omega
  | calNone c hh => simp [answers_one, cmdId]; omega
  | cal c hh =>
    rw [answers_append, answers_append, answers_calDrop, answers_mkdir, answers_tdc]
    simp [owes, cmdId, calOwes]; omega
  | calIdle id' n q hf => simp [answers, cmdId]
  | calMore id' n q p hf hl => simp [answers, cmdId, owes, calOwes, hf]
  | calLast id' n q p hf hl =>
    rw [answers_append, answers_quiet (noAns_packEv _ _), answers_one]
    simp [owes, cmdId, calOwes, hf]; omega
  | refNone id' hh => simp [answers_one, cmdId]; omega
  | ref id' hh =>
    rw [answers_append, answers_refDrop, answers_refr]
    simp [owes, cmdId, refOwes]; omega
  | refIdle id' n q hf => simp [answers, cmdId]
  | refMore id' n q p hf hl => simp [answers, cmdId, owes, refOwes, hf]
  | refLast id' n q p hf hl =>
    rw [answers_one]
    simp [owes, cmdId, refOwes, hf]; omega
  | build => simp [answers, cmdId, owes]
  | exit now =>
    rw [answers_quiet (noAns_stopLines _ _ _ _ _)]
    simp [cmdId]

theorem owed_reach {cfg : Cfg} {pfx : String} {run0 : Nat} {s : St} (h : Reach cfg pfx run0 s)
    (id : Nat) : answers s.log id + owes s id = received s.log id ∧ received s.log id ≤ 1 := by
  induction h with
  | init => exact ⟨rfl, Nat.zero_le _⟩
  | @step s op _ hv ih =>
    obtain ⟨s', he, hs⟩ := eff_events cfg s op
    have h1 := eff_answers he id
    have ho : owes (step cfg s op) id = owes s' id := by rw [hs]; rfl
    have hl := step_log cfg s op
    have hl' : (step cfg s op).log = s.log ++ ([.got op] ++ events cfg s op) := by rw [hl]; simp
    rw [ho, hl', received_append, received_append, answers_append, answers_append,
      received_quiet (eff_notGot he), received_got]
    have hz : answers [.got op] id = 0 := rfl
    rw [hz]
    refine ⟨by omega, ?_⟩
    by_cases hc : cmdId op = some id
    · have := valid_fresh hv hc
      rw [if_pos hc]; omega
    · rw [if_neg hc]; omega

theorem owes_init (cfg : Cfg) (pfx : String) (run0 : Nat) (id : Nat) :
    owes (St.init cfg pfx run0) id = 0 := rfl

/-- A command comes in only once. -/
theorem got_unique {log : List Ev} {id : Nat} (h : received log id ≤ 1) {a b : Op}
    (ha : Ev.got a ∈ log) (hb : Ev.got b ∈ log) (hia : cmdId a = some id)
    (hib : cmdId b = some id) : a = b := by
  induction log with
  | nil => cases ha
  | cons e l ih =>
    have happ : received (e :: l) id = received [e] id + received l id :=
      received_append [e] l id
    have pos : ∀ {x : Op}, Ev.got x ∈ l → cmdId x = some id → 1 ≤ received l id := by
      intro x hx hix
      unfold received
      exact List.countP_pos_iff.2 ⟨_, hx, by simp [hix]⟩
    rcases List.mem_cons.1 ha with ha' | ha'
    · rcases List.mem_cons.1 hb with hb' | hb'
      · rw [← ha'] at hb'
        injection hb' with h'
        exact h'.symm
      · have := pos hb' hib
        subst ha'
        rw [received_got, if_pos hia] at happ
        omega
    · rcases List.mem_cons.1 hb with hb' | hb'
      · have := pos ha' hia
        subst hb'
        rw [received_got, if_pos hib] at happ
        omega
      · exact ih (by omega) ha' hb'

/-! ## The commands under way -/

/-- A start under way: its command, and the replies since. -/
def FileOk (cfg : Cfg) (log : List Ev) (p : FilePend) : Prop :=
  ∃ l1 l2 c t o, log = l1 ++ .got (.file c t o) :: l2 ∧ c.id = p.id ∧ c.mode = "start" ∧
    c.runid = p.runid ∧ c.pfx = p.pfx ∧ p.till = c.till.getD (t + 30) ∧ ¬ cfg.nout < 2 ∧
    p.left + ((restarts l2).length : Int) = (cfg.nout : Int) - 1 ∧ 1 ≤ p.left ∧
    (∀ c t o, Ev.got (.file c t o) ∉ l2)

/-- A calibration under way. -/
def CalOk (cfg : Cfg) (log : List Ev) (p : CalPend) : Prop :=
  ∃ l1 l2 c, log = l1 ++ .got (.calibr c) :: l2 ∧ c.id = p.id ∧ c.mode = p.mode ∧
    p.dir = calDirOf cfg c ∧ cfg.send = true ∧
    p.left + ((calibrs l2).length : Int) = (cfg.nin : Int) ∧ 1 ≤ p.left ∧
    Smallest p.q ((calibrs l2).map (·.2.2)) ∧
    (∀ c, Ev.got (.calibr c) ∉ l2)

def isFile : Op → Bool
  | .file _ _ _ => true
  | _ => false

def isRestarted : Op → Bool
  | .restarted _ _ _ _ => true
  | _ => false

def isCalibr : Op → Bool
  | .calibr _ => true
  | _ => false

def isCalibrated : Op → Bool
  | .calibrated _ _ _ => true
  | _ => false

theorem restarts_got {op : Op} (h : isRestarted op = false) : restarts [.got op] = [] := by
  cases op <;> first | rfl | cases h

theorem calibrs_got {op : Op} (h : isCalibrated op = false) : calibrs [.got op] = [] := by
  cases op <;> first | rfl | cases h

theorem fileOk_grow {cfg : Cfg} {log es : List Ev} {op : Op} {p : FilePend}
    (h : FileOk cfg log p) (hq : ∀ e ∈ es, NotGot e) (h1 : isFile op = false)
    (h2 : isRestarted op = false) : FileOk cfg (log ++ .got op :: es) p := by
  obtain ⟨l1, l2, c, t, o, hl, hid, hm, hr, hp, ht, hn, hc, h1', hno⟩ := h
  refine ⟨l1, l2 ++ .got op :: es, c, t, o, by rw [hl]; simp, hid, hm, hr, hp, ht, hn, ?_, h1', ?_⟩
  · have : l2 ++ .got op :: es = l2 ++ ([.got op] ++ es) := by simp
    rw [this, restarts_append, restarts_append, restarts_quiet hq, restarts_got h2]
    simpa using hc
  · intro c' t' o' hmem
    rcases got_of_append hq hmem with h' | h'
    · exact hno _ _ _ h'
    · subst h'; cases h1

theorem calOk_grow {cfg : Cfg} {log es : List Ev} {op : Op} {p : CalPend}
    (h : CalOk cfg log p) (hq : ∀ e ∈ es, NotGot e) (h1 : isCalibr op = false)
    (h2 : isCalibrated op = false) : CalOk cfg (log ++ .got op :: es) p := by
  obtain ⟨l1, l2, c, hl, hid, hm, hd, hs, hc, h1', hqq, hno⟩ := h
  have hcc : calibrs (l2 ++ .got op :: es) = calibrs l2 := by
    have : l2 ++ .got op :: es = l2 ++ ([.got op] ++ es) := by simp
    rw [this, calibrs_append, calibrs_append, calibrs_quiet hq, calibrs_got h2]
    simp
  refine ⟨l1, l2 ++ .got op :: es, c, by rw [hl]; simp, hid, hm, hd, hs, ?_, h1', ?_, ?_⟩
  · rw [hcc]; exact hc
  · rw [hcc]; exact hqq
  · intro c' hmem
    rcases got_of_append hq hmem with h' | h'
    · exact hno _ h'
    · subst h'; cases h1

/-- The three commands under way. -/
structure Pend (cfg : Cfg) (s : St) : Prop where
  file : ∀ p, s.file = some p → FileOk cfg s.log p
  cal : ∀ p, s.cal = some p → CalOk cfg s.log p
  ref : ∀ p, s.ref = some p → Ev.got (.refresh p.id) ∈ s.log

theorem smallest_snoc {x : Rat} {qs : List Rat} (h : Smallest x qs) (q : Rat) :
    Smallest (lower q x) (qs ++ [q]) := by
  obtain ⟨h1, h2, h3⟩ := h
  unfold lower
  by_cases hl : q < x
  · rw [if_pos hl]
    refine ⟨Std.le_trans (Std.le_of_lt hl) h1, fun r hr => ?_, .inr (by simp)⟩
    rcases List.mem_append.1 hr with hr | hr
    · exact Std.le_trans (Std.le_of_lt hl) (h2 r hr)
    · rw [List.mem_singleton.1 hr]
      exact Std.le_refl q
  · rw [if_neg hl]
    refine ⟨h1, fun r hr => ?_, ?_⟩
    · rcases List.mem_append.1 hr with hr | hr
      · exact h2 r hr
      · rw [List.mem_singleton.1 hr]
        exact Std.not_lt.1 hl
    · rcases h3 with h3 | h3
      · exact .inl h3
      · exact .inr (List.mem_append_left _ h3)

theorem pend_reach {cfg : Cfg} {pfx : String} {run0 : Nat} {s : St} (h : Reach cfg pfx run0 s) :
    Pend cfg s := by
  induction h with
  | init => exact ⟨fun p hp => by simp [St.init] at hp, fun p hp => by simp [St.init] at hp,
      fun p hp => by simp [St.init] at hp⟩
  | @step s op _ hv ih =>
    obtain ⟨s', he, hs⟩ := eff_events cfg s op
    rw [hs]
    have hq := eff_notGot he
    generalize events cfg s op = es at *
    clear hs
    have ref0 : ∀ p, s.ref = some p → Ev.got (.refresh p.id) ∈ s.log ++ .got op :: es :=
      fun p hp => List.mem_append_left _ (ih.ref p hp)
    have cal0 : isCalibr op = false → isCalibrated op = false →
        ∀ p, s.cal = some p → CalOk cfg (s.log ++ .got op :: es) p :=
      fun h1 h2 p hp => calOk_grow (ih.cal p hp) hq h1 h2
    have file0 : isFile op = false → isRestarted op = false →
        ∀ p, s.file = some p → FileOk cfg (s.log ++ .got op :: es) p :=
      fun h1 h2 p hp => fileOk_grow (ih.file p hp) hq h1 h2
    cases he with
    | small c now outs hn =>
      refine ⟨fun p hp => ?_, cal0 rfl rfl, ref0⟩
      obtain ⟨_, _, _, _, _, _, _, _, _, _, _, hn', _⟩ := ih.file p hp
      exact absurd hn hn'
    | start c now outs hn hm =>
      refine ⟨fun p hp => ?_, cal0 rfl rfl, ref0⟩
      dsimp only at hp
      injection hp with hp
      subst hp
      refine ⟨s.log, _, c, now, outs, rfl, rfl, hm, rfl, rfl, rfl, hn, ?_, ?_, ?_⟩
      · rw [restarts_quiet hq]
        simp
      · dsimp only; omega
      · exact fun c t o hmem => hq _ hmem
    | stop c now outs hn hm => exact ⟨fun p hp => by simp at hp, cal0 rfl rfl, ref0⟩
    | other c now outs hn h1 h2 => exact ⟨fun p hp => by simp at hp, cal0 rfl rfl, ref0⟩
    | idle id' k ok now hf =>
      exact ⟨fun p hp => (by dsimp only at hp; rw [hf] at hp; cases hp), cal0 rfl rfl, ref0⟩
    | more id' k ok now p hf hl =>
      refine ⟨fun p' hp => ?_, cal0 rfl rfl, ref0⟩
      dsimp only at hp
      injection hp with hp
      subst hp
      obtain ⟨l1, l2, c, t, o, hlog, hid, hm, hr, hp, ht, hn, hc, h1, hno⟩ := ih.file p hf
      refine ⟨l1, l2 ++ .got (.restarted id' k ok now) :: [], c, t, o, by rw [hlog]; simp, hid, hm,
        hr, hp, ht, hn, ?_, ?_, ?_⟩
      · rw [restarts_append]
        have : restarts [.got (.restarted id' k ok now)] = [(id', k)] := rfl
        rw [this]
        simp
        omega
      · dsimp only; omega
      · intro c' t' o' hmem
        rcases got_of_append (es := []) (fun _ h => by cases h) hmem with h' | h'
        · exact hno _ _ _ h'
        · cases h'
    | last id' k ok now p hf hl => exact ⟨fun p hp => by simp at hp, cal0 rfl rfl, ref0⟩
    | tick now hh => exact ⟨file0 rfl rfl, cal0 rfl rfl, ref0⟩
    | timeout now p hf hr ht => exact ⟨fun p hp => by simp at hp, cal0 rfl rfl, ref0⟩
    | calNone c hh =>
      refine ⟨file0 rfl rfl, fun p hp => ?_, ref0⟩
      obtain ⟨_, _, _, _, _, _, _, hsend, hc, h1, _⟩ := ih.cal p hp
      simp [hsend] at hh
      omega
    | cal c hh =>
      refine ⟨file0 rfl rfl, fun p hp => ?_, ref0⟩
      dsimp only at hp
      injection hp with hp
      subst hp
      have hh' : cfg.send = true ∧ cfg.nin ≠ 0 := by
        simp at hh; exact hh
      refine ⟨s.log, _, c, rfl, rfl, rfl, rfl, hh'.1, ?_, ?_, ?_, ?_⟩
      · rw [calibrs_quiet hq]
        simp
      · dsimp only; omega
      · rw [calibrs_quiet hq]
        exact ⟨Std.le_refl _, fun _ h => (by cases h), .inl rfl⟩
      · exact fun c hmem => hq _ hmem
    | calIdle id' n q hf =>
      exact ⟨file0 rfl rfl, fun p hp => (by dsimp only at hp; rw [hf] at hp; cases hp), ref0⟩
    | calMore id' n q p hf hl =>
      refine ⟨file0 rfl rfl, fun p' hp => ?_, ref0⟩
      dsimp only at hp
      injection hp with hp
      subst hp
      obtain ⟨l1, l2, c, hlog, hid, hm, hd, hsend, hc, h1, hqq, hno⟩ := ih.cal p hf
      have hcc : calibrs (l2 ++ .got (.calibrated id' n q) :: []) = calibrs l2 ++ [(id', n, q)] := by
        rw [calibrs_append]; rfl
      refine ⟨l1, l2 ++ .got (.calibrated id' n q) :: [], c, by rw [hlog]; simp, hid, hm,
        hd, hsend, ?_, ?_, ?_, ?_⟩
      · rw [hcc]
        simp
        omega
      · dsimp only; omega
      · rw [hcc, List.map_append]
        exact smallest_snoc hqq q
      · intro c' hmem
        rcases got_of_append (es := []) (fun _ h => by cases h) hmem with h' | h'
        · exact hno _ h'
        · cases h'
    | calLast id' n q p hf hl => exact ⟨file0 rfl rfl, fun p hp => by simp at hp, ref0⟩
    | refNone id' hh => exact ⟨file0 rfl rfl, cal0 rfl rfl, ref0⟩
    | ref id' hh =>
      refine ⟨file0 rfl rfl, cal0 rfl rfl, fun p hp => ?_⟩
      dsimp only at hp
      injection hp with hp
      subst hp
      exact List.mem_append_right _ List.mem_cons_self
    | refIdle id' n q hf => exact ⟨file0 rfl rfl, cal0 rfl rfl, ref0⟩
    | refMore id' n q p hf hl =>
      refine ⟨file0 rfl rfl, cal0 rfl rfl, fun p' hp => ?_⟩
      dsimp only at hp
      injection hp with hp
      subst hp
      exact ref0 p hf
    | refLast id' n q p hf hl => exact ⟨file0 rfl rfl, cal0 rfl rfl, fun p hp => by simp at hp⟩
    | build => exact ⟨file0 rfl rfl, cal0 rfl rfl, ref0⟩
    | exit now => exact ⟨file0 rfl rfl, cal0 rfl rfl, ref0⟩

end Verif.BnetNode
