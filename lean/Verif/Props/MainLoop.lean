import Verif.Spec.MainLoop
import Mathlib.Data.List.Induction
/-!
# C121: the main loop of the manager

The statements are for all sequences of operations: calls of `RunManagerMainLoop`, passes of its
loop, signals, stop commands and replies of the application, at any times.
-/

namespace Verif.MainLoop

/-- Relation of the log to the state. -/
structure Inv (s : St) : Prop where
  halts : s.log.countP isHalt = if s.appstopped then 1 else 0
  lefts : s.log.countP isLeft ≤ 1
  enters : s.log.count .entered ≤ 1
  stop : s.appstopped = true → s.stopped ≠ 0
  loop : s.looping = true → s.log.countP isLeft = 0 ∧ s.log.count .entered = 1 ∧ s.gone = false
  fresh : s.looping = false → s.stopped = 0 → s.log = []
  left : 0 < s.log.countP isLeft → s.appstopped = true

theorem inv_init : Inv St.init :=
  ⟨rfl, Nat.zero_le _, Nat.zero_le _, (fun h => by cases h), (fun h => by cases h),
    fun _ _ => rfl, (fun h => by cases h)⟩

theorem note_eq (s : St) (t : Nat) :
    note s t = { s with stopped := if s.stopped = 0 then t else s.stopped } := by
  unfold note isNull
  by_cases h : s.stopped = 0 <;> simp [h]

theorem haltApp_facts (s : St) (now : Nat) : (haltApp s now).appstopped = true
    ∧ (haltApp s now).looping = s.looping ∧ (haltApp s now).stopped = s.stopped
    ∧ (haltApp s now).finished = s.finished := by
  unfold haltApp
  split
  · rename_i h; exact ⟨h, rfl, rfl, rfl⟩
  · exact ⟨rfl, rfl, rfl, rfl⟩

/-- The outcomes of a pass. -/
theorem pass_cases (s : St) (now : Nat) :
    (s.appstopped = true ∧ s.finished = true ∧ pass s now = leave s now)
    ∨ (¬ (s.appstopped = true ∧ s.finished = true) ∧ s.stopped = 0
        ∧ (s.runtime = 0 ∨ now ≤ s.start + s.runtime) ∧ pass s now = s)
    ∨ (¬ (s.appstopped = true ∧ s.finished = true)
        ∧ (s.stopped ≠ 0 ∨ (s.runtime ≠ 0 ∧ s.start + s.runtime < now))
        ∧ ∃ st, st = (if s.stopped = 0 then now else s.stopped) ∧ st ≠ 0
        ∧ ((st + 10000 < now ∧ pass s now = leave (haltApp { s with stopped := st } now) now)
          ∨ (now ≤ st + 10000 ∧ pass s now = haltApp { s with stopped := st } now))) := by
  by_cases h1 : s.appstopped = true ∧ s.finished = true
  · left
    refine ⟨h1.1, h1.2, ?_⟩
    unfold pass
    rw [if_pos (by simp [h1])]
  · right
    have e1 : (s.appstopped && s.finished) = false := by
      cases ha : s.appstopped <;> cases hf : s.finished <;> simp_all
    by_cases h2 : s.stopped = 0 ∧ (s.runtime = 0 ∨ now ≤ s.start + s.runtime)
    · left
      refine ⟨h1, h2.1, h2.2, ?_⟩
      unfold pass
      rw [e1, if_neg (by simp), if_pos]
      unfold isNull expired
      simp only [h2.1, beq_self_eq_true, Bool.true_and, Bool.or_eq_true, beq_iff_eq,
        Bool.not_eq_true', decide_eq_false_iff_not]
      rcases h2.2 with h | h
      · exact .inl h
      · exact .inr (by omega)
    · right
      have h3 : s.stopped ≠ 0 ∨ (s.runtime ≠ 0 ∧ s.start + s.runtime < now) := by
        by_cases h : s.stopped = 0
        · right
          constructor
          · intro hr; exact h2 ⟨h, .inl hr⟩
          · by_contra hl; exact h2 ⟨h, .inr (by omega)⟩
        · exact .inl h
      refine ⟨h1, h3, _, rfl, ?_, ?_⟩
      · split
        · omega
        · assumption
      · have e2 : pass s now = if expired (haltApp (note s now) now).stopped now 10000
            then leave (haltApp (note s now) now) now else haltApp (note s now) now := by
          unfold pass
          rw [e1, if_neg (by simp), if_neg]
          unfold isNull expired
          simp only [Bool.and_eq_true, Bool.or_eq_true, beq_iff_eq, Bool.not_eq_true',
            decide_eq_false_iff_not]
          rintro ⟨h4, h5⟩
          exact h2 ⟨h4, h5.imp id (by omega)⟩
        have e3 : (haltApp (note s now) now).stopped
            = if s.stopped = 0 then now else s.stopped := by
          rw [(haltApp_facts _ now).2.2.1, note_eq]
        rw [e2, e3, ← note_eq]
        unfold expired
        by_cases h5 : (if s.stopped = 0 then now else s.stopped) + 10000 < now
        · left
          exact ⟨h5, by rw [if_pos (by simpa using h5)]⟩
        · right
          exact ⟨by omega, by rw [if_neg (by simpa using h5)]⟩

theorem inv_setStop {s : St} (h : Inv s) (st : Nat) (h1 : s.stopped ≠ 0 → st ≠ 0)
    (hs : s.looping = true ∨ s.stopped = 0 ∨ st ≠ 0) : Inv { s with stopped := st } := by
  refine ⟨h.halts, h.lefts, h.enters, fun e => h1 (h.stop e), h.loop, fun hl h0 => ?_, h.left⟩
  by_cases h2 : s.stopped = 0
  · exact h.fresh hl h2
  · exact absurd h0 (h1 h2)

theorem inv_halt {s : St} (h : Inv s) (now : Nat) (h1 : s.stopped ≠ 0)
    (hl : s.looping = true) : Inv (haltApp s now) := by
  unfold haltApp
  split
  · exact h
  · rename_i h2
    have h3 : s.appstopped = false := by simpa using h2
    have hh := h.halts
    rw [h3] at hh
    obtain ⟨l1, l2, l3⟩ := h.loop hl
    refine ⟨?_, ?_, ?_, fun _ => h1, fun _ => ⟨?_, ?_, l3⟩, fun h4 => ?_, fun _ => rfl⟩
    · simp [List.countP_append, hh, isHalt]
    · simp [List.countP_append, l1, isLeft]
    · simp [List.count_append, l2]
    · simp [List.countP_append, l1, isLeft]
    · simp [List.count_append, l2]
    · rw [show s.looping = false from h4] at hl; cases hl

theorem inv_leave {s : St} (h : Inv s) (now : Nat) (h1 : s.appstopped = true)
    (hl : s.looping = true) : Inv (leave s now) := by
  obtain ⟨l1, l2, l3⟩ := h.loop hl
  have hh := h.halts
  rw [h1, if_pos rfl] at hh
  refine ⟨?_, ?_, ?_, h.stop, (fun e => by cases e), fun _ h4 => absurd h4 (h.stop h1),
    fun _ => h1⟩
  · simp [leave, List.countP_append, hh, isHalt, h1]
  · simp [leave, List.countP_append, l1, isLeft]
  · simp [leave, List.count_append, l2]

theorem inv_pass {s : St} (h : Inv s) (now : Nat) (hl : s.looping = true) : Inv (pass s now) := by
  rcases pass_cases s now with ⟨h1, -, e⟩ | ⟨-, -, -, e⟩ | ⟨-, -, st, h2, h3, h4⟩
  · rw [e]; exact inv_leave h now h1 hl
  · rw [e]; exact h
  · have i1 : Inv { s with stopped := st } := inv_setStop h st (fun _ => h3) (.inl hl)
    have i2 := inv_halt i1 now h3 hl
    rcases h4 with ⟨-, e⟩ | ⟨-, e⟩
    · rw [e]
      obtain ⟨f1, f2, -, -⟩ := haltApp_facts { s with stopped := st } now
      exact inv_leave i2 now f1 (f2.trans hl)
    · rw [e]; exact i2

theorem inv_note {s : St} (h : Inv s) (now : Nat) : Inv (note s now) := by
  rw [note_eq]
  refine inv_setStop h _ (fun h0 => by rw [if_neg h0]; exact h0) ?_
  by_cases h0 : s.stopped = 0
  · exact .inr (.inl h0)
  · right; right; rw [if_neg h0]; exact h0

theorem inv_step {s : St} (h : Inv s) (o : Op) : Inv (step s o) := by
  unfold step
  split
  · exact h
  · rename_i hg
    have hg' : s.gone = false := by simpa using hg
    cases o with
    | enter r now =>
      dsimp only
      split
      · exact h
      · rename_i hl
        have hl' : s.looping = false := by simpa using hl
        unfold enter isNull
        by_cases h0 : s.stopped = 0
        · rw [if_pos (by simp [h0])]
          have hlog := h.fresh hl' h0
          refine ⟨?_, ?_, ?_, (fun e => by cases e), fun _ => ⟨?_, ?_, hg'⟩,
            (fun e => by cases e), fun e => ?_⟩
          all_goals simp [hlog, isHalt, isLeft] at *
        · rw [if_neg (by simp [h0])]
          have hh := h.halts
          refine ⟨?_, ?_, ?_, h.stop, fun e => ?_, fun _ e => absurd e h0, fun e => h.left ?_⟩
          · simp [List.countP_append, hh, isHalt]
          · simpa [List.countP_append, isLeft] using h.lefts
          · simpa [List.count_append] using h.enters
          · rw [show s.looping = true from e] at hl'; cases hl'
          · simpa [List.countP_append, isLeft] using e
    | pass now =>
      dsimp only
      split
      · rename_i hl; exact inv_pass h now hl
      · exact h
    | ctrlC now =>
      show Inv (ctrlC s now)
      unfold ctrlC isNull
      by_cases h0 : s.stopped = 0
      · rw [if_pos (by simp [h0])]
        exact inv_setStop h now (fun e => absurd h0 e) (.inr (.inl h0))
      · rw [if_neg (by simp [h0])]
        split
        · exact h
        · have hh := h.halts
          refine ⟨?_, ?_, ?_, h.stop, (fun e => by cases e), fun _ e => absurd e h0,
            fun e => h.left ?_⟩
          · simp [List.countP_append, hh, isHalt]
          · simpa [List.countP_append, isLeft] using h.lefts
          · simpa [List.count_append] using h.enters
          · simpa [List.countP_append, isLeft] using e
    | pipe now => exact inv_note h now
    | stopCmd now => exact inv_note h now
    | reply => exact ⟨h.halts, h.lefts, h.enters, h.stop, h.loop, h.fresh, h.left⟩

theorem inv_run (ops : List Op) : ∀ s, Inv s → Inv (run s ops) := by
  induction ops with
  | nil => intro s h; exact h
  | cons o l ih => intro s h; exact ih _ (inv_step h o)

theorem inv_reach {s : St} (h : Reach s) : Inv s := by
  obtain ⟨ops, rfl⟩ := h
  exact inv_run ops _ inv_init

/-! ## Theorems -/

/-- The application is asked to halt at most once, the loop is entered and left at most once,
and it is never left without having asked the application to halt. -/
theorem C121_halted_once (s : St) (h : Reach s) :
    s.log.countP isHalt ≤ 1 ∧ s.log.count .entered ≤ 1 ∧ s.log.countP isLeft ≤ 1
    ∧ (0 < s.log.countP isLeft → s.log.countP isHalt = 1) := by
  have i := inv_reach h
  refine ⟨?_, i.enters, i.lefts, fun e => ?_⟩
  · rw [i.halts]; split <;> omega
  · rw [i.halts, i.left e, if_pos rfl]

/-- A pass leaves the loop only if the application was asked to halt before, or in this pass,
and has answered, or if more than ten seconds have passed since the request to stop. -/
theorem C121_left_for_reason (s : St) (now : Nat) (h : Reach s) (hl : s.looping = true)
    (he : (step s (.pass now)).looping = false) :
    (0 < s.log.countP isHalt ∧ s.finished = true)
    ∨ (s.stopped ≠ 0 ∧ s.stopped + 10000 < now) := by
  have i := inv_reach h
  have hg := (i.loop hl).2.2
  have e1 : step s (.pass now) = pass s now := by simp [step, hg, hl]
  rw [e1] at he
  rcases pass_cases s now with ⟨h1, h2, -⟩ | ⟨-, -, -, e⟩ | ⟨-, -, st, h2, h3, h4⟩
  · left
    refine ⟨?_, h2⟩
    rw [i.halts, h1, if_pos rfl]; exact Nat.one_pos
  · rw [e, hl] at he; cases he
  · rcases h4 with ⟨h5, -⟩ | ⟨-, e⟩
    · right
      by_cases h0 : s.stopped = 0
      · rw [if_pos h0] at h2; omega
      · rw [if_neg h0] at h2; subst h2; exact ⟨h0, h5⟩
    · rw [e, (haltApp_facts _ now).2.1] at he
      rw [show s.looping = false from he] at hl
      cases hl

/-- Ten seconds after the request to stop the next pass leaves the loop, whatever the
application does; and it does so as soon as the application has answered. -/
theorem C121_left_in_time (s : St) (now : Nat) (h : Reach s) (hl : s.looping = true)
    (hw : (s.stopped ≠ 0 ∧ s.stopped + 10000 < now)
      ∨ (0 < s.log.countP isHalt ∧ s.finished = true)) :
    (step s (.pass now)).looping = false := by
  have i := inv_reach h
  have hg := (i.loop hl).2.2
  have e1 : step s (.pass now) = pass s now := by simp [step, hg, hl]
  rw [e1]
  rcases pass_cases s now with ⟨-, -, e⟩ | ⟨h1, h2, -, e⟩ | ⟨h1, -, st, h2, h3, h4⟩
  · rw [e]; rfl
  · exfalso
    rcases hw with hw | hw
    · exact hw.1 h2
    · refine h1 ⟨?_, hw.2⟩
      have := i.halts
      by_contra hc
      rw [if_neg hc] at this
      omega
  · rcases h4 with ⟨-, e⟩ | ⟨h5, -⟩
    · rw [e]; rfl
    · exfalso
      rcases hw with hw | hw
      · rw [if_neg hw.1] at h2
        subst h2
        omega
      · refine h1 ⟨?_, hw.2⟩
        have := i.halts
        by_contra hc
        rw [if_neg hc] at this
        omega

/-- The answer of the application to the request to halt ends the loop with the next pass. -/
theorem C121_answer_ends (s : St) (now : Nat) (h : Reach s) (hl : s.looping = true)
    (hh : 0 < s.log.countP isHalt) :
    (step (step s .reply) (.pass now)).looping = false := by
  have hg := ((inv_reach h).loop hl).2.2
  have e : step s .reply = { s with finished := true } := by simp [step, hg]
  have hr : Reach (step s .reply) := by
    obtain ⟨ops, rfl⟩ := h
    exact ⟨ops ++ [.reply], by simp [run, List.foldl_append]⟩
  refine C121_left_in_time _ now hr (by rw [e]; exact hl) (.inr ⟨?_, by rw [e]⟩)
  rw [e]; exact hh

/-- The application counts as finished only after an answer. -/
theorem C121_finished_by_answer (ops : List Op)
    (h : (run St.init ops).finished = true) : Op.reply ∈ ops := by
  suffices key : ∀ (ops : List Op) (s : St), (run s ops).finished = true →
      s.finished = true ∨ Op.reply ∈ ops by
    rcases key ops St.init h with h | h
    · cases h
    · exact h
  intro ops
  induction ops with
  | nil => intro s h; exact .inl h
  | cons o l ih =>
    intro s h
    rcases ih _ h with h1 | h1
    · have keep : o = .reply ∨ (step s o).finished = s.finished := by
        cases o with
        | reply => exact .inl rfl
        | enter r n =>
          right; unfold step; split
          · rfl
          · dsimp only; split
            · rfl
            · unfold enter; split <;> rfl
        | pass n =>
          right; unfold step; split
          · rfl
          · dsimp only; split
            · rcases pass_cases s n with ⟨-, -, e⟩ | ⟨-, -, -, e⟩ | ⟨-, -, st, -, -, ⟨-, e⟩ | ⟨-, e⟩⟩
              · rw [e]; rfl
              · rw [e]
              · rw [e]; exact (haltApp_facts _ n).2.2.2
              · rw [e]; exact (haltApp_facts _ n).2.2.2
            · rfl
        | ctrlC n =>
          right; unfold step; split
          · rfl
          · dsimp only; unfold ctrlC; split
            · rfl
            · split <;> rfl
        | pipe n =>
          right; unfold step; split
          · rfl
          · dsimp only; rw [note_eq]
        | stopCmd n =>
          right; unfold step; split
          · rfl
          · dsimp only; rw [note_eq]
      rcases keep with rfl | e
      · exact .inr (List.mem_cons_self ..)
      · rw [e] at h1; exact .inl h1
    · exact .inr (List.mem_cons_of_mem _ h1)

/-- A request to stop at a time after the start of the clock makes the next pass ask the
application to halt. -/
theorem C121_request_obeyed (s : St) (o : Op) (t now : Nat) (h : Reach s)
    (hl : s.looping = true) (hs : s.stopped = 0) (ho : stopAt o = some t) (ht : 0 < t) :
    (step (step s o) (.pass now)).log.countP isHalt = 1
    ∧ (step (step s o) (.pass now)).stopped = t := by
  have i := inv_reach h
  have hg := (i.loop hl).2.2
  have e0 : step s o = { s with stopped := t } := by
    cases o with
    | enter r n => cases ho
    | pass n => cases ho
    | ctrlC n => cases ho; simp [step, hg, ctrlC, isNull, hs]
    | pipe n => cases ho; simp [step, hg, note, isNull, hs]
    | stopCmd n => cases ho; simp [step, hg, note, isNull, hs]
    | reply => cases ho
  have ha : s.appstopped = false := by
    cases hc : s.appstopped with
    | false => rfl
    | true => exact absurd hs (i.stop hc)
  have hh := i.halts
  rw [ha, if_neg (by simp)] at hh
  rw [e0]
  have e1 : step { s with stopped := t } (.pass now) = pass { s with stopped := t } now := by
    simp [step, hg, hl]
  rw [e1]
  rcases pass_cases { s with stopped := t } now with ⟨h1, -⟩ | ⟨-, h2, -⟩ | ⟨-, -, st, h2, h3, h4⟩
  · rw [show s.appstopped = true from h1] at ha; cases ha
  · have : t = 0 := h2
    omega
  · have hst : st = t := by
      have h2' : st = if t = 0 then now else t := h2
      rw [if_neg (by omega)] at h2'
      exact h2'
    subst hst
    have e2 : haltApp { s with stopped := st } now
        = { s with stopped := st, appstopped := true, log := s.log ++ [.halt now] } := by
      unfold haltApp
      rw [if_neg (by simp [ha])]
    have e2' : haltApp { { s with stopped := st } with stopped := st } now
        = { s with stopped := st, appstopped := true, log := s.log ++ [.halt now] } := e2
    rcases h4 with ⟨-, e⟩ | ⟨-, e⟩
    · rw [e, e2']
      simp [leave, List.countP_append, List.countP_cons, hh, isHalt]
    · rw [e, e2']
      simp [List.countP_append, hh, isHalt]

/-- As long as nobody asks to stop and the running time (if any) is not over, the loop goes on
and the application is left alone. -/
theorem C121_runs_until_asked (s : St) (runtime start : Nat) (ops : List Op) (h : Reach s)
    (hg : s.gone = false) (hl : s.looping = false) (hs : s.stopped = 0)
    (hc : ∀ o ∈ ops, Calm start runtime o) :
    (run s (.enter runtime start :: ops)).looping = true
    ∧ (run s (.enter runtime start :: ops)).log = [.entered] := by
  have i := inv_reach h
  have hlog := i.fresh hl hs
  have e0 : step s (.enter runtime start) = { s with
      looping := true, start := start, runtime := runtime, appstopped := false,
      log := [.entered] } := by
    simp [step, hg, hl, enter, isNull, hs, hlog]
  show (run (step s (.enter runtime start)) ops).looping = true
    ∧ (run (step s (.enter runtime start)) ops).log = [.entered]
  rw [e0]
  suffices key : ∀ (ops : List Op) (s : St), (∀ o ∈ ops, Calm start runtime o) →
      s.gone = false → s.looping = true → s.stopped = 0 → s.start = start →
      s.runtime = runtime → s.appstopped = false → s.log = [.entered] →
      (run s ops).looping = true ∧ (run s ops).log = [.entered] by
    exact key ops _ hc hg rfl hs rfl rfl rfl rfl
  intro ops
  induction ops with
  | nil => intro s _ _ h2 _ _ _ _ h7; exact ⟨h2, h7⟩
  | cons o l ih =>
    intro s hc h1 h2 h3 h4 h5 h6 h7
    have ho := hc o (List.mem_cons_self ..)
    have hrest : ∀ o ∈ l, Calm start runtime o := fun o ho => hc o (List.mem_cons_of_mem _ ho)
    have stay : (step s o).gone = false ∧ (step s o).looping = true ∧ (step s o).stopped = 0
        ∧ (step s o).start = start ∧ (step s o).runtime = runtime
        ∧ (step s o).appstopped = false ∧ (step s o).log = [.entered] := by
      cases o with
      | enter r n => simp [step, h1, h2, h3, h4, h5, h6, h7]
      | pass n =>
        have e1 : step s (.pass n) = pass s n := by simp [step, h1, h2]
        have e2 : pass s n = s := by
          rcases pass_cases s n with ⟨h8, -⟩ | ⟨-, -, -, e⟩ | ⟨-, h8, -⟩
          · rw [h6] at h8; cases h8
          · exact e
          · rcases h8 with h8 | ⟨h8, h9⟩
            · exact absurd h3 h8
            · rw [h5] at h8
              rw [h4, h5] at h9
              rcases ho.2 n rfl with h10 | h10
              · exact absurd h10 h8
              · omega
        rw [e1, e2]
        exact ⟨h1, h2, h3, h4, h5, h6, h7⟩
      | ctrlC n => exact absurd ho.1 (by simp [stopAt])
      | pipe n => exact absurd ho.1 (by simp [stopAt])
      | stopCmd n => exact absurd ho.1 (by simp [stopAt])
      | reply => simp [step, h1, h2, h3, h4, h5, h6, h7]
    obtain ⟨g1, g2, g3, g4, g5, g6, g7⟩ := stay
    exact ih _ hrest g1 g2 g3 g4 g5 g6 g7

/-- The running time is kept: the first pass after it asks the application to halt. -/
theorem C121_runtime_kept (s : St) (now : Nat) (h : Reach s) (hl : s.looping = true)
    (hs : s.stopped = 0) (hr : s.runtime ≠ 0) (ht : s.start + s.runtime < now) :
    (step s (.pass now)).log = s.log ++ [.halt now] ∧ (step s (.pass now)).stopped = now
    ∧ (step s (.pass now)).looping = true := by
  have i := inv_reach h
  have hg := (i.loop hl).2.2
  have e1 : step s (.pass now) = pass s now := by simp [step, hg, hl]
  have ha : s.appstopped = false := by
    cases hc : s.appstopped with
    | false => rfl
    | true => exact absurd hs (i.stop hc)
  rw [e1]
  rcases pass_cases s now with ⟨h1, -⟩ | ⟨-, -, h2, -⟩ | ⟨-, -, st, h2, h3, h4⟩
  · rw [h1] at ha; cases ha
  · rcases h2 with h2 | h2
    · exact absurd h2 hr
    · omega
  · rw [if_pos hs] at h2
    subst h2
    rcases h4 with ⟨h5, -⟩ | ⟨-, e⟩
    · omega
    · rw [e]
      simp [haltApp, ha, hl]

/-- The process is ended by Ctrl-C only if ten seconds have passed since the first request to
stop, and then it is. -/
theorem C121_forced_exit (s : St) (now : Nat) (h : Reach s) (hg : s.gone = false) :
    (step s (.ctrlC now)).gone = true ↔ s.stopped ≠ 0 ∧ s.stopped + 10000 ≤ now := by
  have _ := h
  have e : step s (.ctrlC now) = ctrlC s now := by simp [step, hg]
  rw [e]
  unfold ctrlC isNull
  by_cases h0 : s.stopped = 0
  · rw [if_pos (by simp [h0])]
    simp [h0, hg]
  · rw [if_neg (by simp [h0])]
    split
    · simp only [hg]
      constructor
      · intro e; cases e
      · intro e; omega
    · simp only [true_iff]
      exact ⟨h0, by omega⟩

/-- When the request to stop comes before the main loop, the application is never asked to
halt: the loop is refused, now and ever after. -/
theorem C121_early_stop_counterexample (s : St) (ops : List Op) (h : Reach s)
    (hl : s.looping = false) (hs : s.stopped ≠ 0) :
    (run s ops).log.countP isHalt = s.log.countP isHalt
    ∧ (run s ops).log.count .entered = s.log.count .entered := by
  have _ := h
  suffices key : ∀ (ops : List Op) (s : St), s.looping = false → s.stopped ≠ 0 →
      (run s ops).log.countP isHalt = s.log.countP isHalt
      ∧ (run s ops).log.count .entered = s.log.count .entered from key ops s hl hs
  intro ops
  induction ops with
  | nil => intro s _ _; exact ⟨rfl, rfl⟩
  | cons o l ih =>
    intro s h1 h2
    have stay : (step s o).looping = false ∧ (step s o).stopped ≠ 0
        ∧ (step s o).log.countP isHalt = s.log.countP isHalt
        ∧ (step s o).log.count .entered = s.log.count .entered := by
      unfold step
      split
      · exact ⟨h1, h2, rfl, rfl⟩
      · cases o with
        | enter r n =>
          simp [h1, enter, isNull, h2, List.countP_append, isHalt, List.count_append]
        | pass n => simp [h1, h2]
        | ctrlC n =>
          dsimp only
          unfold ctrlC isNull
          rw [if_neg (by simp [h2])]
          split
          · exact ⟨h1, h2, rfl, rfl⟩
          · exact ⟨rfl, h2, by simp [List.countP_append, isHalt],
              by simp [List.count_append]⟩
        | pipe n => simp [note, isNull, h1, h2]
        | stopCmd n => simp [note, isNull, h1, h2]
        | reply => exact ⟨h1, h2, rfl, rfl⟩
    obtain ⟨g1, g2, g3, g4⟩ := stay
    have := ih _ g1 g2
    exact ⟨this.1.trans g3, this.2.trans g4⟩

/-! ## Runs which meet the hypotheses -/

/-- Two passes, Ctrl-C, two passes with the answer in between. -/
example : (run St.init [.enter 0 5, .pass 105, .pass 205, .ctrlC 250, .pass 305, .reply,
    .pass 306]).log = [.entered, .halt 305, .left 306] := by decide

/-- The application does not answer. -/
example : (run St.init [.enter 0 5, .pass 105, .ctrlC 250, .pass 305, .pass 10250,
    .pass 10251]).log = [.entered, .halt 305, .left 10251] := by decide

/-- Running time of one second. -/
example : (run St.init [.enter 1000 5, .pass 1005, .pass 1006, .reply, .pass 1007]).log
    = [.entered, .halt 1006, .left 1007] := by decide

/-- Ctrl-C before the loop. -/
example : (run St.init [.ctrlC 3, .enter 0 5, .pass 105, .ctrlC 10003]).log
    = [.refused, .exit 10003] := by decide

example : Reach (run St.init [.enter 0 5, .pass 105]) := ⟨_, rfl⟩

example : Calm 5 0 (.pass 105) := ⟨rfl, fun _ _ => .inl rfl⟩

end Verif.MainLoop
