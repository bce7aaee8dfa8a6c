import Verif.Spec.WorkCmd

/-!
# C103: commands submitted to a worker are executed one at a time, in order, and answered once
-/

namespace Verif.WorkCmd

theorem run_induct (P : List Act → S → Prop) (hstep : ∀ h s a s', P h s → step s a = some s' → P (h ++ [a]) s') :
    ∀ (as : List Act) (h : List Act) (s t : S), P h s → run s as = some t → P (h ++ as) t := by
  intro as
  induction as with
  | nil => intro h s t hp hr; cases hr; simpa using hp
  | cons a as ih =>
    intro h s t hp hr
    simp only [run] at hr
    cases hs : step s a with
    | none => rw [hs] at hr; cases hr
    | some s' =>
      rw [hs] at hr
      have := ih (h ++ [a]) s' t (hstep h s a s' hp hs) hr
      simpa using this

/-! ## Where a command is -/

/-- All places of a command. -/
def account (s : S) (x : C) : Nat :=
  s.pending.count x + s.postponed.count x + (s.frames.map (·.2)).count x + (s.replied.map (·.1)).count x +
    s.kept.count x + s.dropped.count x + s.broken.count x

/-- Executions, and places from which a command can still be executed or is given up. -/
def chances (s : S) (x : C) : Nat := s.pending.count x + s.postponed.count x + s.dropped.count x + s.begun.count x

theorem account_process (s : S) (c : C) (ev : Bool) (x : C) :
    account (process s c ev) x = account s x + if c = x then 1 else 0 := by
  unfold process
  split
  · simp only [account, List.count_append, List.count_singleton, beq_iff_eq]; omega
  · split
    · simp only [account, List.map_append, List.map_cons, List.map_nil, List.count_append, List.count_singleton, beq_iff_eq]; omega
    · split
      · simp only [account, List.count_append, List.count_singleton, beq_iff_eq]; omega
      · simp only [account, List.map_cons, List.count_cons, beq_iff_eq]; omega

theorem chances_process (s : S) (c : C) (ev : Bool) (x : C) :
    chances (process s c ev) x ≤ chances s x + if c = x then 1 else 0 := by
  unfold process
  split
  · simp only [chances, List.count_append, List.count_singleton, beq_iff_eq]; omega
  · split
    · simp only [chances]; omega
    · split
      · simp only [chances, List.count_append, List.count_singleton, beq_iff_eq]; omega
      · simp only [chances, List.count_append, List.count_singleton, beq_iff_eq]; omega

/-- Without a command in execution nothing is postponed. -/
theorem process_postponed (s : S) (c : C) (ev : Bool) (h : s.frames.length = 0) :
    (process s c ev).postponed = s.postponed := by
  unfold process
  split
  · rfl
  · split
    · rfl
    · simp [h]

theorem account_drain (l : List C) (s : S) (x : C) : account (drain s l) x = account { s with postponed := l } x := by
  induction l generalizing s with
  | nil => rfl
  | cons c l ih =>
    simp only [drain]
    split
    · rename_i hf
      rw [ih]
      have h1 : ({ process { s with postponed := l } c true with postponed := l } : S) =
          process { s with postponed := l } c true := by
        have := process_postponed { s with postponed := l } c true hf
        cases hp : process { s with postponed := l } c true
        rw [hp] at this; simp only at this; simp [this]
      rw [h1, account_process]
      simp only [account, List.count_cons, beq_iff_eq]; omega
    · rfl

theorem chances_drain (l : List C) (s : S) (x : C) : chances (drain s l) x ≤ chances { s with postponed := l } x := by
  induction l generalizing s with
  | nil => exact Nat.le_refl _
  | cons c l ih =>
    simp only [drain]
    split
    · rename_i hf
      refine Nat.le_trans (ih _) ?_
      have h1 : ({ process { s with postponed := l } c true with postponed := l } : S) =
          process { s with postponed := l } c true := by
        have := process_postponed { s with postponed := l } c true hf
        cases hp : process { s with postponed := l } c true
        rw [hp] at this; simp only at this; simp [this]
      rw [h1]
      refine Nat.le_trans (chances_process _ _ _ _) ?_
      simp only [chances, List.count_cons, beq_iff_eq]; omega
    · exact Nat.le_refl _

theorem self_postponed (s : S) : ({ s with postponed := s.postponed } : S) = s := rfl

theorem foldl_dropped (l : List C) (s : S) (h : s.normal = false) :
    l.foldl (fun s c => process s c false) s = { s with dropped := s.dropped ++ l } := by
  induction l generalizing s with
  | nil => simp
  | cons c l ih =>
    simp only [List.foldl_cons]
    have : process s c false = { s with dropped := s.dropped ++ [c] } := by simp [process, h]
    rw [this, ih { s with dropped := s.dropped ++ [c] } h]
    simp

theorem cleanup_eq (s : S) : cleanup s =
    { s with postponed := [], pending := [], normal := false, dropped := s.dropped ++ (s.postponed ++ s.pending) } := by
  unfold cleanup
  rw [foldl_dropped _ _ rfl]

theorem count_erase_mem (l : List C) (c x : C) (h : c ∈ l) : (l.erase c).count x + (if c = x then 1 else 0) = l.count x := by
  by_cases hx : c = x
  · subst hx
    have := List.count_erase_self (a := c) (l := l)
    have h0 := List.count_pos_iff.mpr h
    simp; omega
  · rw [List.count_erase_of_ne (by exact fun h => hx h.symm)]
    simp [hx]

theorem step_account {s t : S} {a : Act} (x : C) (hs : step s a = some t) :
    account t x = account s x + accepted [a] x ∧ chances t x ≤ chances s x + accepted [a] x := by
  cases a with
  | submit c =>
    simp only [step] at hs
    split at hs
    · cases hs
      simp only [account, chances, accepted, List.count_append, List.count_singleton]
      by_cases hc : c = x
      · subst hc; simp; omega
      · simp [hc]
    · cases hs
  | event c =>
    simp only [step] at hs
    split at hs
    · rename_i hm
      cases hs
      have h1 := count_erase_mem s.pending c x hm
      simp only [deliver]
      refine ⟨((account_drain _ _ _).trans (account_process _ _ _ _)).trans ?_,
        Nat.le_trans (chances_drain _ _ _) (Nat.le_trans (chances_process _ _ _ _) ?_)⟩
      · simp only [account, accepted, List.count_singleton]
        simp
        omega
      · simp only [chances, accepted, List.count_singleton]
        omega
    · cases hs
  | finish r =>
    simp only [step] at hs
    split at hs
    · cases hs
    · rename_i hne
      cases hs
      have h0 : accepted [Act.finish r] x = 0 := by simp [accepted]
      rw [h0]
      unfold finish
      cases hf : s.frames with
      | nil => exact absurd hf hne
      | cons p fs =>
        obtain ⟨ev, c⟩ := p
        have key : ∀ u : S, account (if ev = true then drain u u.postponed else u) x = account u x ∧
            chances (if ev = true then drain u u.postponed else u) x ≤ chances u x := by
          intro u
          cases ev
          · exact ⟨rfl, Nat.le_refl _⟩
          · exact ⟨account_drain _ _ _, chances_drain _ _ _⟩
        dsimp only
        refine ⟨(key _).1.trans ?_, Nat.le_trans (key _).2 ?_⟩
        · unfold answer
          split
          · simp only [account, hf, List.map_cons, List.count_cons, List.count_append, List.count_nil]; omega
          · simp only [account, hf, List.map_cons, List.map_append, List.map_nil, List.count_cons, List.count_append, List.count_nil]; omega
        · unfold answer
          split <;> exact Nat.le_refl _
  | throw =>
    simp only [step] at hs
    cases hf : s.frames with
    | nil => rw [hf] at hs; cases hs
    | cons p fs =>
      rw [hf] at hs
      cases hs
      simp only [account, chances, accepted, hf, List.map_cons, List.count_cons, List.count_append, List.count_nil]
      simp
      omega
  | direct c =>
    simp only [step] at hs; cases hs
    have h0 : accepted [Act.direct c] x = if c = x then 1 else 0 := by
      by_cases hc : c = x
      · subst hc; simp [accepted]
      · simp [accepted, hc]
    rw [h0]
    refine ⟨?_, Nat.le_trans (chances_process _ _ _ _) ?_⟩
    · rw [account_process]; rfl
    · exact Nat.le_refl _
  | destroy =>
    simp only [step] at hs; cases hs
    exact ⟨by simp [account, accepted], by simp [chances, accepted]⟩
  | cleanup =>
    simp only [step] at hs
    split at hs
    · cases hs
      rw [cleanup_eq]
      simp only [account, chances, accepted, List.count_append, List.count_nil]
      simp
      omega
    · cases hs

/-- **C103.**  Every accepted command is at exactly one place at any time: waiting for its event, postponed, in
execution, replied, kept by the worker for a later reply, left by an exception, or - see below - dropped. -/
theorem C103_account (as : List Act) (s : S) (x : C) (h : run start as = some s) :
    accepted as x = s.pending.count x + s.postponed.count x + (s.frames.map (·.2)).count x +
      (s.replied.map (·.1)).count x + s.kept.count x + s.dropped.count x + s.broken.count x := by
  have := run_induct (fun h s => accepted h x = account s x)
    (by
      intro h s a s' hp hs
      have h1 := (step_account x hs).1
      rw [h1, ← hp]
      simp only [accepted, List.count_append]
      omega) as [] start s rfl h
  exact this

/-- **C103.**  A command is executed at most as often as it was submitted, whatever happens. -/
theorem C103_once (as : List Act) (s : S) (x : C) (h : run start as = some s) : s.begun.count x ≤ accepted as x := by
  have := run_induct (fun h s => chances s x ≤ accepted h x)
    (by
      intro h s a s' hp hs
      have h1 := (step_account x hs).2
      have : accepted (h ++ [a]) x = accepted h x + accepted [a] x := by
        simp only [accepted, List.count_append]; omega
      omega) as [] start s (Nat.le_refl _) h
  have h2 : chances s x ≤ accepted as x := this
  simp only [chances] at h2
  omega

def c1 : C := ⟨1, false, false⟩
def c2 : C := ⟨2, true, false⟩
def c3 : C := ⟨3, false, false⟩

/-- Command 1 runs the event loop: the synchronous 2 is executed inside, 3 afterwards. -/
def good : List Act :=
  [.submit c1, .submit c3, .submit c2, .event c1, .event c3, .event c2, .finish 1, .finish 1, .finish (-2)]

example : (run start good).map (fun s => (s.begun, s.replied, s.postponed, s.frames)) =
    some ([c1, c2, c3], [(c2, 1), (c1, 1), (c3, 0)], [], []) := rfl

/-! ## One at a time -/

theorem frames_process (s : S) (c : C) (ev : Bool) (h : ∀ p ∈ s.frames.dropLast, p.2.sync = true) :
    ∀ p ∈ (process s c ev).frames.dropLast, p.2.sync = true := by
  unfold process
  split
  · exact h
  · split
    · exact h
    · split
      · exact h
      · rename_i hc
        cases hf : s.frames with
        | nil => simp
        | cons q fs =>
          simp only [hf, List.length_cons, Bool.and_eq_true, decide_eq_true_eq, Bool.not_eq_true', not_and] at hc
          have hsync : c.sync = true := by
            cases hx : c.sync
            · exact absurd hx (hc (by omega))
            · rfl
          intro p hp
          rw [List.dropLast_cons_of_ne_nil (by simp)] at hp
          rcases List.mem_cons.mp hp with rfl | hp
          · exact hsync
          · exact h p (hf ▸ hp)

theorem frames_drain (l : List C) (s : S) (h : ∀ p ∈ s.frames.dropLast, p.2.sync = true) :
    ∀ p ∈ (drain s l).frames.dropLast, p.2.sync = true := by
  induction l generalizing s with
  | nil => exact h
  | cons c l ih =>
    simp only [drain]
    split
    · exact ih _ (frames_process _ _ _ h)
    · exact h

theorem dropLast_tail {p : Bool × C} {fs : List (Bool × C)} (h : ∀ q ∈ (p :: fs).dropLast, q.2.sync = true) :
    ∀ q ∈ fs.dropLast, q.2.sync = true := by
  intro q hq
  apply h
  cases fs with
  | nil => simp at hq
  | cons a fs => rw [List.dropLast_cons_of_ne_nil (by simp)]; exact List.mem_cons_of_mem _ hq

/-- **C103.**  Of all commands in execution only the outermost - the one which began first - need not be synchronous:
commands whose sender does not wait are executed one at a time. -/
theorem C103_one (as : List Act) (s : S) (h : run start as = some s) : ∀ p ∈ s.frames.dropLast, p.2.sync = true := by
  refine run_induct (fun _ s => ∀ p ∈ s.frames.dropLast, p.2.sync = true) ?_ as [] start s (by simp [start]) h
  intro _ s a t hp hs
  cases a with
  | submit c => simp only [step] at hs; split at hs <;> cases hs; exact hp
  | event c =>
    simp only [step] at hs; split at hs <;> cases hs
    exact frames_drain _ _ (frames_process _ _ _ hp)
  | finish r =>
    simp only [step] at hs; split at hs <;> cases hs
    unfold finish
    cases hf : s.frames with
    | nil => dsimp only; exact hp
    | cons p fs =>
      obtain ⟨ev, c⟩ := p
      rw [hf] at hp
      have h1 := dropLast_tail hp
      dsimp only
      split
      · apply frames_drain; unfold answer; split <;> exact h1
      · unfold answer; split <;> exact h1
  | throw =>
    simp only [step] at hs
    cases hf : s.frames with
    | nil => rw [hf] at hs; cases hs
    | cons p fs => rw [hf] at hs hp; cases hs; exact dropLast_tail hp
  | direct c => simp only [step] at hs; cases hs; exact frames_process _ _ _ hp
  | destroy => simp only [step] at hs; cases hs; exact hp
  | cleanup =>
    simp only [step] at hs; split at hs <;> cases hs
    rw [cleanup_eq]; exact hp

example : (run start (good.take 6)).map (fun s => s.frames.map (·.2)) = some [c2, c1] := by decide

/-! ## In order -/

structure Order (s : S) : Prop where
  sub : (async s.begun ++ s.postponed).Sublist (async s.delivered)
  idle : s.frames = [] → s.postponed = []
  late : ∀ c ∈ s.postponed, c.sync = false
  event : ∀ p ∈ s.frames, p.1 = true

theorem async_append (a b : List C) : async (a ++ b) = async a ++ async b := by simp [async]

theorem async_one (c : C) : async [c] = if c.sync then [] else [c] := by
  cases h : c.sync <;> simp [async, h]

/-- What the loop over postponed commands does to order. -/
theorem order_drain (l : List C) (s : S) (hl : ∀ c ∈ l, c.sync = false) (hev : ∀ p ∈ s.frames, p.1 = true) :
    (async (drain s l).begun ++ (drain s l).postponed).Sublist (async s.begun ++ l) ∧
      (drain s l).delivered = s.delivered ∧ ((drain s l).frames = [] → (drain s l).postponed = []) ∧
      (∀ c ∈ (drain s l).postponed, c.sync = false) ∧ ∀ p ∈ (drain s l).frames, p.1 = true := by
  induction l generalizing s with
  | nil => exact ⟨List.Sublist.refl _, rfl, fun _ => rfl, by simp [drain], hev⟩
  | cons c l ih =>
    simp only [drain]
    split
    · rename_i hf
      have hs : c.sync = false := hl c (by simp)
      have hl' : ∀ c ∈ l, c.sync = false := fun d hd => hl d (by simp [hd])
      have hev' : ∀ p ∈ (process { s with postponed := l } c true).frames, p.1 = true := by
        unfold process
        split
        · exact hev
        · split
          · exact hev
          · split
            · exact hev
            · intro p hp
              rcases List.mem_cons.mp hp with rfl | hp
              · rfl
              · exact hev p hp
      obtain ⟨i1, i2, i3, i4, i5⟩ := ih (process { s with postponed := l } c true) hl' hev'
      refine ⟨?_, ?_, i3, i4, i5⟩
      · refine i1.trans ?_
        unfold process
        split
        · exact List.Sublist.append (List.Sublist.refl _) (List.sublist_cons_self c l)
        · split
          · exact List.Sublist.append (List.Sublist.refl _) (List.sublist_cons_self c l)
          · rw [if_neg (by simp [hf])]
            show (async (s.begun ++ [c]) ++ l).Sublist _
            rw [async_append, async_one, hs]
            simp
      · rw [i2]
        unfold process
        split
        · rfl
        · split
          · rfl
          · split <;> rfl
    · rename_i hf
      refine ⟨List.Sublist.refl _, rfl, ?_, hl, hev⟩
      intro h; exact absurd (by simpa using congrArg List.length h) hf

theorem order_step {s t : S} {a : Act} (h : Order s) (h1 : a ≠ .throw) (h2 : ∀ c, a ≠ .direct c) (hs : step s a = some t) :
    Order t := by
  cases a with
  | submit c =>
    simp only [step] at hs; split at hs <;> cases hs
    exact ⟨h.sub, h.idle, h.late, h.event⟩
  | event c =>
    simp only [step] at hs
    split at hs
    · cases hs
      simp only [deliver]
      let u : S := { s with pending := s.pending.erase c, delivered := s.delivered ++ [c] }
      have hsub : (async s.begun ++ s.postponed).Sublist (async (s.delivered ++ [c])) := by
        rw [async_append]; exact h.sub.trans (List.sublist_append_left _ _)
      have hu : (async (process u c true).begun ++ (process u c true).postponed).Sublist (async (process u c true).delivered) ∧
          (∀ d ∈ (process u c true).postponed, d.sync = false) ∧ ∀ p ∈ (process u c true).frames, p.1 = true := by
        unfold process
        split
        · exact ⟨hsub, h.late, h.event⟩
        · split
          · exact ⟨hsub, h.late, h.event⟩
          · split
            · rename_i hc
              simp only [Bool.and_eq_true, Bool.not_eq_true'] at hc
              refine ⟨?_, ?_, h.event⟩
              · show (async s.begun ++ (s.postponed ++ [c])).Sublist (async (s.delivered ++ [c]))
                rw [async_append, async_one, hc.2, ← List.append_assoc]
                exact List.Sublist.append h.sub (List.Sublist.refl _)
              · intro d hd
                rcases List.mem_append.mp hd with hd | hd
                · exact h.late d hd
                · simp at hd; subst hd; exact hc.2
            · rename_i hc
              refine ⟨?_, h.late, ?_⟩
              · show (async (s.begun ++ [c]) ++ s.postponed).Sublist (async (s.delivered ++ [c]))
                rw [async_append, async_append, async_one]
                cases hsy : c.sync with
                | true => simpa using h.sub
                | false =>
                  have hlen : s.frames = [] := by
                    have hc' : ¬ ((decide (s.frames.length > 0) && !c.sync) = true) := hc
                    simp only [hsy, Bool.not_false, Bool.and_true, decide_eq_true_eq] at hc'
                    exact List.eq_nil_of_length_eq_zero (by omega)
                  have hp := h.idle hlen
                  have hb := h.sub
                  rw [hp] at hb
                  simp only [List.append_nil] at hb
                  simp only [Bool.false_eq_true, if_false, hp, List.append_nil]
                  exact List.Sublist.append hb (List.Sublist.refl _)
              · intro p hp
                rcases List.mem_cons.mp hp with rfl | hp
                · rfl
                · exact h.event p hp
      obtain ⟨i1, i2, i3, i4, i5⟩ := order_drain (process u c true).postponed (process u c true) hu.2.1 hu.2.2
      exact ⟨by rw [show (drain (process u c true) (process u c true).postponed).delivered = _ from i2]; exact i1.trans hu.1, i3, i4, i5⟩
    · cases hs
  | finish r =>
    simp only [step] at hs
    split at hs
    · cases hs
    · rename_i hne
      cases hs
      unfold finish
      cases hf : s.frames with
      | nil => exact absurd hf hne
      | cons p fs =>
        obtain ⟨ev, c⟩ := p
        have hev : ev = true := h.event (ev, c) (by simp [hf])
        have hfs : ∀ p ∈ fs, p.1 = true := fun p hp => h.event p (by simp [hf, hp])
        subst hev
        dsimp only
        rw [if_pos rfl]
        have key : ∀ u : S, u.begun = s.begun → u.postponed = s.postponed → u.delivered = s.delivered → u.frames = fs →
            Order (drain u u.postponed) := by
          intro u u1 u2 u3 u4
          obtain ⟨i1, i2, i3, i4, i5⟩ := order_drain u.postponed u (by rw [u2]; exact h.late) (by rw [u4]; exact hfs)
          refine ⟨?_, i3, i4, i5⟩
          rw [i2, u3]
          refine i1.trans ?_
          rw [u1, u2]; exact h.sub
        unfold answer
        split
        · exact key _ rfl rfl rfl rfl
        · exact key _ rfl rfl rfl rfl
  | throw => exact absurd rfl h1
  | direct c => exact absurd rfl (h2 c)
  | destroy => simp only [step] at hs; cases hs; exact ⟨h.sub, h.idle, h.late, h.event⟩
  | cleanup =>
    simp only [step] at hs
    split at hs
    · cases hs
      rw [cleanup_eq]
      refine ⟨?_, fun _ => rfl, by simp, h.event⟩
      show (async s.begun ++ []).Sublist (async s.delivered)
      rw [List.append_nil]
      exact (List.sublist_append_left _ _).trans h.sub
    · cases hs

theorem order_run {as : List Act} {s : S} (hp : Plain as) (h : run start as = some s) : Order s := by
  have := run_induct (fun h s => Plain h → Order s)
    (by
      intro h s a s' ho hs hpl
      have ha := hpl a (by simp)
      exact order_step (ho fun b hb => hpl b (by simp [hb])) ha.1 ha.2 hs)
    as [] start s (by intro _; constructor <;> simp [start, async]) h
  exact this hp

/-- **C103.**  As long as no exception leaves a command: commands whose sender does not wait are executed in the order in
which their events came, and those which are postponed come later than all executed ones. -/
theorem C103_order_partial (as : List Act) (s : S) (hp : Plain as) (h : run start as = some s) :
    (async s.begun ++ s.postponed).Sublist (async s.delivered) := (order_run hp h).sub

/-- **C103.**  And no command stays postponed when no command is in execution. -/
theorem C103_idle_partial (as : List Act) (s : S) (hp : Plain as) (h : run start as = some s) (hf : s.frames = []) :
    s.postponed = [] := (order_run hp h).idle hf

example : Plain good ∧ (run start good).map (fun s => (async s.begun, async s.delivered, s.frames)) =
    some ([c1, c3], [c1, c3], []) := by
  constructor
  · intro a ha
    simp [good] at ha
    rcases ha with rfl | rfl | rfl | rfl | rfl | rfl | rfl | rfl <;> simp
  · decide

/-- **C103, what fails**: an exception leaves command 1 while 3 is postponed: 3 stays in the queue although nothing is in
execution, and 4, which comes later, is executed before it. -/
theorem C103_order_counterexample :
    ∃ as s, run start as = some s ∧ s.delivered = [c1, c3, ⟨4, false, false⟩] ∧ s.begun = [c1, ⟨4, false, false⟩, c3] ∧
      ∃ t, run start (as.take 5) = some t ∧ t.frames = [] ∧ t.postponed = [c3] :=
  ⟨[.submit c1, .submit c3, .event c1, .event c3, .throw, .submit ⟨4, false, false⟩, .event ⟨4, false, false⟩, .finish 1],
    _, rfl, rfl, rfl, _, rfl, rfl, rfl⟩

/-- **C103, what fails**: a worker without thread whose command executes another command of the same worker: the inner
call is postponed and stays so, whatever result the outer one returns. -/
theorem C103_direct_counterexample (r : Int) :
    ∃ s, run start [.direct c1, .direct c3, .finish r] = some s ∧ s.frames = [] ∧ s.postponed = [c3] ∧ s.begun = [c1] := by
  refine ⟨_, rfl, ?_⟩
  by_cases h : code r = cmdPostponed <;> simp [finish, answer, process, start, c1, c3, h]

/-! ## Answers -/

/-- **C103.**  The end of an execution is answered once, with its result (`cmd_false` if the command was ignored), unless
the worker keeps the command. -/
theorem C103_answer (s t : S) (ev : Bool) (c : C) (fs : List (Bool × C)) (r : Int) (hf : s.frames = (ev, c) :: fs)
    (hs : step s (.finish r) = some t) (hr : r ≠ -3) :
    ∃ more, t.replied = s.replied ++ (c, if r = -2 then 0 else r) :: more ∧ ∀ p ∈ more, p.1.canceled = true := by
  have key : ∀ (l : List C) (u : S), ∃ more, (drain u l).replied = u.replied ++ more ∧ ∀ p ∈ more, p.1.canceled = true := by
    intro l
    induction l with
    | nil => intro u; exact ⟨[], by simp [drain], by simp⟩
    | cons d l ih =>
      intro u
      simp only [drain]
      split
      · obtain ⟨more, h1, h2⟩ := ih (process { u with postponed := l } d true)
        rw [h1]
        unfold process
        split
        · exact ⟨more, rfl, h2⟩
        · split
          · rename_i hc
            refine ⟨(d, cmdCanceled) :: more, by simp, ?_⟩
            intro p hp
            rcases List.mem_cons.mp hp with rfl | hp
            · exact hc
            · exact h2 p hp
          · split <;> exact ⟨more, rfl, h2⟩
      · exact ⟨[], by simp, by simp⟩
  simp only [step] at hs
  rw [if_neg (by simp [hf])] at hs
  cases hs
  unfold finish
  rw [hf]
  dsimp only
  have hne : ¬ code r = cmdPostponed := by
    unfold code
    split
    · decide
    · exact hr
  unfold answer
  rw [if_neg hne]
  split
  · obtain ⟨more, h1, h2⟩ := key s.postponed { s with frames := fs, replied := s.replied ++ [(c, code r)] }
    refine ⟨more, ?_, h2⟩
    rw [h1]
    simp only [List.append_assoc, List.singleton_append]
    rfl
  · exact ⟨[], rfl, by simp⟩

example : (run start (good.take 6)).map (·.frames) = some [(true, c2), (true, c1)] := by decide

/-- **C103.**  As long as the destruction of the worker is not requested no command is dropped. -/
theorem C103_dropped_partial (as : List Act) (s : S) (h : run start as = some s) (hd : Act.destroy ∉ as)
    (hc : Act.cleanup ∉ as) : s.dropped = [] := by
  have hp : ∀ (s : S) (c : C) (ev : Bool), s.normal = true ∧ s.dropped = [] →
      (process s c ev).normal = true ∧ (process s c ev).dropped = [] := by
    intro s c ev ⟨h1, h2⟩
    unfold process
    rw [if_neg (by simp [h1])]
    split
    · exact ⟨h1, h2⟩
    · split <;> exact ⟨h1, h2⟩
  have hdr : ∀ (l : List C) (s : S), s.normal = true ∧ s.dropped = [] →
      (drain s l).normal = true ∧ (drain s l).dropped = [] := by
    intro l
    induction l with
    | nil => intro s h; exact h
    | cons c l ih =>
      intro s h
      simp only [drain]
      split
      · exact ih _ (hp _ _ _ h)
      · exact h
  have := run_induct (fun h s => Act.destroy ∉ h → Act.cleanup ∉ h → s.normal = true ∧ s.dropped = [])
    (by
      intro h s a t ho hs h1 h2
      simp only [List.mem_append, List.mem_singleton, not_or] at h1 h2
      have ho := ho h1.1 h2.1
      cases a with
      | submit c => simp only [step] at hs; split at hs <;> cases hs; exact ho
      | event c =>
        simp only [step] at hs; split at hs <;> cases hs
        exact hdr _ _ (hp _ _ _ ho)
      | finish r =>
        simp only [step] at hs; split at hs <;> cases hs
        unfold finish
        cases hf : s.frames with
        | nil => exact ho
        | cons p fs =>
          obtain ⟨ev, c⟩ := p
          dsimp only
          split
          · apply hdr; unfold answer; split <;> exact ho
          · unfold answer; split <;> exact ho
      | throw =>
        simp only [step] at hs
        cases hf : s.frames with
        | nil => rw [hf] at hs; cases hs
        | cons p fs => rw [hf] at hs; cases hs; exact ho
      | direct c => simp only [step] at hs; cases hs; exact hp _ _ _ ho
      | destroy => exact absurd rfl h1.2
      | cleanup => exact absurd rfl h2.2)
    as [] start s (by intro _ _; exact ⟨rfl, rfl⟩) h
  exact (this hd hc).2

/-- **C103, what fails**: a command whose event comes after the destruction of the worker was requested is taken from
the queue and neither executed nor replied; `ObjectCleanup`, which is meant to process all waiting commands, answers none
of them. -/
theorem C103_dropped_counterexample (s : S) :
    (∀ c, (process { s with normal := false } c true).replied = s.replied ∧
      (process { s with normal := false } c true).begun = s.begun ∧
      (process { s with normal := false } c true).dropped = s.dropped ++ [c]) ∧
    (cleanup s).replied = s.replied ∧ (cleanup s).begun = s.begun ∧
    (cleanup s).dropped = s.dropped ++ (s.postponed ++ s.pending) := by
  refine ⟨fun c => by simp [process], ?_⟩
  rw [cleanup_eq]
  exact ⟨rfl, rfl, rfl⟩

/-- Such a run: command 1 is submitted, then the worker is destroyed. -/
theorem C103_cleanup_counterexample :
    ∃ as s, run start as = some s ∧ s.submitted = [c1] ∧ s.begun = [] ∧ s.replied = [] ∧ s.pending = [] ∧ s.dropped = [c1] :=
  ⟨[.submit c1, .destroy, .cleanup], _, rfl, rfl, rfl, rfl, rfl, rfl⟩

end Verif.WorkCmd
