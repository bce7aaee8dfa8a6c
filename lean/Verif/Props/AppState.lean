import Verif.AppStateWatch

/-!
# C83: states of an application
-/

namespace Verif.AppState

open Spec

/-- A configuration with one device, one pool and two modules. -/
private def cfg1 (conns : Bool) : Init := .cfg [{ name := some 1 }] [{ name := some 2 }] [{ name := some 3 }, { name := some 4 }] conns

/-- Unless the process crashed, every state command is answered exactly once or is still carried out. -/
theorem C83_answered_once (self : Bool) (ops : List Op) (c : Nat)
    (h : (App.run { self := self } ops).crashed = false) :
    answered (App.run { self := self } ops) c + underWay (App.run { self := self } ops) c = came c ops := by
  have := run_total { self := self } ops c h
  unfold total at this
  simpa [answered, underWay] using this

example : (App.run {} [.cmd 7 (some .running) (cfg1 true), .cmd 8 (some .halted) (cfg1 true), .reply 1]).crashed = false ∧
    (App.run {} [.cmd 7 (some .running) (cfg1 true), .cmd 8 (some .halted) (cfg1 true), .reply 1]).replies =
      [(8, 0), (7, 1)] := by decide

/-- At most one command is carried out, its target is `Ready` or `Running`, and as long as it is
carried out the state is `Transition`. -/
theorem C83_one_transition (self : Bool) (ops : List Op) :
    (App.run { self := self } ops).pend.length ≤ 1 ∧
    ∀ p ∈ (App.run { self := self } ops).pend,
      (App.run { self := self } ops).st = .transition ∧ (p.2 = .ready ∨ p.2 = .running) := by
  have h := run_cmds _ ops (cmds_init self)
  exact ⟨h.one, fun p hp => ⟨h.st (fun e => by rw [e] at hp; simp at hp), h.tgt p hp⟩⟩

example : (App.run {} [.cmd 7 (some .running) (cfg1 true)]).pend = [(7, .running)] := by decide

/-- What the answer to a state command says: true means that the state is the target, false that the
state is `Failure` or that another transition was under way and nothing changed; without answer the
transition is under way. -/
theorem C83_result (s : App) (c : Nat) (tgt : Option St) (i : Init) (h : (s.step (.cmd c tgt i)).crashed = false) :
    ((s.step (.cmd c tgt i)).replies = s.replies ++ [(c, 1)] ∧ tgt = some (s.step (.cmd c tgt i)).st) ∨
    ((s.step (.cmd c tgt i)).replies = s.replies ++ [(c, 0)] ∧ (s.step (.cmd c tgt i)).st = .failure ∧
      s.st ≠ .transition) ∨
    (s.step (.cmd c tgt i) = { s with replies := s.replies ++ [(c, 0)] } ∧ s.st = .transition ∧
      tgt ≠ some .transition) ∨
    ((s.step (.cmd c tgt i)).replies = s.replies ∧ (s.step (.cmd c tgt i)).st = .transition ∧
      ∃ t, tgt = some t ∧ (t = .ready ∨ t = .running) ∧
        (s.step (.cmd c tgt i)).pend = s.pend ++ [(c, t)] ∧ (s.st = .halted ∨ s.st = .failure)) := by
  unfold App.step at h ⊢
  by_cases hc : s.crashed = true
  · rw [if_pos hc] at h; rw [h] at hc; simp at hc
  rw [if_neg hc] at h ⊢
  dsimp only at h ⊢
  rcases transition_cases s c tgt i with ⟨h1, e⟩ | ⟨h1, h2, e⟩ | ⟨_, h2, u, r, hg, e⟩
  · rw [e]; exact Or.inl ⟨rfl, h1⟩
  · rw [e]; exact Or.inr (Or.inr (Or.inl ⟨rfl, h2, h2 ▸ h1⟩))
  · rw [e] at h ⊢
    have hgo := go_cases (prepared s).1 c (prepared s).2 tgt i
    obtain ⟨-, g2, g3, -, -, -, g7, g8, g9, -⟩ := go_rest (prepared s).1 c (prepared s).2 tgt i
    obtain ⟨-, p2, p3, -, -, -, p7, p8⟩ := prepared_rest s
    rw [hg] at g2 g3 g7 g8 g9 hgo
    dsimp only at g2 g3 g7 g8 g9
    have hrep : u.replies = s.replies := g3.trans p3
    cases r with
    | yes =>
      obtain ⟨t, ht, _⟩ := g9 rfl
      refine Or.inl ⟨?_, ?_⟩
      · show u.replies ++ _ = _
        rw [hrep]
      · show tgt = some (tgt.getD .failure)
        rw [ht]; rfl
    | no =>
      refine Or.inr (Or.inl ⟨?_, rfl, h2⟩)
      show u.replies ++ _ = _
      rw [hrep]
    | crash => simp [App.finish] at h
    | later =>
      obtain ⟨t, ht, htg, hpe⟩ := g7 rfl
      refine Or.inr (Or.inr (Or.inr ⟨hrep, g2.trans p2, t, htg, ht, hpe.trans (by rw [p7]), ?_⟩))
      have hcur : (prepared s).2 = .halted := by
        rcases hgo with ⟨_, e⟩ | ⟨_, _, _, hcur, _⟩ | ⟨_, _, _, e⟩ | ⟨_, _, e⟩ | ⟨_, _, _, e⟩ | ⟨_, _, _, e⟩ |
          ⟨_, _, e⟩ | ⟨_, _, _, e⟩ | ⟨_, e⟩ | ⟨_, e⟩
        · simp at e
        · exact hcur
        · simp at e
        · simp at e
        · simp at e
        · simp at e
        · simp at e
        · simp at e
        · simp at e
        · simp at e
      rw [p8] at hcur
      split at hcur
      · rename_i hf; exact Or.inr hf
      · exact Or.inl hcur

example : (App.step {} (.cmd 7 (some .ready) (cfg1 false))).crashed = false := by decide

/-- In state `Halted` there are only objects which others created: the application deleted everything
which it had created, also when a transition had failed half-way. -/
theorem C83_halted_clean (self : Bool) (ops : List Op) (h : (App.run { self := self } ops).st = .halted)
    (k : Kind) (n : Nat) (hx : Exists (App.run { self := self } ops) k n) : Foreign k n ops := by
  have hinit : Owned (fun k n => Foreign k n ops) ({ self := self } : App) := by
    have : ∀ k n, ¬ Exists ({ self := self } : App) k n := by
      intro k n h
      cases k with
      | device => have h' : n ∈ ([] : List Nat) := h; simp at h'
      | pool => have h' : n ∈ ([] : List Nat) := h; simp at h'
      | module => obtain ⟨b, hb⟩ := h; have h' : (n, b) ∈ ([] : List (Nat × Bool)) := hb; simp at h'
      | other => exact h
    exact ⟨⟨fun k n h => absurd h (this k n)⟩, fun _ k n h => absurd h (this k n)⟩
  exact (run_owned _ ops hinit (cmds_init self) fun _ _ h => h).halted h k n hx

/-- A module cannot be created, the application fails and is halted. -/
example : (App.run {} [.cmd 7 (some .running) (.cfg [{ name := some 1 }] [{ name := some 2 }]
    [{ name := some 3 }, { name := some 4, ok := false }] false), .cmd 8 (some .halted) (cfg1 true)]) =
    ({ replies := [(7, 0), (8, 1)] } : App) := by decide

/-- Objects which are not registered in the application stay, whatever happens. -/
theorem C83_others_stay (s : App) (o : Op) (k : Kind) (n : Nat) (hx : Exists s k n) (hr : ¬ Registered s k n) :
    Exists (s.step o) k n := step_stay s o k n hx hr

example : Exists (App.run {} [.create .device 9]) .device 9 ∧ ¬ Registered (App.run {} [.create .device 9]) .device 9 :=
  ⟨by show 9 ∈ (App.run {} [.create .device 9]).mDevs; decide, by show 9 ∉ ([] : List Nat); simp⟩

/-- Modules which others created stay over every run, also if the configuration has modules with the
same name, as long as nobody registers them. -/
theorem C83_other_modules_stay (s : App) (ops : List Op) (n : Nat) (hx : Exists s .module n)
    (hr : ¬ Registered s .module n) (ha : Op.add .module n ∉ ops)
    (ho : ∀ c t d p m, Op.cmd c t (.own d p m) ∈ ops → n ∉ m) : Exists (s.run ops) .module n := by
  induction ops generalizing s with
  | nil => exact hx
  | cons o ops ih =>
    refine ih _ (step_stay s o .module n hx hr) (step_mods s o n hx hr ?_ ?_) ?_ ?_
    · intro e; exact ha (by rw [← e]; simp)
    · intro c t d p m e; exact ho c t d p m (by rw [← e]; simp)
    · intro h; exact ha (List.mem_cons_of_mem _ h)
    · intro c t d p m h; exact ho c t d p m (List.mem_cons_of_mem _ h)

example : (App.run {} [.create .module 3, .cmd 7 (some .running) (cfg1 false), .cmd 8 (some .halted) (cfg1 false)]).mMods =
    [(3, false)] := by decide

/-- Devices and pools of others are not safe: with the same name in the configuration they are
registered as objects of the application and deleted with them. -/
theorem C83_others_stay_counterexample :
    ∃ ops : List Op, Op.add .device 1 ∉ ops ∧ Op.add .pool 2 ∉ ops ∧ Foreign .device 1 ops ∧ Foreign .pool 2 ops ∧
      (App.run {} ops).st = .halted ∧ ¬ Exists (App.run {} ops) .device 1 ∧ ¬ Exists (App.run {} ops) .pool 2 :=
  ⟨[.create .device 1, .create .pool 2, .cmd 7 (some .ready) (cfg1 false), .cmd 8 (some .halted) (cfg1 false)],
    by simp, by simp, by simp [Foreign], by simp [Foreign], by decide,
    by show 1 ∉ _; decide, by show 2 ∉ _; decide⟩

/-- When a transition to `Ready` or `Running` from `Halted` or `Failure` has been done, or only the
connections are missing, every object of the configuration exists. -/
theorem C83_complete (s : App) (c : Nat) (t : St) (i : Init) (ht : t = .ready ∨ t = .running)
    (hs : s.st = .halted ∨ s.st = .failure) (hc : (s.step (.cmd c (some t) i)).crashed = false)
    (h : (s.step (.cmd c (some t) i)).st = t ∨ (s.step (.cmd c (some t) i)).st = .transition)
    (k : Kind) (n : Nat) (hw : Wanted k n i) : Exists (s.step (.cmd c (some t) i)) k n := by
  unfold App.step at hc h ⊢
  by_cases hcr : s.crashed = true
  · rw [if_pos hcr] at hc; rw [hc] at hcr; simp at hcr
  rw [if_neg hcr] at hc h ⊢
  dsimp only at hc h ⊢
  have hne1 : some t ≠ some s.st := by
    intro e
    rw [Option.some.injEq] at e
    rcases ht with rfl | rfl <;> rcases hs with h' | h' <;> rw [h'] at e <;> simp at e
  rcases transition_cases s c (some t) i with ⟨h1, _⟩ | ⟨_, h2, _⟩ | ⟨_, h2, u, r, hg, e⟩
  · exact absurd h1 hne1
  · rcases hs with h' | h' <;> rw [h2] at h' <;> simp at h'
  · rw [e] at hc h ⊢
    have hcur := prepared_cur s hs
    have hgo := go_cases (prepared s).1 c (prepared s).2 (some t) i
    rw [hg, hcur] at hgo
    have fin : Exists u k n → Exists (u.finish c (some t) r) k n := by
      intro hx
      cases r <;> cases k <;> exact hx
    apply fin
    rcases hgo with ⟨h3, _⟩ | ⟨t', _, h3, _, hny, e⟩ | ⟨_, _, hy, e⟩ | ⟨_, h3, _⟩ | ⟨_, h3, _⟩ |
      ⟨_, _, hy, e⟩ | ⟨_, h3, _⟩ | ⟨_, h3, _⟩ | ⟨h3, _⟩ | ⟨h3, _⟩
    · rcases ht with rfl | rfl <;> simp at h3
    · rw [Option.some.injEq] at h3
      subst h3
      have hw' := callInit_wanted (prepared s).1 c t i
      rw [← e] at hw' hny
      cases r with
      | yes => exact absurd rfl hny
      | no =>
        have h' : St.failure = t ∨ St.failure = .transition := h
        rcases ht with rfl | rfl <;> simp at h'
      | later => exact hw' (Or.inr rfl) k n hw
      | crash => simp [App.finish] at hc
    · rw [Prod.mk.injEq] at e
      rw [e.1]
      exact callInit_wanted _ _ _ _ (Or.inl hy) k n hw
    · simp at h3
    · exact absurd rfl h3
    · rw [Prod.mk.injEq] at e
      rw [e.1]
      exact stay_watch _ (stay_start _ (callInit_wanted _ _ _ _ (Or.inl hy) k n hw))
    · simp at h3
    · exact absurd rfl h3
    · rcases ht with rfl | rfl <;> simp at h3
    · rcases h3 with h3 | h3
      · simp at h3
      · rcases ht with rfl | rfl <;> simp at h3

example : (App.step {} (.cmd 7 (some .running) (cfg1 false))).st = .running ∧ Wanted .module 4 (cfg1 false) ∧
    (App.step {} (.cmd 7 (some .running) (cfg1 true))).st = .transition :=
  ⟨by decide, ⟨{ name := some 4 }, by simp, rfl, rfl, rfl⟩, by decide⟩

/-- Whenever the state becomes `Running`, by a command or by the reply of the connection manager, all
modules of the application run. -/
theorem C83_running_started (s : App) (o : Op) (h : s.st ≠ .running) (h' : (s.step o).st = .running) :
    All (s.step o) true := step_running s o h h'

example : (App.run {} [.cmd 7 (some .running) (cfg1 true)]).st ≠ .running ∧
    (App.run {} [.cmd 7 (some .running) (cfg1 true)]).mMods = [(3, false), (4, false)] ∧
    ((App.run {} [.cmd 7 (some .running) (cfg1 true)]).step (.reply 1)).st = .running ∧
    ((App.run {} [.cmd 7 (some .running) (cfg1 true)]).step (.reply 1)).mMods = [(3, true), (4, true)] := by decide

/-- Whenever the state `Running` is left, no module of the application runs.  Missing: commands with
an unknown state as target. -/
theorem C83_stopped_partial (self : Bool) (ops : List Op) (o : Op)
    (h : (App.run { self := self } ops).st = .running) (h' : ((App.run { self := self } ops).step o).st ≠ .running)
    (ho : ∀ c i, o ≠ .cmd c none i ∧ o ≠ .cmd c (some .transition) i) :
    All ((App.run { self := self } ops).step o) false := by
  refine step_stopped _ o ?_ h h' ho
  refine Classical.byContradiction fun hn => ?_
  have := (run_cmds _ ops (cmds_init self)).st hn
  rw [h] at this
  simp at this

example : (App.run {} [.cmd 7 (some .running) (cfg1 false)]).st = .running ∧
    ((App.run {} [.cmd 7 (some .running) (cfg1 false)]).step (.cmd 8 (some .ready) (cfg1 false))).st = .ready ∧
    ((App.run {} [.cmd 7 (some .running) (cfg1 false)]).step (.cmd 8 (some .failure) (cfg1 false))).st = .failure := by
  decide

/-- An unknown state: the application fails while all its modules go on running. -/
theorem C83_stopped_counterexample (s : App) (c : Nat) (i : Init) (hc : s.crashed = false) (h : s.st = .running) :
    (s.step (.cmd c none i)).st = .failure ∧ (s.step (.cmd c none i)).mMods = s.mMods ∧
      (s.step (.cmd c none i)).mods = s.mods := by
  unfold App.step
  rw [hc]
  simp only [Bool.false_eq_true, if_false]
  rw [transition_eq s c none i (by simp) (by rw [h]; simp)]
  unfold prepared
  rw [h]
  exact ⟨rfl, rfl, rfl⟩

example : (App.run {} [.cmd 7 (some .running) (cfg1 false), .cmd 8 none (cfg1 false)]).mMods = [(3, true), (4, true)] := by
  decide

/-- From every state except `Transition` the application can be halted. -/
theorem C83_halts (s : App) (c : Nat) (i : Init) (hc : s.crashed = false) (h : s.st ≠ .transition) :
    (s.step (.cmd c (some .halted) i)).st = .halted ∧
      (s.step (.cmd c (some .halted) i)).replies = s.replies ++ [(c, 1)] := by
  unfold App.step
  rw [hc]
  simp only [Bool.false_eq_true, if_false]
  by_cases h1 : some St.halted = some s.st
  · unfold App.transition
    rw [if_pos h1]
    rw [Option.some.injEq] at h1
    exact ⟨h1.symm, rfl⟩
  · rw [transition_eq s c _ i h1 h]
    refine ⟨rfl, ?_⟩
    obtain ⟨-, -, g3, -⟩ := go_rest (prepared s).1 c (prepared s).2 (some .halted) i
    obtain ⟨-, -, p3, -⟩ := prepared_rest s
    show ((prepared s).1.go c (prepared s).2 (some .halted) i).1.replies ++ _ = _
    rw [g3, p3]

example : (App.run {} [.cmd 7 (some .running) (cfg1 false), .cmd 8 none (cfg1 false)]).st ≠ .transition ∧
    (App.run {} [.cmd 7 (some .running) (cfg1 false), .cmd 8 none (cfg1 false)]).crashed = false := by decide

/-- If every object can be created and no connections are needed, every state except `Transition` is
reached from every state except `Transition` by one command. -/
theorem C83_reaches (s : App) (c : Nat) (t : St) (i : Init) (hi : Smooth i) (hc : s.crashed = false)
    (h : s.st ≠ .transition) (ht : t ≠ .transition) :
    (s.step (.cmd c (some t) i)).st = t ∧ (s.step (.cmd c (some t) i)).replies = s.replies ++ [(c, 1)] := by
  unfold App.step
  rw [hc]
  simp only [Bool.false_eq_true, if_false]
  by_cases h1 : some t = some s.st
  · unfold App.transition
    rw [if_pos h1]
    rw [Option.some.injEq] at h1
    exact ⟨h1.symm, rfl⟩
  · rw [transition_eq s c _ i h1 h]
    obtain ⟨-, -, g3, -⟩ := go_rest (prepared s).1 c (prepared s).2 (some t) i
    obtain ⟨-, -, p3, -⟩ := prepared_rest s
    have hy : ((prepared s).1.go c (prepared s).2 (some t) i).2 = .yes := by
      rcases go_cases (prepared s).1 c (prepared s).2 (some t) i with ⟨_, e⟩ | ⟨t', _, h3, _, hny, e⟩ | ⟨_, _, _, e⟩ |
        ⟨_, _, e⟩ | ⟨_, _, _, e⟩ | ⟨_, _, _, e⟩ | ⟨_, _, e⟩ | ⟨_, _, _, e⟩ | ⟨_, e⟩ | ⟨h3, _⟩
      · rw [e]
      · exact absurd (callInit_smooth _ _ _ _ hi) hny
      · rw [e]
      · rw [e]
      · rw [e]
      · rw [e]
      · rw [e]
      · rw [e]
      · rw [e]
      · rcases h3 with h3 | h3
        · simp at h3
        · rw [Option.some.injEq] at h3; exact absurd h3 ht
    rw [hy]
    refine ⟨rfl, ?_⟩
    show ((prepared s).1.go c (prepared s).2 (some t) i).1.replies ++ _ = _
    rw [g3, p3]

example : Smooth (cfg1 false) := ⟨by simp, by simp, by simp, rfl⟩

/-- The connection manager answers a lost connection with a timeout (`ConnectionManager.cxx:192`),
which is neither true nor false: the application stays in `Transition` for ever.  Whatever happens
then, every state command, also to halt, is refused and the objects are never deleted. -/
theorem C83_halts_counterexample (self : Bool) (r : Int) (h0 : r ≠ 0) (h1 : r ≠ 1) (ops : List Op) :
    let s := (App.run { self := self } [.cmd 7 (some .running) (cfg1 true), .reply r]).run ops
    s.st = .transition ∧ Exists s .device 1 ∧ Exists s .pool 2 ∧ Exists s .module 3 ∧
      (s.crashed = false → ∀ c t i, t ≠ some .transition →
        (s.step (.cmd c t i)) = { s with replies := s.replies ++ [(c, 0)] }) := by
  intro s
  have e : App.run { self := self } [.cmd 7 (some .running) (cfg1 true), .reply r] =
      ({ self := self, st := .transition, devs := [1], pools := [2], mods := [3, 4], mDevs := [1], mPools := [2],
         mMods := [(3, false), (4, false)], replies := [(7, r)] } : App) := by
    have e1 : App.run { self := self } [.cmd 7 (some .running) (cfg1 true)] =
      ({ self := self, st := .transition, devs := [1], pools := [2], mods := [3, 4], mDevs := [1], mPools := [2],
         mMods := [(3, false), (4, false)], pend := [(7, .running)] } : App) := by
      cases self <;> decide
    show (App.run { self := self } [.cmd 7 (some .running) (cfg1 true)]).step (.reply r) = _
    rw [e1]
    simp [App.step, App.connected, h0, h1]
  obtain ⟨s1, s2, s3⟩ := run_stuck _ ops (show (App.run { self := self }
    [.cmd 7 (some .running) (cfg1 true), .reply r]).st = .transition by rw [e]) (by rw [e])
  refine ⟨s1, s3 .device 1 ?_, s3 .pool 2 ?_, s3 .module 3 ?_, ?_⟩
  · rw [e]; exact List.mem_singleton.mpr rfl
  · rw [e]; exact List.mem_singleton.mpr rfl
  · rw [e]; exact ⟨false, List.mem_cons_self⟩
  · intro hc c t i ht
    unfold App.step
    rw [if_neg (by rw [hc]; simp)]
    dsimp only
    rcases transition_cases s c t i with ⟨h, _⟩ | ⟨_, _, e⟩ | ⟨_, h, _⟩
    · rw [s1] at h; exact absurd h ht
    · exact e
    · exact absurd s1 h

/-- `cmd_timedout` is `-1` (`Command.h:40`). -/
example : ((App.run {} [.cmd 7 (some .running) (cfg1 true), .reply (-1)]).run [.cmd 8 (some .halted) (cfg1 true)]).st =
    .transition := by decide

/-- A node of a memory pool or module without name ends the process. -/
theorem C83_noname_counterexample :
    (App.step {} (.cmd 7 (some .ready) (.cfg [] [{ name := none }] [] false))).crashed = true ∧
    (App.step {} (.cmd 7 (some .ready) (.cfg [] [] [{ name := none }] false))).crashed = true ∧
    (App.step {} (.cmd 7 (some .ready) (.cfg [{ name := none }] [] [] false))).st = .ready := by decide

/-- An application which controls itself is watched as long as it runs, or it was told to stop. -/
theorem C83_watched (ops : List Op) (h : (App.run {} ops).st = .running) :
    (App.run {} ops).timer = true ∨ 0 < (App.run {} ops).stops :=
  run_watched {} ops (fun _ h => by simp at h)
    (by
      have : ∀ (s : App) (ops : List Op), (s.run ops).self = s.self := by
        intro s ops
        induction ops generalizing s with
        | nil => rfl
        | cons o ops ih => exact (ih (s.step o)).trans (step_self s o)
      exact this {} ops) h

example : (App.run {} [.cmd 7 (some .running) (cfg1 false)]).st = .running ∧
    (App.run {} [.cmd 7 (some .running) (cfg1 false)]).timer = true := by decide

/-- While it runs, a timer event with no module running, after one with a module running, stops the
application. -/
theorem C83_stops (s : App) (hc : s.crashed = false) (ht : s.timer = true) (hs : s.self = true)
    (h : s.st = .running) (hm : s.modulesRunning = false) (ha : s.anyRun = true) :
    (s.step .timeout).stops = s.stops + 1 ∧ (s.step .timeout).timer = false := by
  simp [App.step, App.timeout, hc, ht, hs, h, hm, ha]

example : (App.run {} [.cmd 7 (some .running) (cfg1 false), .timeout, .run 3 false, .timeout, .run 4 false, .timeout]).stops = 1 ∧
    (App.run {} [.cmd 7 (some .running) (cfg1 false), .timeout, .run 3 false, .timeout]).stops = 0 := by decide

/-- The application is told to stop only if it controls itself, at some timer event in `Running` none of
its modules ran, and at an earlier one a module did. -/
theorem C83_stop_reason (self : Bool) (ops : List Op) (h : 0 < (App.run { self := self } ops).stops) :
    self = true ∧ ∃ p q r, ops = p ++ .timeout :: q ++ .timeout :: r ∧
      (App.run { self := self } p).st = .running ∧ (App.run { self := self } p).modulesRunning = true ∧
      (App.run { self := self } (p ++ .timeout :: q)).st = .running ∧
      (App.run { self := self } (p ++ .timeout :: q)).modulesRunning = false := by
  obtain ⟨p', r, e, h1, h2, h3, h4⟩ := run_stops { self := self } ops rfl h
  obtain ⟨p, q, e', h5, h6⟩ := run_anyRun { self := self } p' rfl h3
  refine ⟨?_, p, q, r, by rw [e, e'], h5, h6, by rw [← e']; exact h1, by rw [← e']; exact h2⟩
  have : ∀ (s : App) (ops : List Op), (s.run ops).self = s.self := by
    intro s ops
    induction ops generalizing s with
    | nil => rfl
    | cons o ops ih => exact (ih (s.step o)).trans (step_self s o)
  rw [this] at h4
  exact h4

/-- Modules which end before the first timer event are not noticed: the application never stops. -/
theorem C83_stops_counterexample (k : Nat) :
    ((App.run {} [.cmd 7 (some .running) (cfg1 false), .run 3 false, .run 4 false]).run
      (List.replicate k .timeout)).stops = 0 := by
  have e : App.run {} [.cmd 7 (some .running) (cfg1 false), .run 3 false, .run 4 false] =
      ({ st := .running, devs := [1], pools := [2], mods := [3, 4], mDevs := [1], mPools := [2],
         mMods := [(3, false), (4, false)], replies := [(7, 1)], timer := true } : App) := by decide
  rw [e]
  induction k with
  | zero => rfl
  | succ k ih =>
    rw [List.replicate_succ]
    exact ih

end Verif.AppState
