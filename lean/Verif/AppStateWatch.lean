import Verif.AppStateRun

namespace Verif.AppState

open Spec

/-! ## Which modules run -/

theorem prepared_cur (s : App) (h : s.st = .halted ∨ s.st = .failure) : (prepared s).2 = .halted := by
  obtain ⟨-, -, -, -, -, -, -, p8⟩ := prepared_rest s
  rw [p8]
  rcases h with h | h
  · rw [h]; rfl
  · rw [h]; rfl

theorem allCast {s t : App} {b : Bool} (h : All s b) (h1 : t.mods = s.mods) (h2 : t.mMods = s.mMods) :
    All t b := by
  unfold All
  rw [h1, h2]
  exact h

theorem connected_running (s : App) (r : Int) (h : s.st ≠ .running) (h' : (s.connected r).st = .running) :
    All (s.connected r) true := by
  match hp : s.pend with
  | [] =>
    have : s.connected r = s := by unfold App.connected; rw [hp]
    rw [this] at h'; exact absurd h' h
  | (c, tgt) :: l =>
    rw [connected_eq s r c tgt l hp] at h' ⊢
    have hst : (if r = 1 then tgt else if r = 0 then .failure else s.st) = .running := h'
    by_cases hr : r = 1
    · rw [if_pos hr] at hst
      have hc : tgt = .running ∧ r = 1 := ⟨hst, hr⟩
      simp only [if_pos hc]
      rw [watch_same]
      exact allCast (startModules_all s) rfl rfl
    · rw [if_neg hr] at hst
      split at hst
      · simp at hst
      · exact absurd hst h

theorem timeout_same (s : App) : s.timeout.st = s.st ∧ s.timeout.mods = s.mods ∧ s.timeout.mMods = s.mMods ∧
    s.timeout.pend = s.pend ∧ s.timeout.mDevs = s.mDevs ∧ s.timeout.mPools = s.mPools ∧
    s.timeout.self = s.self ∧ s.timeout.crashed = s.crashed := by
  unfold App.timeout
  split
  · split
    · exact ⟨rfl, rfl, rfl, rfl, rfl, rfl, rfl, rfl⟩
    · split
      · exact ⟨rfl, rfl, rfl, rfl, rfl, rfl, rfl, rfl⟩
      · split
        · exact ⟨rfl, rfl, rfl, rfl, rfl, rfl, rfl, rfl⟩
        · exact ⟨rfl, rfl, rfl, rfl, rfl, rfl, rfl, rfl⟩
  · exact ⟨rfl, rfl, rfl, rfl, rfl, rfl, rfl, rfl⟩

theorem step_running (s : App) (o : Op) (h : s.st ≠ .running) (h' : (s.step o).st = .running) :
    All (s.step o) true := by
  unfold App.step at h' ⊢
  by_cases hc : s.crashed = true
  · rw [if_pos hc] at h'; exact absurd h' h
  rw [if_neg hc] at h' ⊢
  cases o with
  | cmd c tgt i =>
    dsimp only at h' ⊢
    rcases transition_cases s c tgt i with ⟨_, e⟩ | ⟨_, _, e⟩ | ⟨h1, h2, u, r, hg, e⟩
    · rw [e] at h'; exact absurd h' h
    · rw [e] at h'; exact absurd h' h
    · rw [e] at h' ⊢
      have hgo := go_cases (prepared s).1 c (prepared s).2 tgt i
      obtain ⟨-, g2, -⟩ := go_rest (prepared s).1 c (prepared s).2 tgt i
      obtain ⟨-, p2, -, -, -, -, -, p8⟩ := prepared_rest s
      rw [hg] at hgo g2
      dsimp only at g2
      have hu : u.st = .transition := g2.trans p2
      cases r with
      | no => simp [App.finish] at h'
      | later => rw [show (u.finish c tgt .later).st = u.st from rfl, hu] at h'; simp at h'
      | crash => rw [show (u.finish c tgt .crash).st = u.st from rfl, hu] at h'; simp at h'
      | yes =>
        have ht : tgt.getD .failure = .running := h'
        have ht' : tgt = some .running := by
          cases tgt with
          | none => simp at ht
          | some t => rw [show t = .running from ht]
        have fin : All u true → All (u.finish c tgt .yes) true := fun h => allCast h rfl rfl
        apply fin
        have key : ∀ x : App, (u, Res.yes) = (x.startModules.watch, Res.yes) → All u true := by
          intro x hx
          rw [Prod.mk.injEq] at hx
          rw [hx.1, watch_same]
          exact allCast (startModules_all x) rfl rfl
        rcases hgo with ⟨h3, e⟩ | ⟨_, _, _, _, hne, e⟩ | ⟨h3, _, _, e⟩ | ⟨h3, _, e⟩ | ⟨h3, _, _, e⟩ |
          ⟨_, _, _, e⟩ | ⟨_, _, e⟩ | ⟨_, h3, h4, e⟩ | ⟨h3, e⟩ | ⟨h3, e⟩
        · rw [ht'] at h3; simp at h3
        · rw [← e] at hne; simp at hne
        · rw [ht'] at h3; simp at h3
        · rw [ht'] at h3; simp at h3
        · rw [ht'] at h3; simp at h3
        · exact key _ e
        · exact key _ e
        · exfalso
          rw [p8] at h3 h4
          split at h3
          · exact h3 rfl
          · rename_i hf
            rw [if_neg hf] at h4
            cases hs : s.st with
            | halted => exact h3 hs
            | ready => exact h4 hs
            | running => exact h hs
            | failure => exact hf hs
            | transition => exact h2 hs
        · rw [ht'] at h3; simp at h3
        · simp at e
  | reply r => exact connected_running s r h h'
  | add k n => cases k <;> exact absurd h' h
  | startAll => exact absurd h' h
  | stopAll => exact absurd h' h
  | run n b => exact absurd h' h
  | create k n => cases k <;> exact absurd h' h
  | timeout =>
    dsimp only at h'
    rw [(timeout_same s).1] at h'
    exact absurd h' h

theorem cleanup_all (s : App) (b : Bool) : All s.cleanup b := fun n hn => by
  have : n ∈ ([] : List Nat) := hn
  simp at this

theorem step_stopped (s : App) (o : Op) (hp : s.pend = []) (h : s.st = .running) (h' : (s.step o).st ≠ .running)
    (ho : ∀ c i, o ≠ .cmd c none i ∧ o ≠ .cmd c (some .transition) i) : All (s.step o) false := by
  unfold App.step at h' ⊢
  by_cases hc : s.crashed = true
  · rw [if_pos hc] at h'; exact absurd h h'
  rw [if_neg hc] at h' ⊢
  cases o with
  | cmd c tgt i =>
    dsimp only at h' ⊢
    rcases transition_cases s c tgt i with ⟨_, e⟩ | ⟨_, _, e⟩ | ⟨h1, h2, u, r, hg, e⟩
    · rw [e] at h'; exact absurd h h'
    · rw [e] at h'; exact absurd h h'
    · rw [e] at h' ⊢
      have hgo := go_cases (prepared s).1 c (prepared s).2 tgt i
      obtain ⟨-, -, -, -, -, -, -, p8⟩ := prepared_rest s
      have hcur : (prepared s).2 = .running := by rw [p8, h]; rfl
      rw [hg] at hgo
      have key : ∀ x : App, All x false → (u, r) = (x, Res.yes) → All (u.finish c tgt r) false := by
        intro x hx he
        rw [Prod.mk.injEq] at he
        rw [he.1, he.2]
        exact allCast hx rfl rfl
      rcases hgo with ⟨_, e⟩ | ⟨_, _, _, h3, _⟩ | ⟨_, h3, _⟩ | ⟨_, _, e⟩ | ⟨_, _, h3, _⟩ | ⟨_, h3, _⟩ | ⟨_, h3, _⟩ |
        ⟨h3, _⟩ | ⟨_, e⟩ | ⟨h3, e⟩
      · exact key _ (cleanup_all _ _) e
      · rw [hcur] at h3; simp at h3
      · rw [hcur] at h3; simp at h3
      · exact key _ (stopModules_all _) e
      · exact absurd hcur h3
      · rw [hcur] at h3; simp at h3
      · rw [hcur] at h3; simp at h3
      · exact absurd (by rw [h3, h]) h1
      · exact key _ (stopModules_all _) e
      · rcases h3 with h3 | h3
        · exact absurd (by rw [h3]) (ho c i).1
        · exact absurd (by rw [h3]) (ho c i).2
  | reply r =>
    have : s.connected r = s := by unfold App.connected; rw [hp]
    dsimp only at h'
    rw [this] at h'; exact absurd h h'
  | add k n => cases k <;> exact absurd h h'
  | startAll => exact absurd h h'
  | stopAll => exact absurd h h'
  | run n b => exact absurd h h'
  | create k n => cases k <;> exact absurd h h'
  | timeout =>
    dsimp only at h'
    rw [(timeout_same s).1] at h'
    exact absurd h h'

/-! ## Modules of others -/

theorem makeDevs_mods (s : App) (l : List Item) :
    (s.makeDevs l).1.mods = s.mods ∧ (s.makeDevs l).1.mMods = s.mMods := by
  induction l generalizing s with
  | nil => exact ⟨rfl, rfl⟩
  | cons d l ih =>
    unfold App.makeDevs
    split
    · exact ih s
    · split
      · dsimp only
        split
        · obtain ⟨h1, h2⟩ := ih (s := { s with
            devs := s.devs ++ [_], mDevs := if _ ∈ s.mDevs then s.mDevs else s.mDevs ++ [_] })
          exact ⟨h1, h2⟩
        · exact ⟨rfl, rfl⟩
      · exact ih s

theorem makePools_mods (s : App) (l : List Item) :
    (s.makePools l).1.mods = s.mods ∧ (s.makePools l).1.mMods = s.mMods := by
  induction l generalizing s with
  | nil => exact ⟨rfl, rfl⟩
  | cons d l ih =>
    unfold App.makePools
    split
    · exact ⟨rfl, rfl⟩
    · dsimp only
      split
      · obtain ⟨h1, h2⟩ := ih (s := { s with
          pools := s.pools ++ [_], mPools := if _ ∈ s.mPools then s.mPools else s.mPools ++ [_] })
        exact ⟨h1, h2⟩
      · exact ⟨rfl, rfl⟩

theorem makeMods_mods (s : App) (l : List Item) (n : Nat) (hx : ∃ b, (n, b) ∈ s.mMods)
    (h : n ∈ (s.makeMods l).1.mods) : n ∈ s.mods := by
  induction l generalizing s with
  | nil => exact h
  | cons d l ih =>
    unfold App.makeMods at h
    split at h
    · split at h
      · exact h
      · rename_i m hm
        split at h
        · exact ih s hx h
        · rename_i hnm
          have hne : n ≠ m := by
            rintro rfl
            obtain ⟨b, hb⟩ := hx
            exact hnm (List.mem_map.mpr ⟨_, hb, rfl⟩)
          have strip : n ∈ s.mods ++ [m] → n ∈ s.mods := by
            intro h
            rcases mem_snoc h with h | h
            · exact h
            · exact absurd h hne
          split at h
          · exact ih s hx h
          · dsimp only at h
            split at h
            · split at h
              · obtain ⟨b, hb⟩ := hx
                exact strip (ih _ ⟨b, List.mem_append_left _ hb⟩ h)
              · exact strip h
            · exact strip h
    · exact ih s hx h

theorem callInit_mods (s : App) (c : Nat) (tgt : St) (i : Init) (n : Nat) (hx : ∃ b, (n, b) ∈ s.mMods)
    (hi : ∀ d p m, i = .own d p m → n ∉ m) (h : n ∈ (s.callInit c tgt i).1.mods) : n ∈ s.mods := by
  cases i with
  | own devs pools mods =>
    have h' : n ∈ s.mods ++ mods := h
    rcases List.mem_append.mp h' with h' | h'
    · exact h'
    · exact absurd h' (hi _ _ _ rfl)
  | cfg devs pools mods conns =>
    unfold App.callInit at h
    dsimp only at h
    have w1 := makeDevs_mods s devs
    cases h1 : s.makeDevs devs with
    | mk s1 r1 =>
      rw [h1] at w1 h
      dsimp only at w1 h
      rcases r1 with _ | r1
      · rw [w1.1] at h; exact h
      · cases r1
        · rw [w1.1] at h; exact h
        · dsimp only at h
          have w2 := makePools_mods s1 pools
          cases h2 : s1.makePools pools with
          | mk s2 r2 =>
            rw [h2] at w2 h
            dsimp only at w2 h
            rcases r2 with _ | r2
            · rw [w2.1, w1.1] at h; exact h
            · cases r2
              · rw [w2.1, w1.1] at h; exact h
              · dsimp only at h
                have w3 := makeMods_mods s2 mods n (by rw [w2.2, w1.2]; exact hx)
                cases h3 : s2.makeMods mods with
                | mk s3 r3 =>
                  rw [h3] at w3 h
                  dsimp only at w3 h
                  rw [w2.1, w1.1] at w3
                  rcases r3 with _ | r3
                  · exact w3 h
                  · cases r3
                    · exact w3 h
                    · dsimp only at h
                      split at h
                      · exact w3 h
                      · exact w3 h

theorem go_mods (s : App) (c : Nat) (cur : St) (tgt : Option St) (i : Init) (n : Nat)
    (hx : ∃ b, (n, b) ∈ s.mMods) (hi : ∀ d p m, i = .own d p m → n ∉ m)
    (h : n ∈ (s.go c cur tgt i).1.mods) : n ∈ s.mods := by
  rcases go_cases s c cur tgt i with ⟨_, e⟩ | ⟨t, _, _, _, _, e⟩ | ⟨_, _, _, e⟩ | ⟨_, _, e⟩ | ⟨_, _, _, e⟩ |
    ⟨_, _, _, e⟩ | ⟨_, _, e⟩ | ⟨_, _, _, e⟩ | ⟨_, e⟩ | ⟨_, e⟩
  · rw [e] at h
    have h' : n ∈ ([] : List Nat) := h
    simp at h'
  · rw [e] at h; exact callInit_mods s c t i n hx hi h
  · rw [e] at h; exact callInit_mods s c _ i n hx hi h
  · rw [e] at h; exact h
  · rw [e] at h; exact h
  · rw [e, watch_same] at h; exact callInit_mods s c _ i n hx hi h
  · rw [e, watch_same] at h; exact h
  · rw [e, watch_same] at h; exact h
  · rw [e] at h; exact h
  · rw [e] at h; exact h

theorem step_mods (s : App) (o : Op) (n : Nat) (hx : ∃ b, (n, b) ∈ s.mMods) (hr : n ∉ s.mods)
    (ha : o ≠ .add .module n) (ho : ∀ c t d p m, o = .cmd c t (.own d p m) → n ∉ m) :
    n ∉ (s.step o).mods := by
  unfold App.step
  split
  · exact hr
  · cases o with
    | cmd c tgt i =>
      dsimp only
      rcases transition_cases s c tgt i with ⟨_, e⟩ | ⟨_, _, e⟩ | ⟨_, h2, u, r, hg, e⟩
      · rw [e]; exact hr
      · rw [e]; exact hr
      · rw [e]
        obtain ⟨p1, p2⟩ := prepared_stay s .module n hx hr
        have := go_mods (prepared s).1 c (prepared s).2 tgt i n p1
          (fun d p m h => ho c tgt d p m (by rw [h]))
        rw [hg] at this
        intro h
        refine p2 (this ?_)
        cases r <;> exact h
    | reply r =>
      dsimp only
      match hp : s.pend with
      | [] =>
        have : s.connected r = s := by unfold App.connected; rw [hp]
        rw [this]; exact hr
      | (c, tgt) :: l =>
        rw [connected_eq s r c tgt l hp]
        split
        · rw [watch_same]; exact hr
        · exact hr
    | add k m =>
      cases k with
      | module =>
        intro h
        rcases mem_snoc h with h | h
        · exact hr h
        · exact ha (by rw [h])
      | _ => exact hr
    | startAll => exact hr
    | stopAll => exact hr
    | run m b => exact hr
    | create k m => cases k <;> exact hr
    | timeout => dsimp only; rw [(timeout_same s).2.1]; exact hr

/-! ## A transition which never ends -/

theorem step_stuck (s : App) (o : Op) (h : s.st = .transition) (hp : s.pend = []) :
    (s.step o).st = .transition ∧ (s.step o).pend = [] ∧
      ∀ k n, Exists s k n → Exists (s.step o) k n := by
  unfold App.step
  split
  · exact ⟨h, hp, fun _ _ hx => hx⟩
  · cases o with
    | cmd c tgt i =>
      dsimp only
      rcases transition_cases s c tgt i with ⟨_, e⟩ | ⟨_, _, e⟩ | ⟨_, h2, _⟩
      · rw [e]; exact ⟨h, hp, fun k n hx => by cases k <;> exact hx⟩
      · rw [e]; exact ⟨h, hp, fun k n hx => by cases k <;> exact hx⟩
      · exact absurd h h2
    | reply r =>
      have : s.connected r = s := by unfold App.connected; rw [hp]
      dsimp only
      rw [this]
      exact ⟨h, hp, fun _ _ hx => hx⟩
    | add k n => cases k <;> exact ⟨h, hp, fun k n hx => by cases k <;> exact hx⟩
    | startAll => exact ⟨h, hp, fun k n hx => stay_start s hx⟩
    | stopAll => exact ⟨h, hp, fun k n hx => stay_stop s hx⟩
    | run m b =>
      refine ⟨h, hp, fun k n hx => ?_⟩
      cases k with
      | module => obtain ⟨r, hr⟩ := hx; exact setRun_mem hr
      | _ => exact hx
    | create k' m =>
      refine ⟨by cases k' <;> exact h, by cases k' <;> exact hp, fun k n hx => ?_⟩
      cases k' with
      | device =>
        cases k with
        | device => exact List.mem_append_left _ hx
        | _ => exact hx
      | pool =>
        cases k with
        | pool => exact List.mem_append_left _ hx
        | _ => exact hx
      | module =>
        cases k with
        | module => obtain ⟨b, hb⟩ := hx; exact ⟨b, List.mem_append_left _ hb⟩
        | _ => exact hx
      | other => exact hx
    | timeout =>
      obtain ⟨t1, t2, t3, t4, t5, t6, _⟩ := timeout_same s
      dsimp only
      exact ⟨t1.trans h, t4.trans hp, fun k n hx => stay_same t5 t6 (by rw [t3]; exact fun _ h => h) hx⟩

theorem run_stuck (s : App) (ops : List Op) (h : s.st = .transition) (hp : s.pend = []) :
    (s.run ops).st = .transition ∧ (s.run ops).pend = [] ∧ ∀ k n, Exists s k n → Exists (s.run ops) k n := by
  induction ops generalizing s with
  | nil => exact ⟨h, hp, fun _ _ hx => hx⟩
  | cons o ops ih =>
    obtain ⟨h1, h2, h3⟩ := step_stuck s o h hp
    obtain ⟨i1, i2, i3⟩ := ih _ h1 h2
    exact ⟨i1, i2, fun k n hx => i3 k n (h3 k n hx)⟩

/-! ## Stopping by itself -/

theorem step_self (s : App) (o : Op) : (s.step o).self = s.self := by
  unfold App.step
  split
  · rfl
  · cases o with
    | cmd c tgt i =>
      dsimp only
      rcases transition_cases s c tgt i with ⟨_, e⟩ | ⟨_, _, e⟩ | ⟨_, h2, u, r, hg, e⟩
      · rw [e]
      · rw [e]
      · rw [e]
        obtain ⟨g1, -⟩ := go_rest (prepared s).1 c (prepared s).2 tgt i
        obtain ⟨p1, -⟩ := prepared_rest s
        rw [hg] at g1
        cases r <;> exact g1.trans p1
    | reply r =>
      dsimp only
      match hp : s.pend with
      | [] =>
        have : s.connected r = s := by unfold App.connected; rw [hp]
        rw [this]
      | (c, tgt) :: l =>
        rw [connected_eq s r c tgt l hp]
        split
        · rw [watch_same]; rfl
        · rfl
    | add k n => cases k <;> rfl
    | startAll => rfl
    | stopAll => rfl
    | run m b => rfl
    | create k n => cases k <;> rfl
    | timeout => exact (timeout_same s).2.2.2.2.2.2.1

/-- The application which runs and controls itself is watched, or was told to stop. -/
def Watched (s : App) : Prop := s.self = true → s.st = .running → s.timer = true ∨ 0 < s.stops

theorem step_watched (s : App) (o : Op) (h : Watched s) : Watched (s.step o) := by
  unfold App.step
  split
  · exact h
  · cases o with
    | cmd c tgt i =>
      dsimp only
      rcases transition_cases s c tgt i with ⟨_, e⟩ | ⟨_, _, e⟩ | ⟨_, h2, u, r, hg, e⟩
      · rw [e]; exact h
      · rw [e]; exact h
      · rw [e]
        obtain ⟨g1, g2, -, -, -, -, -, -, g9, g10⟩ := go_rest (prepared s).1 c (prepared s).2 tgt i
        obtain ⟨p1, p2, -⟩ := prepared_rest s
        rw [hg] at g1 g2 g9 g10
        dsimp only at g1 g2 g9 g10
        intro hs hr
        cases r with
        | yes =>
          obtain ⟨t, ht, _⟩ := g9 rfl
          have hr' : tgt.getD .failure = .running := hr
          rw [ht] at hr'
          have : t = .running := hr'
          exact Or.inl (g10 rfl (by rw [ht, this]) hs)
        | no => simp [App.finish] at hr
        | later => rw [show (u.finish c tgt .later).st = u.st from rfl, g2, p2] at hr; simp at hr
        | crash => rw [show (u.finish c tgt .crash).st = u.st from rfl, g2, p2] at hr; simp at hr
    | reply r =>
      dsimp only
      match hp : s.pend with
      | [] =>
        have : s.connected r = s := by unfold App.connected; rw [hp]
        rw [this]; exact h
      | (c, tgt) :: l =>
        rw [connected_eq s r c tgt l hp]
        split
        · rw [watch_same]
          intro hs _
          have hs' : s.self = true := hs
          left
          show (s.startModules.timer || s.startModules.self) = true
          rw [show s.startModules.self = s.self from rfl, hs', Bool.or_true]
        · rename_i hn
          intro hs hr
          have hr' : (if r = 1 then tgt else if r = 0 then .failure else s.st) = .running := hr
          split at hr'
          · rename_i h1
            exact absurd ⟨hr', h1⟩ hn
          · split at hr'
            · simp at hr'
            · exact h hs hr'
    | add k n => cases k <;> exact h
    | startAll => exact h
    | stopAll => exact h
    | run m b => exact h
    | create k n => cases k <;> exact h
    | timeout =>
      dsimp only
      unfold App.timeout
      split
      · split
        · rename_i hc
          intro hs hr
          have hs' : s.self = true := hs
          have hr' : s.st = .running := hr
          simp [hs', hr'] at hc
        · split
          · exact h
          · split
            · exact h
            · intro _ _
              exact Or.inr (Nat.succ_pos _)
      · exact h

theorem run_watched (s : App) (ops : List Op) (h : Watched s) : Watched (s.run ops) := by
  induction ops generalizing s with
  | nil => exact h
  | cons o ops ih => exact ih _ (step_watched s o h)

/-- Only the timer looks at the modules. -/
theorem step_stops (s : App) (o : Op) :
    ((s.step o).stops = s.stops ∨ (o = .timeout ∧ s.self = true ∧ s.st = .running ∧ s.modulesRunning = false ∧
      s.anyRun = true ∧ (s.step o).stops = s.stops + 1)) ∧
    ((s.step o).anyRun = s.anyRun ∨ (o = .timeout ∧ s.st = .running ∧ s.modulesRunning = true)) := by
  unfold App.step
  split
  · exact ⟨Or.inl rfl, Or.inl rfl⟩
  · cases o with
    | cmd c tgt i =>
      dsimp only
      rcases transition_cases s c tgt i with ⟨_, e⟩ | ⟨_, _, e⟩ | ⟨_, h2, u, r, hg, e⟩
      · rw [e]; exact ⟨Or.inl rfl, Or.inl rfl⟩
      · rw [e]; exact ⟨Or.inl rfl, Or.inl rfl⟩
      · rw [e]
        obtain ⟨-, -, -, g4, g5, -⟩ := go_rest (prepared s).1 c (prepared s).2 tgt i
        obtain ⟨-, -, -, p4, p5, -⟩ := prepared_rest s
        rw [hg] at g4 g5
        cases r <;> exact ⟨Or.inl (g5.trans p5), Or.inl (g4.trans p4)⟩
    | reply r =>
      dsimp only
      match hp : s.pend with
      | [] =>
        have : s.connected r = s := by unfold App.connected; rw [hp]
        rw [this]; exact ⟨Or.inl rfl, Or.inl rfl⟩
      | (c, tgt) :: l =>
        rw [connected_eq s r c tgt l hp]
        split
        · rw [watch_same]; exact ⟨Or.inl rfl, Or.inl rfl⟩
        · exact ⟨Or.inl rfl, Or.inl rfl⟩
    | add k n => cases k <;> exact ⟨Or.inl rfl, Or.inl rfl⟩
    | startAll => exact ⟨Or.inl rfl, Or.inl rfl⟩
    | stopAll => exact ⟨Or.inl rfl, Or.inl rfl⟩
    | run m b => exact ⟨Or.inl rfl, Or.inl rfl⟩
    | create k n => cases k <;> exact ⟨Or.inl rfl, Or.inl rfl⟩
    | timeout =>
      dsimp only
      unfold App.timeout
      split
      · split
        · exact ⟨Or.inl rfl, Or.inl rfl⟩
        · rename_i hc
          have hc' : s.self = true ∧ s.st = .running := by
            cases hs : s.self <;> simp [hs] at hc ⊢
            exact hc
          split
          · rename_i hm
            exact ⟨Or.inl rfl, Or.inr ⟨rfl, hc'.2, hm⟩⟩
          · rename_i hm
            split
            · exact ⟨Or.inl rfl, Or.inl rfl⟩
            · rename_i ha
              exact ⟨Or.inr ⟨rfl, hc'.1, hc'.2, by simpa using hm, by simpa using ha, rfl⟩, Or.inl rfl⟩
      · exact ⟨Or.inl rfl, Or.inl rfl⟩

theorem run_stops (s : App) (ops : List Op) (h0 : s.stops = 0) (h : 0 < (s.run ops).stops) :
    ∃ p r, ops = p ++ .timeout :: r ∧ (s.run p).st = .running ∧ (s.run p).modulesRunning = false ∧
      (s.run p).anyRun = true ∧ (s.run p).self = true := by
  induction ops generalizing s with
  | nil => rw [show s.run [] = s from rfl, h0] at h; omega
  | cons o ops ih =>
    rcases (step_stops s o).1 with h1 | ⟨ho, h1, h2, h3, h4, _⟩
    · obtain ⟨p, r, e, h2⟩ := ih (s.step o) (by rw [h1, h0]) h
      exact ⟨o :: p, r, by rw [e]; rfl, h2⟩
    · exact ⟨[], ops, by rw [ho]; rfl, h2, h3, h4, h1⟩

theorem run_anyRun (s : App) (ops : List Op) (h0 : s.anyRun = false) (h : (s.run ops).anyRun = true) :
    ∃ p r, ops = p ++ .timeout :: r ∧ (s.run p).st = .running ∧ (s.run p).modulesRunning = true := by
  induction ops generalizing s with
  | nil => rw [show s.run [] = s from rfl, h0] at h; simp at h
  | cons o ops ih =>
    rcases (step_stops s o).2 with h1 | ⟨ho, h2, h3⟩
    · obtain ⟨p, r, e, h2⟩ := ih (s.step o) (by rw [h1, h0]) h
      exact ⟨o :: p, r, by rw [e]; rfl, h2⟩
    · exact ⟨[], ops, by rw [ho]; rfl, h2, h3⟩

end Verif.AppState
