import Verif.AppStateInv

namespace Verif.AppState

open Spec

theorem transition_cases (s : App) (c : Nat) (tgt : Option St) (i : Init) :
    (tgt = some s.st ∧ s.transition c tgt i = { s with replies := s.replies ++ [(c, 1)] }) ∨
    (tgt ≠ some s.st ∧ s.st = .transition ∧
      s.transition c tgt i = { s with replies := s.replies ++ [(c, 0)] }) ∨
    (tgt ≠ some s.st ∧ s.st ≠ .transition ∧ ∃ u r, (prepared s).1.go c (prepared s).2 tgt i = (u, r) ∧
      s.transition c tgt i = u.finish c tgt r) := by
  by_cases h1 : tgt = some s.st
  · exact Or.inl ⟨h1, by unfold App.transition; rw [if_pos h1]⟩
  · by_cases h2 : s.st = .transition
    · exact Or.inr (Or.inl ⟨h1, h2, by unfold App.transition; rw [if_neg h1, if_pos h2]⟩)
    · exact Or.inr (Or.inr ⟨h1, h2, _, _, rfl, transition_eq s c tgt i h1 h2⟩)

/-! ## Commands and replies -/

/-- What holds about commands under way. -/
structure Cmds (s : App) : Prop where
  one : s.pend.length ≤ 1
  st : s.pend ≠ [] → s.st = .transition
  tgt : ∀ p ∈ s.pend, p.2 = .ready ∨ p.2 = .running

theorem Cmds.same {s t : App} (h : Cmds s) (hp : t.pend = s.pend) (hs : t.st = s.st) : Cmds t :=
  ⟨by rw [hp]; exact h.one, by rw [hp, hs]; exact h.st, by rw [hp]; exact h.tgt⟩

theorem transition_cmds (s : App) (c : Nat) (tgt : Option St) (i : Init) (h : Cmds s) :
    Cmds (s.transition c tgt i) := by
  rcases transition_cases s c tgt i with ⟨_, e⟩ | ⟨_, _, e⟩ | ⟨_, h2, u, r, hg, e⟩
  · rw [e]; exact h.same rfl rfl
  · rw [e]; exact h.same rfl rfl
  · rw [e]
    have hp : s.pend = [] := Classical.byContradiction fun hn => h2 (h.st hn)
    obtain ⟨-, g2, -, -, -, -, g7, g8, -, -⟩ := go_rest (prepared s).1 c (prepared s).2 tgt i
    obtain ⟨-, p2, -, -, -, -, p7, -⟩ := prepared_rest s
    rw [hg] at g2 g7 g8
    dsimp only at g2 g7 g8
    have fin : ∀ t : App, t.pend = [] → Cmds t := fun t ht => by
      refine ⟨by rw [ht]; simp, fun hn => absurd ht hn, ?_⟩
      rw [ht]; intro p hp; simp at hp
    cases r with
    | yes => exact fin _ ((g8 (by simp)).trans (p7.trans hp))
    | no => exact fin _ ((g8 (by simp)).trans (p7.trans hp))
    | crash => exact fin _ ((g8 (by simp)).trans (p7.trans hp))
    | later =>
      obtain ⟨t, ht, _, hpe⟩ := g7 rfl
      rw [p7, hp] at hpe
      refine ⟨?_, fun _ => g2.trans p2, ?_⟩
      · show u.pend.length ≤ 1
        rw [hpe]; simp
      · intro p hp'
        have hp'' : p ∈ u.pend := hp'
        rw [hpe] at hp''
        simp at hp''
        rw [hp'']; exact ht

theorem startModules_pend (s : App) : s.startModules.pend = s.pend := rfl

theorem connected_pend (s : App) (r : Int) : (s.connected r).pend = s.pend.tail := by
  unfold App.connected
  split
  · rename_i h; rw [h]; rfl
  · rename_i c tgt l h
    rw [h]
    dsimp only
    split <;> split <;> split <;> first | rfl | (rw [watch_same]; rfl)

theorem connected_replies (s : App) (r : Int) :
    (s.connected r).replies = s.replies ++ (s.pend.take 1).map fun p => (p.1, r) := by
  unfold App.connected
  split
  · rename_i h; rw [h]; simp
  · rename_i c tgt l h
    rw [h]
    dsimp only
    split <;> split <;> split <;> first | rfl | (rw [watch_same]; rfl)

theorem step_cmds (s : App) (o : Op) (h : Cmds s) : Cmds (s.step o) := by
  unfold App.step
  split
  · exact h
  · cases o with
    | cmd c tgt i => exact transition_cmds s c tgt i h
    | reply r =>
      dsimp only
      have hp := connected_pend s r
      have ht : s.pend.tail = [] := by
        match s.pend, h.one with
        | [], _ => rfl
        | [_], _ => rfl
        | _ :: _ :: _, h1 => simp at h1
      rw [ht] at hp
      refine ⟨by rw [hp]; exact Nat.zero_le _, fun hn => absurd hp hn, ?_⟩
      rw [hp]; intro p hp; simp at hp
    | add k n => cases k <;> exact h.same rfl rfl
    | startAll => exact h.same rfl rfl
    | stopAll => exact h.same rfl rfl
    | run n b => exact h.same rfl rfl
    | create k n => cases k <;> exact h.same rfl rfl
    | timeout =>
      dsimp only
      unfold App.timeout
      split
      · split
        · exact h.same rfl rfl
        · split
          · exact h.same rfl rfl
          · split
            · exact h
            · exact h.same rfl rfl
      · exact h

theorem run_cmds (s : App) (ops : List Op) (h : Cmds s) : Cmds (s.run ops) := by
  induction ops generalizing s with
  | nil => exact h
  | cons o ops ih => exact ih _ (step_cmds s o h)

theorem cmds_init (b : Bool) : Cmds { self := b } :=
  ⟨Nat.zero_le _, fun h => absurd rfl h, fun p hp => by simp at hp⟩

/-- Answers and commands under way, counted together. -/
def total (s : App) (c : Nat) : Nat := answered s c + underWay s c

theorem total_same {s t : App} (c : Nat) (h1 : t.replies = s.replies) (h2 : t.pend = s.pend) :
    total t c = total s c := by
  unfold total answered underWay
  rw [h1, h2]

theorem total_reply {s t : App} (c d : Nat) (v : Int) (h1 : t.replies = s.replies ++ [(d, v)])
    (h2 : t.pend = s.pend) : total t c = total s c + if d = c then 1 else 0 := by
  unfold total answered underWay
  rw [h1, h2, List.countP_append]
  by_cases hd : d = c
  · simp [hd]; omega
  · simp [hd]

theorem total_pend {s t : App} (c d : Nat) (v : St) (h1 : t.replies = s.replies)
    (h2 : t.pend = s.pend ++ [(d, v)]) : total t c = total s c + if d = c then 1 else 0 := by
  unfold total answered underWay
  rw [h1, h2, List.countP_append]
  by_cases hd : d = c
  · simp [hd]; omega
  · simp [hd]

theorem step_total (s : App) (o : Op) (c : Nat) (h : (s.step o).crashed = false) :
    total (s.step o) c = total s c + came c [o] := by
  unfold App.step at h ⊢
  by_cases hc : s.crashed = true
  · rw [if_pos hc] at h; rw [h] at hc; simp at hc
  · rw [if_neg hc] at h ⊢
    cases o with
    | cmd d tgt i =>
      dsimp only at h ⊢
      simp only [came, Nat.add_zero]
      rcases transition_cases s d tgt i with ⟨_, e⟩ | ⟨_, _, e⟩ | ⟨_, h2, u, r, hg, e⟩
      · rw [e]; exact total_reply c d 1 rfl rfl
      · rw [e]; exact total_reply c d 0 rfl rfl
      · rw [e] at h ⊢
        obtain ⟨-, g2, g3, -, -, -, g7, g8, -, -⟩ := go_rest (prepared s).1 d (prepared s).2 tgt i
        obtain ⟨-, p2, p3, -, -, -, p7, -⟩ := prepared_rest s
        rw [hg] at g2 g3 g7 g8
        dsimp only at g2 g3 g7 g8
        cases r with
        | yes =>
          refine total_reply c d 1 ?_ ((g8 (by simp)).trans p7)
          show u.replies ++ _ = _
          rw [g3, p3]
        | no =>
          refine total_reply c d 0 ?_ ((g8 (by simp)).trans p7)
          show u.replies ++ _ = _
          rw [g3, p3]
        | crash => simp [App.finish] at h
        | later =>
          obtain ⟨t, _, _, hpe⟩ := g7 rfl
          refine total_pend c d t ?_ ?_
          · show u.replies = _
            rw [g3, p3]
          · show u.pend = _
            rw [hpe, p7]
    | reply r =>
      dsimp only
      simp only [came, Nat.add_zero]
      unfold total answered underWay
      rw [connected_pend, connected_replies]
      match s.pend with
      | [] => simp
      | p :: l =>
        simp only [List.take_succ_cons, List.take_zero, List.map_cons, List.map_nil, List.countP_append,
          List.tail_cons, List.countP_cons, List.countP_nil]
        omega
    | add k n => cases k <;> exact total_same c rfl rfl
    | startAll => exact total_same c rfl rfl
    | stopAll => exact total_same c rfl rfl
    | run n b => exact total_same c rfl rfl
    | create k n => cases k <;> exact total_same c rfl rfl
    | timeout =>
      dsimp only
      simp only [came, Nat.add_zero]
      unfold App.timeout
      split
      · split
        · exact total_same c rfl rfl
        · split
          · exact total_same c rfl rfl
          · split
            · rfl
            · exact total_same c rfl rfl
      · rfl

theorem came_cons (c : Nat) (o : Op) (l : List Op) : came c (o :: l) = came c [o] + came c l := by
  cases o <;> simp [came]

theorem crashed_stays (s : App) (ops : List Op) (h : s.crashed = true) : s.run ops = s := by
  induction ops with
  | nil => rfl
  | cons o ops ih =>
    show (s.step o).run ops = s
    have : s.step o = s := by unfold App.step; rw [if_pos h]
    rw [this]; exact ih

theorem run_total (s : App) (ops : List Op) (c : Nat) (h : (s.run ops).crashed = false) :
    total (s.run ops) c = total s c + came c ops := by
  induction ops generalizing s with
  | nil => simp [App.run, came]
  | cons o ops ih =>
    have hs : (s.step o).crashed = false := by
      cases hc : (s.step o).crashed with
      | false => rfl
      | true =>
        have := crashed_stays _ ops hc
        rw [show s.run (o :: ops) = (s.step o).run ops from rfl, this, hc] at h
        simp at h
    rw [came_cons]
    have := ih (s.step o) h
    rw [step_total s o c hs] at this
    show total ((s.step o).run ops) c = _
    omega

/-! ## Objects -/

theorem objs_same {F : Kind → Nat → Prop} {s t : App} (h : Objs F s) (h1 : t.devs = s.devs)
    (h2 : t.pools = s.pools) (h3 : t.mods = s.mods) (h4 : t.mDevs = s.mDevs) (h5 : t.mPools = s.mPools)
    (h6 : ∀ n, (∃ b, (n, b) ∈ t.mMods) → ∃ b, (n, b) ∈ s.mMods) : Objs F t := by
  refine ⟨fun k n hx => ?_⟩
  cases k with
  | device =>
    have : n ∈ t.mDevs := hx
    rw [h4] at this
    rcases h.reg .device n this with h' | h'
    · exact Or.inl (show n ∈ t.devs from h1 ▸ h')
    · exact Or.inr h'
  | pool =>
    have : n ∈ t.mPools := hx
    rw [h5] at this
    rcases h.reg .pool n this with h' | h'
    · exact Or.inl (show n ∈ t.pools from h2 ▸ h')
    · exact Or.inr h'
  | module =>
    rcases h.reg .module n (h6 n hx) with h' | h'
    · exact Or.inl (show n ∈ t.mods from h3 ▸ h')
    · exact Or.inr h'
  | other => exact hx.elim

/-- After deleting the objects of the application only objects of others are left. -/
theorem cleanup_foreign {F : Kind → Nat → Prop} {s : App} (h : Objs F s) (k : Kind) (n : Nat)
    (hx : Exists s.cleanup k n) : F k n := by
  cases k with
  | device =>
    have hx' : n ∈ s.mDevs.filter fun n => !s.devs.contains n := hx
    rw [List.mem_filter] at hx'
    rcases h.reg .device n hx'.1 with h' | h'
    · have : n ∈ s.devs := h'
      simp [this] at hx'
    · exact h'
  | pool =>
    have hx' : n ∈ s.mPools.filter fun n => !s.pools.contains n := hx
    rw [List.mem_filter] at hx'
    rcases h.reg .pool n hx'.1 with h' | h'
    · have : n ∈ s.pools := h'
      simp [this] at hx'
    · exact h'
  | module =>
    obtain ⟨b, hb⟩ := hx
    have hx' : (n, b) ∈ s.mMods.filter fun m => !s.mods.contains m.1 := hb
    rw [List.mem_filter] at hx'
    rcases h.reg .module n ⟨b, hx'.1⟩ with h' | h'
    · have : n ∈ s.mods := h'
      simp [this] at hx'
    · exact h'
  | other => exact hx.elim

/-- What is not registered is not deleted. -/
theorem cleanup_keeps (s : App) (k : Kind) (n : Nat) (hx : Exists s k n) (hr : ¬ Registered s k n) :
    Exists s.cleanup k n := by
  cases k with
  | device =>
    have hx' : n ∈ s.mDevs := hx
    have hr' : n ∉ s.devs := hr
    exact List.mem_filter.mpr ⟨hx', by simp [hr']⟩
  | pool =>
    have hx' : n ∈ s.mPools := hx
    have hr' : n ∉ s.pools := hr
    exact List.mem_filter.mpr ⟨hx', by simp [hr']⟩
  | module =>
    obtain ⟨b, hb⟩ := hx
    have hr' : n ∉ s.mods := hr
    exact ⟨b, List.mem_filter.mpr ⟨hb, by simp [hr']⟩⟩
  | other => exact hx.elim

theorem cleanup_objs {F : Kind → Nat → Prop} {s : App} (h : Objs F s) : Objs F s.cleanup :=
  ⟨fun k n hx => Or.inr (cleanup_foreign h k n hx)⟩

theorem Objs.grow {F : Kind → Nat → Prop} {s t : App} (h : Objs F s) (g : Grow s t) : Objs F t := by
  refine ⟨fun k n hx => ?_⟩
  rcases g.fresh k n hx with h' | h'
  · rcases h.reg k n h' with h'' | h''
    · exact Or.inl (g.reg k n h'')
    · exact Or.inr h''
  · exact Or.inl h'

theorem Objs.start {F : Kind → Nat → Prop} {s : App} (h : Objs F s) : Objs F s.startModules :=
  objs_same h rfl rfl rfl rfl rfl fun n hx => (startModules_exists s n).mp hx

theorem Objs.stop {F : Kind → Nat → Prop} {s : App} (h : Objs F s) : Objs F s.stopModules :=
  objs_same h rfl rfl rfl rfl rfl fun n hx => (stopModules_exists s n).mp hx

theorem Objs.watch {F : Kind → Nat → Prop} {s : App} (h : Objs F s) : Objs F s.watch := by
  rw [watch_same]
  exact objs_same h rfl rfl rfl rfl rfl fun n hx => hx

theorem prepared_objs {F : Kind → Nat → Prop} {s : App} (h : Objs F s) : Objs F (prepared s).1 := by
  unfold prepared
  have h' : Objs F ({ s with st := .transition } : App) :=
    objs_same h rfl rfl rfl rfl rfl fun n hx => hx
  split
  · exact cleanup_objs h'
  · exact h'

theorem go_objs {F : Kind → Nat → Prop} {s : App} (h : Objs F s) (c : Nat) (cur : St) (tgt : Option St)
    (i : Init) : Objs F (s.go c cur tgt i).1 ∧
      (tgt = some .halted → ∀ k n, Exists (s.go c cur tgt i).1 k n → F k n) := by
  rcases go_cases s c cur tgt i with ⟨ht, e⟩ | ⟨t, ht, ht', _, _, e⟩ | ⟨ht, _, _, e⟩ | ⟨ht, _, e⟩ | ⟨ht, _, _, e⟩ |
    ⟨ht, _, _, e⟩ | ⟨ht, _, e⟩ | ⟨ht, _, _, e⟩ | ⟨ht, e⟩ | ⟨ht, e⟩
  · have h' : Objs F (if cur = .running then s.stopModules else s) := by
      split
      · exact h.stop
      · exact h
    rw [e]
    exact ⟨cleanup_objs h', fun _ => cleanup_foreign h'⟩
  · rw [e]
    refine ⟨h.grow (callInit_grow s c t i), fun h' => ?_⟩
    rw [ht'] at h'
    rcases ht with rfl | rfl <;> simp at h'
  · rw [e]
    exact ⟨h.grow (callInit_grow s c _ i), fun h' => by rw [ht] at h'; simp at h'⟩
  · rw [e]
    exact ⟨h.stop, fun h' => by rw [ht] at h'; simp at h'⟩
  · rw [e]
    exact ⟨h, fun h' => by rw [ht] at h'; simp at h'⟩
  · rw [e]
    exact ⟨(h.grow (callInit_grow s c _ i)).start.watch, fun h' => by rw [ht] at h'; simp at h'⟩
  · rw [e]
    exact ⟨h.start.watch, fun h' => by rw [ht] at h'; simp at h'⟩
  · rw [e]
    exact ⟨h.watch, fun h' => by rw [ht] at h'; simp at h'⟩
  · rw [e]
    exact ⟨h.stop, fun h' => by rw [ht] at h'; simp at h'⟩
  · rw [e]
    refine ⟨h, fun h' => ?_⟩
    rcases ht with ht | ht <;> rw [ht] at h' <;> simp at h'

/-- The objects over a run: everything belongs to the application or to others, and in `Halted`
there are only objects of others. -/
structure Owned (F : Kind → Nat → Prop) (s : App) : Prop where
  objs : Objs F s
  halted : s.st = .halted → ∀ k n, Exists s k n → F k n

theorem Owned.other {F : Kind → Nat → Prop} {t : App} (h : Objs F t) (hs : t.st ≠ .halted) : Owned F t :=
  ⟨h, fun e => absurd e hs⟩

theorem exists_same {s t : App} (h4 : t.mDevs = s.mDevs) (h5 : t.mPools = s.mPools)
    (h6 : ∀ n, (∃ b, (n, b) ∈ t.mMods) → ∃ b, (n, b) ∈ s.mMods) (k : Kind) (n : Nat) (hx : Exists t k n) :
    Exists s k n := by
  cases k with
  | device => exact (show n ∈ s.mDevs from h4 ▸ hx)
  | pool => exact (show n ∈ s.mPools from h5 ▸ hx)
  | module => exact h6 n hx
  | other => exact hx

theorem Owned.same {F : Kind → Nat → Prop} {s t : App} (h : Owned F s) (h0 : t.st = s.st) (h1 : t.devs = s.devs)
    (h2 : t.pools = s.pools) (h3 : t.mods = s.mods) (h4 : t.mDevs = s.mDevs) (h5 : t.mPools = s.mPools)
    (h6 : ∀ n, (∃ b, (n, b) ∈ t.mMods) → ∃ b, (n, b) ∈ s.mMods) : Owned F t :=
  ⟨objs_same h.objs h1 h2 h3 h4 h5 h6,
    fun hs k n hx => h.halted (h0 ▸ hs) k n (exists_same h4 h5 h6 k n hx)⟩

theorem transition_owned {F : Kind → Nat → Prop} {s : App} (h : Owned F s) (c : Nat) (tgt : Option St)
    (i : Init) : Owned F (s.transition c tgt i) := by
  rcases transition_cases s c tgt i with ⟨_, e⟩ | ⟨_, _, e⟩ | ⟨_, h2, u, r, hg, e⟩
  · rw [e]; exact h.same rfl rfl rfl rfl rfl rfl fun n hx => hx
  · rw [e]; exact h.same rfl rfl rfl rfl rfl rfl fun n hx => hx
  · rw [e]
    obtain ⟨-, g2, -, -, -, -, -, -, g9, -⟩ := go_rest (prepared s).1 c (prepared s).2 tgt i
    obtain ⟨-, p2, -, -, -, -, -, -⟩ := prepared_rest s
    obtain ⟨o1, o2⟩ := go_objs (prepared_objs h.objs) c (prepared s).2 tgt i
    rw [hg] at g2 g9 o1 o2
    dsimp only at g2 g9 o1 o2
    have hst : u.st ≠ .halted := by rw [g2, p2]; simp
    cases r with
    | yes =>
      obtain ⟨t, ht, _⟩ := g9 rfl
      refine ⟨objs_same o1 rfl rfl rfl rfl rfl fun n hx => hx, fun hs k n hx => ?_⟩
      have hs' : tgt.getD .failure = .halted := hs
      rw [ht] at hs'
      have : t = .halted := hs'
      exact o2 (by rw [ht, this]) k n (exists_same rfl rfl (fun n hx => hx) k n hx)
    | no => exact Owned.other (objs_same o1 rfl rfl rfl rfl rfl fun n hx => hx) (by simp [App.finish])
    | later => exact Owned.other o1 hst
    | crash => exact Owned.other (objs_same o1 rfl rfl rfl rfl rfl fun n hx => hx) hst

/-- The reply of the connection manager changes the state, the modules which run, and the timer. -/
theorem connected_eq (s : App) (r : Int) (c : Nat) (tgt : St) (l : List (Nat × St)) (h : s.pend = (c, tgt) :: l) :
    s.connected r = { (if tgt = .running ∧ r = 1 then s.startModules.watch else s) with
      pend := l, replies := s.replies ++ [(c, r)]
      st := if r = 1 then tgt else if r = 0 then .failure else s.st } := by
  have hw : ∀ x : App, x.watch = { x with timer := x.timer || x.self } := watch_same
  unfold App.connected
  rw [h]
  dsimp only
  by_cases h1 : r = 1
  · subst h1
    by_cases ht : tgt = .running
    · subst ht
      rw [hw, hw]
      rfl
    · simp [ht]
  · by_cases h0 : r = 0
    · subst h0
      simp
    · simp [h1, h0]

theorem connected_owned {F : Kind → Nat → Prop} {s : App} (h : Owned F s) (hc : Cmds s) (r : Int) :
    Owned F (s.connected r) := by
  match hp : s.pend with
  | [] =>
    have : s.connected r = s := by unfold App.connected; rw [hp]
    rw [this]; exact h
  | (c, tgt) :: l =>
    rw [connected_eq s r c tgt l hp]
    have htr := hc.st (by rw [hp]; simp)
    have htg := hc.tgt (c, tgt) (by rw [hp]; simp)
    refine Owned.other ?_ ?_
    · split
      · rw [watch_same]
        exact objs_same h.objs rfl rfl rfl rfl rfl fun n hx => (startModules_exists s n).mp hx
      · exact objs_same h.objs rfl rfl rfl rfl rfl fun n hx => hx
    · show (if r = 1 then tgt else if r = 0 then .failure else s.st) ≠ .halted
      split
      · rcases htg with h' | h' <;> (have h'' : tgt = _ := h'; rw [h'']; simp)
      · split
        · simp
        · rw [htr]; simp

theorem mem_snoc {α : Type} {a b : α} {l : List α} (h : a ∈ l ++ [b]) : a ∈ l ∨ a = b := by
  simpa using h

theorem step_owned {F : Kind → Nat → Prop} {s : App} (o : Op) (h : Owned F s) (hc : Cmds s)
    (hF : ∀ k n, o = .create k n → F k n) : Owned F (s.step o) := by
  unfold App.step
  split
  · exact h
  · cases o with
    | cmd c tgt i => exact transition_owned h c tgt i
    | reply r => exact connected_owned h hc r
    | add k n =>
      have key : ∀ t : App, t.st = s.st → t.mDevs = s.mDevs → t.mPools = s.mPools → t.mMods = s.mMods →
          (∀ k m, Registered s k m → Registered t k m) → Owned F t := by
        intro t e0 e1 e2 e3 hr
        have hex : ∀ k m, Exists t k m → Exists s k m :=
          exists_same e1 e2 (by rw [e3]; exact fun _ h => h)
        refine ⟨⟨fun k m hx => ?_⟩, fun hs k m hx => h.halted (e0 ▸ hs) k m (hex k m hx)⟩
        rcases h.objs.reg k m (hex k m hx) with h' | h'
        · exact Or.inl (hr k m h')
        · exact Or.inr h'
      cases k with
      | device =>
        refine key _ rfl rfl rfl rfl fun k m hr => ?_
        cases k with
        | device => exact List.mem_append_left _ hr
        | _ => exact hr
      | pool =>
        refine key _ rfl rfl rfl rfl fun k m hr => ?_
        cases k with
        | pool => exact List.mem_append_left _ hr
        | _ => exact hr
      | module =>
        refine key _ rfl rfl rfl rfl fun k m hr => ?_
        cases k with
        | module => exact List.mem_append_left _ hr
        | _ => exact hr
      | other => exact h
    | startAll => exact h.same rfl rfl rfl rfl rfl rfl fun n hx => (startModules_exists s n).mp hx
    | stopAll => exact h.same rfl rfl rfl rfl rfl rfl fun n hx => (stopModules_exists s n).mp hx
    | run n b =>
      refine h.same rfl rfl rfl rfl rfl rfl ?_
      rintro m ⟨b', hb'⟩
      obtain ⟨_, r, hr, _⟩ := mem_setRun hb'
      exact ⟨r, hr⟩
    | create k n =>
      have hn := hF k n rfl
      have key : ∀ t : App, t.st = s.st → t.devs = s.devs → t.pools = s.pools → t.mods = s.mods →
          (∀ k' m, Exists t k' m → Exists s k' m ∨ (k' = k ∧ m = n)) → Owned F t := by
        intro t e0 e1 e2 e3 hex
        constructor
        · constructor
          intro k' m hx
          rcases hex k' m hx with h' | ⟨rfl, rfl⟩
          · rcases h.objs.reg k' m h' with h'' | h''
            · left
              cases k' with
              | device => exact (show m ∈ t.devs from e1 ▸ h'')
              | pool => exact (show m ∈ t.pools from e2 ▸ h'')
              | module => exact (show m ∈ t.mods from e3 ▸ h'')
              | other => exact h''
            · exact Or.inr h''
          · exact Or.inr hn
        · intro hs k' m hx
          rcases hex k' m hx with h' | ⟨rfl, rfl⟩
          · exact h.halted (e0 ▸ hs) k' m h'
          · exact hn
      cases k with
      | device =>
        refine key _ rfl rfl rfl rfl fun k' m hx => ?_
        cases k' with
        | device =>
          rcases mem_snoc hx with h' | h'
          · exact Or.inl h'
          · exact Or.inr ⟨rfl, h'⟩
        | _ => exact Or.inl hx
      | pool =>
        refine key _ rfl rfl rfl rfl fun k' m hx => ?_
        cases k' with
        | pool =>
          rcases mem_snoc hx with h' | h'
          · exact Or.inl h'
          · exact Or.inr ⟨rfl, h'⟩
        | _ => exact Or.inl hx
      | module =>
        refine key _ rfl rfl rfl rfl fun k' m hx => ?_
        cases k' with
        | module =>
          obtain ⟨b, hb⟩ := hx
          rcases mem_snoc hb with h' | h'
          · exact Or.inl ⟨b, h'⟩
          · exact Or.inr ⟨rfl, by simpa using congrArg Prod.fst h'⟩
        | _ => exact Or.inl hx
      | other => exact h
    | timeout =>
      dsimp only
      unfold App.timeout
      have same : ∀ t : App, t.st = s.st → t.devs = s.devs → t.pools = s.pools → t.mods = s.mods →
          t.mDevs = s.mDevs → t.mPools = s.mPools → t.mMods = s.mMods → Owned F t := fun t e0 e1 e2 e3 e4 e5 e6 =>
        h.same e0 e1 e2 e3 e4 e5 (by rw [e6]; exact fun _ h => h)
      split
      · split
        · exact same _ rfl rfl rfl rfl rfl rfl rfl
        · split
          · exact same _ rfl rfl rfl rfl rfl rfl rfl
          · split
            · exact h
            · exact same _ rfl rfl rfl rfl rfl rfl rfl
      · exact h

theorem run_owned {F : Kind → Nat → Prop} (s : App) (ops : List Op) (h : Owned F s) (hc : Cmds s)
    (hF : ∀ k n, Op.create k n ∈ ops → F k n) : Owned F (s.run ops) := by
  induction ops generalizing s with
  | nil => exact h
  | cons o ops ih =>
    exact ih _ (step_owned o h hc fun k n e => hF k n (by rw [← e]; simp)) (step_cmds s o hc)
      fun k n hm => hF k n (List.mem_cons_of_mem _ hm)

/-! ## Objects of others -/

theorem stay_same {s t : App} (h4 : t.mDevs = s.mDevs) (h5 : t.mPools = s.mPools)
    (h6 : ∀ n, (∃ b, (n, b) ∈ s.mMods) → ∃ b, (n, b) ∈ t.mMods) {k : Kind} {n : Nat} (hx : Exists s k n) :
    Exists t k n := by
  cases k with
  | device => exact (show n ∈ t.mDevs from h4 ▸ hx)
  | pool => exact (show n ∈ t.mPools from h5 ▸ hx)
  | module => exact h6 n hx
  | other => exact hx

theorem stay_start (t : App) {k : Kind} {n : Nat} (h : Exists t k n) : Exists t.startModules k n := by
  cases k with
  | module => exact (startModules_exists t n).mpr h
  | _ => exact h

theorem stay_stop (t : App) {k : Kind} {n : Nat} (h : Exists t k n) : Exists t.stopModules k n := by
  cases k with
  | module => exact (stopModules_exists t n).mpr h
  | _ => exact h

theorem stay_watch (t : App) {k : Kind} {n : Nat} (h : Exists t k n) : Exists t.watch k n := by
  rw [watch_same]
  cases k <;> exact h

theorem go_stay (s : App) (c : Nat) (cur : St) (tgt : Option St) (i : Init) (k : Kind) (n : Nat)
    (hx : Exists s k n) (hr : ¬ Registered s k n) : Exists (s.go c cur tgt i).1 k n := by
  have start : ∀ t : App, Exists t k n → Exists t.startModules.watch k n :=
    fun t h => stay_watch _ (stay_start t h)
  have stop : ∀ t : App, Exists t k n → Exists t.stopModules k n := fun t h => stay_stop t h
  rcases go_cases s c cur tgt i with ⟨ht, e⟩ | ⟨t, ht, ht', _, _, e⟩ | ⟨ht, _, _, e⟩ | ⟨ht, _, e⟩ | ⟨ht, _, _, e⟩ |
    ⟨ht, _, _, e⟩ | ⟨ht, _, e⟩ | ⟨ht, _, _, e⟩ | ⟨ht, e⟩ | ⟨ht, e⟩
  · rw [e]
    apply cleanup_keeps
    · split
      · exact stop s hx
      · exact hx
    · split
      · cases k <;> exact hr
      · exact hr
  · rw [e]; exact (callInit_grow s c t i).ex k n hx
  · rw [e]; exact (callInit_grow s c _ i).ex k n hx
  · rw [e]; exact stop s hx
  · rw [e]; exact hx
  · rw [e]; exact start _ ((callInit_grow s c _ i).ex k n hx)
  · rw [e]; exact start _ hx
  · rw [e, watch_same]; exact stay_same (t := { s with timer := _ }) rfl rfl (fun m h => h) hx
  · rw [e]; exact stop s hx
  · rw [e]; exact hx

theorem prepared_stay (s : App) (k : Kind) (n : Nat) (hx : Exists s k n) (hr : ¬ Registered s k n) :
    Exists (prepared s).1 k n ∧ ¬ Registered (prepared s).1 k n := by
  unfold prepared
  have h1 : Exists ({ s with st := .transition } : App) k n := by cases k <;> exact hx
  have h2 : ¬ Registered ({ s with st := .transition } : App) k n := by cases k <;> exact hr
  split
  · refine ⟨cleanup_keeps _ k n h1 h2, ?_⟩
    cases k <;> intro h <;> simp [Registered, App.cleanup] at h
  · exact ⟨h1, h2⟩

theorem step_stay (s : App) (o : Op) (k : Kind) (n : Nat) (hx : Exists s k n) (hr : ¬ Registered s k n) :
    Exists (s.step o) k n := by
  unfold App.step
  split
  · exact hx
  · cases o with
    | cmd c tgt i =>
      dsimp only
      rcases transition_cases s c tgt i with ⟨_, e⟩ | ⟨_, _, e⟩ | ⟨_, h2, u, r, hg, e⟩
      · rw [e]; exact stay_same (t := { s with replies := _ }) rfl rfl (fun m h => h) hx
      · rw [e]; exact stay_same (t := { s with replies := _ }) rfl rfl (fun m h => h) hx
      · rw [e]
        obtain ⟨p1, p2⟩ := prepared_stay s k n hx hr
        have := go_stay (prepared s).1 c (prepared s).2 tgt i k n p1 p2
        rw [hg] at this
        cases r with
        | yes => exact stay_same (s := u) rfl rfl (fun m h => h) this
        | no => exact stay_same (s := u) rfl rfl (fun m h => h) this
        | later => exact this
        | crash => exact stay_same (s := u) rfl rfl (fun m h => h) this
    | reply r =>
      dsimp only
      match hp : s.pend with
      | [] =>
        have : s.connected r = s := by unfold App.connected; rw [hp]
        rw [this]; exact hx
      | (c, tgt) :: l =>
        rw [connected_eq s r c tgt l hp]
        split
        · exact stay_same (s := s.startModules.watch) rfl rfl (fun m h => h) (stay_watch _ (stay_start s hx))
        · exact stay_same (s := s) rfl rfl (fun m h => h) hx
    | add k' m => cases k' <;> exact stay_same (s := s) rfl rfl (fun m h => h) hx
    | startAll => exact stay_start s hx
    | stopAll => exact stay_stop s hx
    | run m b =>
      cases k with
      | module => obtain ⟨r, hr'⟩ := hx; exact setRun_mem hr'
      | _ => exact hx
    | create k' m =>
      cases k' with
      | device =>
        cases k with
        | device => exact List.mem_append_left _ hx
        | _ => exact hx
      | pool =>
        cases k with
        | pool => exact List.mem_append_left _ hx
        | _ => exact hx
      | module =>
        cases k with
        | module => obtain ⟨b, hb⟩ := hx; exact ⟨b, List.mem_append_left _ hb⟩
        | _ => exact hx
      | other => exact hx
    | timeout =>
      dsimp only
      unfold App.timeout
      split
      · split
        · exact stay_same (s := s) rfl rfl (fun m h => h) hx
        · split
          · exact stay_same (s := s) rfl rfl (fun m h => h) hx
          · split
            · exact hx
            · exact stay_same (s := s) rfl rfl (fun m h => h) hx
      · exact hx

end Verif.AppState
