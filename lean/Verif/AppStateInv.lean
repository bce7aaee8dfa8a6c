import Verif.AppStateLemmas

namespace Verif.AppState

open Spec

/-! ## Creation as a whole -/

/-- The effect of `CallInitFunc`. -/
theorem callInit_grow (s : App) (c : Nat) (tgt : St) (i : Init) : Grow s (s.callInit c tgt i).1 := by
  cases i with
  | own devs pools mods =>
    refine ⟨?_, ?_, ?_⟩
    · intro k n h
      cases k with
      | device => exact List.mem_append_left _ h
      | pool => exact List.mem_append_left _ h
      | module => obtain ⟨b, hb⟩ := h; exact ⟨b, List.mem_append_left _ hb⟩
      | other => exact h
    · intro k n h
      cases k with
      | device => exact List.mem_append_left _ h
      | pool => exact List.mem_append_left _ h
      | module => exact List.mem_append_left _ h
      | other => exact h
    · intro k n h
      cases k with
      | device =>
        rcases List.mem_append.mp h with h | h
        · exact Or.inl h
        · exact Or.inr (List.mem_append_right _ h)
      | pool =>
        rcases List.mem_append.mp h with h | h
        · exact Or.inl h
        · exact Or.inr (List.mem_append_right _ h)
      | module =>
        obtain ⟨b, hb⟩ := h
        rcases List.mem_append.mp hb with h | h
        · exact Or.inl ⟨b, h⟩
        · obtain ⟨y, hy, e⟩ := List.mem_map.mp h
          simp only [Prod.mk.injEq] at e
          refine Or.inr (List.mem_append_right _ ?_)
          rw [← e.1]; exact hy
      | other => exact Or.inl h
  | cfg devs pools mods conns =>
    unfold App.callInit
    dsimp only
    have g1 := makeDevs_grow s devs
    cases h1 : s.makeDevs devs with
    | mk s1 r1 =>
      rw [h1] at g1
      dsimp only at g1 ⊢
      rcases r1 with _ | r1
      · exact g1
      · cases r1
        · exact g1
        · dsimp only
          have g2 := makePools_grow s1 pools
          cases h2 : s1.makePools pools with
          | mk s2 r2 =>
            rw [h2] at g2
            dsimp only at g2 ⊢
            rcases r2 with _ | r2
            · exact g1.trans g2
            · cases r2
              · exact g1.trans g2
              · dsimp only
                have g3 := makeMods_grow s2 mods
                cases h3 : s2.makeMods mods with
                | mk s3 r3 =>
                  rw [h3] at g3
                  dsimp only at g3 ⊢
                  rcases r3 with _ | r3
                  · exact (g1.trans g2).trans g3
                  · cases r3
                    · exact (g1.trans g2).trans g3
                    · dsimp only
                      have g := (g1.trans g2).trans g3
                      split
                      · exact ⟨g.ex, g.reg, g.fresh⟩
                      · exact g

/-- Everything but the objects and, if the result comes later, the command under way. -/
theorem callInit_rest (s : App) (c : Nat) (tgt : St) (i : Init) :
    let r := s.callInit c tgt i
    r.1.self = s.self ∧ r.1.st = s.st ∧ r.1.replies = s.replies ∧ r.1.timer = s.timer ∧
      r.1.anyRun = s.anyRun ∧ r.1.stops = s.stops ∧ r.1.crashed = s.crashed ∧
      (r.2 = .later → r.1.pend = s.pend ++ [(c, tgt)]) ∧ (r.2 ≠ .later → r.1.pend = s.pend) := by
  intro r
  cases i with
  | own devs pools mods =>
    exact ⟨rfl, rfl, rfl, rfl, rfl, rfl, rfl, fun h => by simp [r, App.callInit] at h, fun _ => rfl⟩
  | cfg devs pools mods conns =>
    have fin : ∀ (t : App) (x : Res), Rest s t → x ≠ .later →
        t.self = s.self ∧ t.st = s.st ∧ t.replies = s.replies ∧ t.timer = s.timer ∧
        t.anyRun = s.anyRun ∧ t.stops = s.stops ∧ t.crashed = s.crashed ∧
        (x = .later → t.pend = s.pend ++ [(c, tgt)]) ∧ (x ≠ .later → t.pend = s.pend) := by
      intro t x h hx
      exact ⟨h.self, h.st, h.replies, h.timer, h.anyRun, h.stops, h.crashed,
        fun e => absurd e hx, fun _ => h.pend⟩
    have hr : r = s.callInit c tgt (.cfg devs pools mods conns) := rfl
    clear_value r
    subst hr
    unfold App.callInit
    dsimp only
    have g1 := makeDevs_rest s devs
    cases h1 : s.makeDevs devs with
    | mk s1 r1 =>
      rw [h1] at g1
      dsimp only at g1 ⊢
      rcases r1 with _ | r1
      · exact fin _ _ g1 (by simp)
      · cases r1
        · exact fin _ _ g1 (by simp)
        · dsimp only
          have g2 := makePools_rest s1 pools
          cases h2 : s1.makePools pools with
          | mk s2 r2 =>
            rw [h2] at g2
            dsimp only at g2 ⊢
            rcases r2 with _ | r2
            · exact fin _ _ (g1.trans g2) (by simp)
            · cases r2
              · exact fin _ _ (g1.trans g2) (by simp)
              · dsimp only
                have g3 := makeMods_rest s2 mods
                cases h3 : s2.makeMods mods with
                | mk s3 r3 =>
                  rw [h3] at g3
                  dsimp only at g3 ⊢
                  have g := (g1.trans g2).trans g3
                  rcases r3 with _ | r3
                  · exact fin _ _ g (by simp)
                  · cases r3
                    · exact fin _ _ g (by simp)
                    · dsimp only
                      split
                      · refine ⟨g.self, g.st, g.replies, g.timer, g.anyRun, g.stops, g.crashed, fun _ => ?_,
                          fun e => absurd rfl e⟩
                        show s3.pend ++ _ = _
                        rw [g.pend]
                      · exact fin _ _ g (by simp)

/-- After success, or when only the connections are missing, everything wanted exists. -/
theorem callInit_wanted (s : App) (c : Nat) (tgt : St) (i : Init)
    (h : (s.callInit c tgt i).2 = .yes ∨ (s.callInit c tgt i).2 = .later) (k : Kind) (n : Nat)
    (hw : Wanted k n i) : Exists (s.callInit c tgt i).1 k n := by
  cases i with
  | own devs pools mods =>
    cases k with
    | device => exact List.mem_append_right _ hw
    | pool => exact List.mem_append_right _ hw
    | module => exact ⟨false, List.mem_append_right _ (List.mem_map.mpr ⟨n, hw, rfl⟩)⟩
    | other => exact hw
  | cfg devs pools mods conns =>
    unfold App.callInit at h ⊢
    dsimp only at h ⊢
    have w1 := makeDevs_wanted s devs
    cases h1 : s.makeDevs devs with
    | mk s1 r1 =>
      rw [h1] at w1 h
      dsimp only at w1 h ⊢
      rcases r1 with _ | r1
      · simp at h
      · cases r1
        · simp at h
        · dsimp only at h ⊢
          have w2 := makePools_wanted s1 pools
          have g2 := makePools_grow s1 pools
          cases h2 : s1.makePools pools with
          | mk s2 r2 =>
            rw [h2] at w2 g2 h
            dsimp only at w2 g2 h ⊢
            rcases r2 with _ | r2
            · simp at h
            · cases r2
              · simp at h
              · dsimp only at h ⊢
                have w3 := makeMods_wanted s2 mods
                have g3 := makeMods_grow s2 mods
                cases h3 : s2.makeMods mods with
                | mk s3 r3 =>
                  rw [h3] at w3 g3 h
                  dsimp only at w3 g3 h ⊢
                  rcases r3 with _ | r3
                  · simp at h
                  · cases r3
                    · simp at h
                    · have key : Exists s3 k n := by
                        cases k with
                        | device =>
                          obtain ⟨d, hd, hn, hc⟩ := hw
                          exact (g2.trans g3).ex .device n (w1 rfl d hd n hn hc)
                        | pool =>
                          obtain ⟨d, hd, hn⟩ := hw
                          exact g3.ex .pool n (w2 rfl d hd n hn)
                        | module =>
                          obtain ⟨d, hd, hn, hc, hp⟩ := hw
                          exact w3 rfl d hd n hn hc hp
                        | other => exact hw.elim
                      dsimp only
                      split
                      · cases k <;> exact key
                      · exact key

theorem callInit_smooth (s : App) (c : Nat) (tgt : St) (i : Init) (h : Smooth i) :
    (s.callInit c tgt i).2 = .yes := by
  cases i with
  | own devs pools mods => rfl
  | cfg devs pools mods conns =>
    obtain ⟨h1, h2, h3, h4⟩ := h
    unfold App.callInit
    dsimp only
    have e1 := makeDevs_ok s devs h1
    cases k1 : s.makeDevs devs with
    | mk s1 r1 =>
      rw [k1] at e1
      dsimp only at e1
      subst e1
      dsimp only
      have e2 := makePools_ok s1 pools h2
      cases k2 : s1.makePools pools with
      | mk s2 r2 =>
        rw [k2] at e2
        dsimp only at e2
        subst e2
        dsimp only
        have e3 := makeMods_ok s2 mods h3
        cases k3 : s2.makeMods mods with
        | mk s3 r3 =>
          rw [k3] at e3
          dsimp only at e3
          subst e3
          dsimp only
          rw [h4]
          rfl

/-! ## The cases of a transition -/

/-- What `App.go` does. -/
theorem go_cases (s : App) (c : Nat) (cur : St) (tgt : Option St) (i : Init) :
    (tgt = some .halted ∧ s.go c cur tgt i = ((if cur = .running then s.stopModules else s).cleanup, .yes)) ∨
    (∃ t, (t = .ready ∨ t = .running) ∧ tgt = some t ∧ cur = .halted ∧
      (s.callInit c t i).2 ≠ .yes ∧ s.go c cur tgt i = s.callInit c t i) ∨
    (tgt = some .ready ∧ cur = .halted ∧ (s.callInit c .ready i).2 = .yes ∧
      s.go c cur tgt i = ((s.callInit c .ready i).1, .yes)) ∨
    (tgt = some .ready ∧ cur = .running ∧ s.go c cur tgt i = (s.stopModules, .yes)) ∨
    (tgt = some .ready ∧ cur ≠ .halted ∧ cur ≠ .running ∧ s.go c cur tgt i = (s, .yes)) ∨
    (tgt = some .running ∧ cur = .halted ∧ (s.callInit c .running i).2 = .yes ∧
      s.go c cur tgt i = ((s.callInit c .running i).1.startModules.watch, .yes)) ∨
    (tgt = some .running ∧ cur = .ready ∧ s.go c cur tgt i = (s.startModules.watch, .yes)) ∨
    (tgt = some .running ∧ cur ≠ .halted ∧ cur ≠ .ready ∧ s.go c cur tgt i = (s.watch, .yes)) ∨
    (tgt = some .failure ∧ s.go c cur tgt i = (s.stopModules, .yes)) ∨
    ((tgt = none ∨ tgt = some .transition) ∧ s.go c cur tgt i = (s, .no)) := by
  rcases tgt with _ | t
  · exact Or.inr (Or.inr (Or.inr (Or.inr (Or.inr (Or.inr (Or.inr (Or.inr (Or.inr ⟨Or.inl rfl, rfl⟩))))))))
  · cases t with
    | halted => exact Or.inl ⟨rfl, rfl⟩
    | ready =>
      by_cases hc : cur = .halted
      · by_cases hy : (s.callInit c .ready i).2 = .yes
        · refine Or.inr (Or.inr (Or.inl ⟨rfl, hc, hy, ?_⟩))
          simp only [App.go, if_pos hc]
          exact Prod.ext rfl hy
        · refine Or.inr (Or.inl ⟨.ready, Or.inl rfl, rfl, hc, hy, ?_⟩)
          simp only [App.go, if_pos hc]
      · by_cases hr : cur = .running
        · refine Or.inr (Or.inr (Or.inr (Or.inl ⟨rfl, hr, ?_⟩)))
          simp only [App.go, if_neg hc, if_pos hr]
        · refine Or.inr (Or.inr (Or.inr (Or.inr (Or.inl ⟨rfl, hc, hr, ?_⟩))))
          simp only [App.go, if_neg hc, if_neg hr]
    | running =>
      by_cases hc : cur = .halted
      · cases hy : (s.callInit c .running i).2 with
        | yes =>
          refine Or.inr (Or.inr (Or.inr (Or.inr (Or.inr (Or.inl ⟨rfl, hc, rfl, ?_⟩)))))
          simp only [App.go, if_pos hc]
          split
          · rename_i s' he; rw [he]
          · rename_i s' r hne he; rw [he] at hy; exact absurd hy (fun e => hne e)
        | _ =>
          refine Or.inr (Or.inl ⟨.running, Or.inr rfl, rfl, hc, by rw [hy]; simp, ?_⟩)
          simp only [App.go, if_pos hc]
          split
          · rename_i s' he; rw [he] at hy; simp at hy
          · rename_i s' r hne he; rw [he]
      · by_cases hr : cur = .ready
        · refine Or.inr (Or.inr (Or.inr (Or.inr (Or.inr (Or.inr (Or.inl ⟨rfl, hr, ?_⟩))))))
          simp only [App.go, if_neg hc, if_pos hr]
        · refine Or.inr (Or.inr (Or.inr (Or.inr (Or.inr (Or.inr (Or.inr (Or.inl ⟨rfl, hc, hr, ?_⟩)))))))
          simp only [App.go, if_neg hc, if_neg hr]
    | failure =>
      exact Or.inr (Or.inr (Or.inr (Or.inr (Or.inr (Or.inr (Or.inr (Or.inr (Or.inl ⟨rfl, rfl⟩))))))))
    | transition =>
      exact Or.inr (Or.inr (Or.inr (Or.inr (Or.inr (Or.inr (Or.inr (Or.inr (Or.inr ⟨Or.inr rfl, rfl⟩))))))))

theorem watch_same (s : App) : s.watch = { s with timer := s.timer || s.self } := by
  unfold App.watch
  cases h : s.self
  · simp only [Bool.false_eq_true, if_false, Bool.or_false]
    cases s; simp at h; simp [h]
  · simp

/-- What a transition does to replies and commands under way, whatever happens to the objects. -/
theorem go_rest (s : App) (c : Nat) (cur : St) (tgt : Option St) (i : Init) :
    let r := s.go c cur tgt i
    r.1.self = s.self ∧ r.1.st = s.st ∧ r.1.replies = s.replies ∧ r.1.anyRun = s.anyRun ∧
      r.1.stops = s.stops ∧ r.1.crashed = s.crashed ∧
      (r.2 = .later → ∃ t, (t = .ready ∨ t = .running) ∧ tgt = some t ∧ r.1.pend = s.pend ++ [(c, t)]) ∧
      (r.2 ≠ .later → r.1.pend = s.pend) ∧
      (r.2 = .yes → ∃ t, tgt = some t ∧ t ≠ .transition) ∧
      (r.2 = .yes → tgt = some .running → r.1.self = true → r.1.timer = true) := by
  intro r
  have hr : r = s.go c cur tgt i := rfl
  clear_value r
  subst hr
  rcases go_cases s c cur tgt i with ⟨h, e⟩ | ⟨t, ht, h, _, hn, e⟩ | ⟨h, _, hy, e⟩ | ⟨h, _, e⟩ | ⟨h, _, _, e⟩ |
    ⟨h, _, hy, e⟩ | ⟨h, _, e⟩ | ⟨h, _, _, e⟩ | ⟨h, e⟩ | ⟨h, e⟩
  · rw [e]
    have hx : ∀ x : App, Rest s x → Rest s x.cleanup :=
      fun x h => ⟨h.self, h.st, h.replies, h.timer, h.anyRun, h.stops, h.crashed, h.pend⟩
    have g : Rest s (if cur = .running then s.stopModules else s).cleanup := by
      apply hx
      split
      · exact ⟨rfl, rfl, rfl, rfl, rfl, rfl, rfl, rfl⟩
      · exact Rest.refl s
    refine ⟨g.self, g.st, g.replies, g.anyRun, g.stops, g.crashed, by simp, fun _ => g.pend,
      fun _ => ⟨_, h, by simp⟩, ?_⟩
    intro _ h'; rw [h] at h'; simp at h'
  · rw [e]
    obtain ⟨g1, g2, g3, g4, g5, g6, g7, g8, g9⟩ := callInit_rest s c t i
    exact ⟨g1, g2, g3, g5, g6, g7, fun hl => ⟨t, ht, h, g8 hl⟩, g9, fun h' => absurd h' hn,
      fun h' => absurd h' hn⟩
  · rw [e]
    obtain ⟨g1, g2, g3, g4, g5, g6, g7, _, g8⟩ := callInit_rest s c .ready i
    refine ⟨g1, g2, g3, g5, g6, g7, by simp, fun _ => g8 (by rw [hy]; simp), fun _ => ⟨_, h, by simp⟩, ?_⟩
    intro _ h'; rw [h] at h'; simp at h'
  · rw [e]
    refine ⟨rfl, rfl, rfl, rfl, rfl, rfl, by simp, fun _ => rfl, fun _ => ⟨_, h, by simp⟩, ?_⟩
    intro _ h'; rw [h] at h'; simp at h'
  · rw [e]
    refine ⟨rfl, rfl, rfl, rfl, rfl, rfl, by simp, fun _ => rfl, fun _ => ⟨_, h, by simp⟩, ?_⟩
    intro _ h'; rw [h] at h'; simp at h'
  · rw [e, watch_same]
    obtain ⟨g1, g2, g3, g4, g5, g6, g7, _, g8⟩ := callInit_rest s c .running i
    refine ⟨g1, g2, g3, g5, g6, g7, by simp, fun _ => g8 (by rw [hy]; simp), fun _ => ⟨_, h, by simp⟩, ?_⟩
    intro _ _ hs
    have hs' : (s.callInit c .running i).1.startModules.self = true := hs
    simp [hs']
  · rw [e, watch_same]
    refine ⟨rfl, rfl, rfl, rfl, rfl, rfl, by simp, fun _ => rfl, fun _ => ⟨_, h, by simp⟩, ?_⟩
    intro _ _ hs
    have hs' : s.startModules.self = true := hs
    simp [hs']
  · rw [e, watch_same]
    refine ⟨rfl, rfl, rfl, rfl, rfl, rfl, by simp, fun _ => rfl, fun _ => ⟨_, h, by simp⟩, ?_⟩
    intro _ _ hs
    have hs' : s.self = true := hs
    simp [hs']
  · rw [e]
    refine ⟨rfl, rfl, rfl, rfl, rfl, rfl, by simp, fun _ => rfl, fun _ => ⟨_, h, by simp⟩, ?_⟩
    intro _ h'; rw [h] at h'; simp at h'
  · rw [e]
    exact ⟨rfl, rfl, rfl, rfl, rfl, rfl, by simp, fun _ => rfl, by simp, by simp⟩

/-- The state from which `App.go` starts. -/
def prepared (s : App) : App × St :=
  if s.st = .failure then (({ s with st := .transition } : App).cleanup, .halted)
  else ({ s with st := .transition }, s.st)

theorem prepared_rest (s : App) :
    (prepared s).1.self = s.self ∧ (prepared s).1.st = .transition ∧ (prepared s).1.replies = s.replies ∧
      (prepared s).1.anyRun = s.anyRun ∧ (prepared s).1.stops = s.stops ∧
      (prepared s).1.crashed = s.crashed ∧ (prepared s).1.pend = s.pend ∧
      (prepared s).2 = (if s.st = .failure then .halted else s.st) := by
  unfold prepared
  split <;> exact ⟨rfl, rfl, rfl, rfl, rfl, rfl, rfl, rfl⟩

theorem transition_eq (s : App) (c : Nat) (tgt : Option St) (i : Init) (h1 : tgt ≠ some s.st)
    (h2 : s.st ≠ .transition) :
    s.transition c tgt i =
      ((prepared s).1.go c (prepared s).2 tgt i).1.finish c tgt ((prepared s).1.go c (prepared s).2 tgt i).2 := by
  unfold App.transition
  rw [if_neg h1, if_neg h2]
  unfold prepared
  dsimp only
  split <;> rfl

end Verif.AppState
