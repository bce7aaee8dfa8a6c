import Verif.TimerLemmas

namespace Verif.Timer

theorem lt_or_ge' (a b : Int) : a < b ∨ b ≤ a := by omega

theorem check_now (w : Nat) (s : S) : (check [.wait w] s).now ≤ s.now + w := by
  have h1 : ∀ d (s : S), (again d s).1.now = s.now := by
    intro d s
    unfold again
    split <;> rfl
  have h2 : ∀ n (r : S × Int), (setNext n r).now = r.1.now := by
    intro n r
    unfold setNext
    split <;> rfl
  unfold check
  split
  · omega
  · split
    · omega
    · rw [h2]
      unfold process
      split
      · dsimp only; omega
      · rw [h1]
        split
        · simp only [List.foldl_cons, List.foldl_nil, inner]; omega
        · dsimp only; omega

/-- The state after a quiet run: the request waits, or the timer goes. -/
theorem quiet_run {t p : Int} {sy : Bool} (hp : 0 < p) (P : List Int → Prop) (hP0 : P [])
    (hP : ∀ l x, P l → dueOf t p sy l < x → P (l ++ [x])) (os : List Op) (hq : ∀ o ∈ os, Quiet o) :
    ∀ s : S, Base t p sy s → (Wait t p s ∨ (Go t p sy s ∧ P (ticks s.log))) →
      Base t p sy (run s os) ∧
      ((Wait t p (run s os) ∧ .event ∉ os) ∨ (Go t p sy (run s os) ∧ P (ticks (run s os).log))) := by
  induction os with
  | nil =>
    intro s hb h
    exact ⟨hb, h.imp (fun h => ⟨h, by simp⟩) id⟩
  | cons o os ih =>
    intro s hb h
    have ih := ih (fun o ho => hq o (List.mem_cons_of_mem _ ho))
    have hqo := hq o (List.mem_cons_self ..)
    have hr : run s (o :: os) = run (step s o) os := rfl
    rw [hr]
    have weak : ∀ s', Base t p sy s' → (Wait t p s' ∨ (Go t p sy s' ∧ P (ticks s'.log))) →
        (o = .event → ¬ Wait t p s') →
        Base t p sy (run s' os) ∧
        ((Wait t p (run s' os) ∧ .event ∉ o :: os) ∨ (Go t p sy (run s' os) ∧ P (ticks (run s' os).log))) := by
      intro s' hb' h' hne
      rcases h' with hw | hg
      · refine ⟨(ih s' hb' (.inl hw)).1, ?_⟩
        rcases (ih s' hb' (.inl hw)).2 with ⟨h1, h2⟩ | h1
        · refine .inl ⟨h1, ?_⟩
          intro hm
          rcases List.mem_cons.mp hm with h | h
          · exact hne h.symm hw
          · exact h2 h
        · exact .inr h1
      · have key : ∀ os', (∀ o ∈ os', Quiet o) → ∀ s', Base t p sy s' → Go t p sy s' → P (ticks s'.log) →
            Base t p sy (run s' os') ∧ Go t p sy (run s' os') ∧ P (ticks (run s' os').log) := by
          intro os'
          induction os' with
          | nil => intro _ s' h1 h2 h3; exact ⟨h1, h2, h3⟩
          | cons o' os' ih' =>
            intro hq' s' h1 h2 h3
            have hqo' := hq' o' (List.mem_cons_self ..)
            have ih' := ih' (fun o ho => hq' o (List.mem_cons_of_mem _ ho))
            have hr' : run s' (o' :: os') = run (step s' o') os' := rfl
            rw [hr']
            cases o' with
            | wait d => exact ih' _ (base_wait h1 d) ⟨h2.req, h2.prev, h2.next, h2.inacc⟩ h3
            | event =>
              simp only [step]
              rw [event_go h2]
              exact ih' _ h1 h2 h3
            | check h =>
              obtain ⟨c1, c2⟩ := check_go hp h1 h2 h hqo'
              simp only [step]
              cases lt_or_ge' (dueOf t p sy (ticks s'.log)) s'.now with
              | inr hl => rw [c1 hl]; exact ih' _ h1 h2 h3
              | inl hl =>
                obtain ⟨c3, c4, c5, _⟩ := c2 hl
                refine ih' _ c3 c4 ?_
                rw [c5]
                exact hP _ _ h3 hl
            | start => exact absurd hqo' (by simp [Quiet])
            | stop => exact absurd hqo' (by simp [Quiet])
            | shoot d => exact absurd hqo' (by simp [Quiet])
        obtain ⟨k1, k2, k3⟩ := key os (fun o ho => hq o (List.mem_cons_of_mem _ ho)) s' hb' hg.1 hg.2
        exact ⟨k1, .inr ⟨k2, k3⟩⟩
    cases o with
    | wait d =>
      refine weak _ (base_wait hb d) ?_ (by simp)
      rcases h with hw | ⟨hg, h3⟩
      · exact .inl ⟨hw.req, hw.mark, hw.interv, hw.prev, hw.next, hw.inacc, hw.none⟩
      · exact .inr ⟨⟨hg.req, hg.prev, hg.next, hg.inacc⟩, h3⟩
    | event =>
      simp only [step]
      rcases h with hw | ⟨hg, h3⟩
      · obtain ⟨e1, e2⟩ := event_wait hp hb hw
        refine weak _ e1 (.inr ⟨e2, ?_⟩) ?_
        · have : ticks (event s).log = [] := by
            have e : (event s).log = s.log := by
              unfold event
              split
              · rfl
              · split <;> rfl
            rw [e, hw.none]
          rw [this]
          exact hP0
        · intro _ hw'
          have := e2.req
          rw [hw'.req] at this
          cases this
      · rw [event_go hg]
        refine weak _ hb (.inr ⟨hg, h3⟩) ?_
        intro _ hw'
        have := hg.req
        rw [hw'.req] at this
        cases this
    | check h' =>
      simp only [step]
      rcases h with hw | ⟨hg, h3⟩
      · have : check h' s = s := by simp [check, hw.next]
        rw [this]
        exact weak _ hb (.inl hw) (by simp)
      · obtain ⟨c1, c2⟩ := check_go hp hb hg h' hqo
        cases lt_or_ge' (dueOf t p sy (ticks s.log)) s.now with
        | inr hl => rw [c1 hl]; exact weak _ hb (.inr ⟨hg, h3⟩) (by simp)
        | inl hl =>
          obtain ⟨c3, c4, c5, _⟩ := c2 hl
          refine weak _ c3 (.inr ⟨c4, ?_⟩) (by simp)
          rw [c5]
          exact hP _ _ h3 hl
    | start => exact absurd hqo (by simp [Quiet])
    | stop => exact absurd hqo (by simp [Quiet])
    | shoot d => exact absurd hqo (by simp [Quiet])

theorem lastOf_get {t : Int} {l : List Int} {k : Nat} {x : Int} (h : l[k]? = some x) (hk : k + 1 = l.length) :
    lastOf t l = x := by
  unfold lastOf
  rw [List.getLast?_eq_getElem?, show l.length - 1 = k by omega, h]
  rfl

theorem snoc_get {l : List Int} {x y : Int} {k : Nat} (h : (l ++ [x])[k]? = some y) :
    l[k]? = some y ∨ (k = l.length ∧ y = x) := by
  rw [List.getElem?_append] at h
  split at h
  · exact .inl h
  · rename_i hk
    have : k - l.length = 0 := by
      cases hz : k - l.length with
      | zero => rfl
      | succ m => rw [hz] at h; simp at h
    rw [this] at h
    simp at h
    exact .inr ⟨by omega, h.symm⟩

theorem get_lt {l : List Int} {k : Nat} {x : Int} (h : l[k]? = some x) : k < l.length := by
  cases Nat.lt_or_ge k l.length with
  | inl h => exact h
  | inr hk => rw [List.getElem?_eq_none hk] at h; cases h

theorem notEarly_snoc {t p : Int} (l : List Int) (x : Int) (h : NotEarly t p l) (hx : dueOf t p true l < x) :
    NotEarly t p (l ++ [x]) := by
  simp only [dueOf, if_true] at hx
  have h1 : lastOf t l < x := by omega
  have h2 : t + ((l.length : Int) + 1) * p < x := by omega
  constructor
  · intro k y hy
    rcases snoc_get hy with hy | ⟨rfl, rfl⟩
    · exact h.1 k y hy
    · exact h2
  · intro k y z hy hz
    rcases snoc_get hy with hy' | ⟨rfl, rfl⟩
    · rcases snoc_get hz with hz | ⟨hk, rfl⟩
      · exact h.2 k y z hy' hz
      · rw [lastOf_get hy' hk] at h1
        exact h1
    · rcases snoc_get hz with hz | ⟨hk, _⟩
      · have := get_lt hz
        omega
      · omega

/-- **C106.**  A timer in synchron mode with the period `p` which is started at `t`, whatever the durations of handlers and
the times when the thread checks its timeouts: call number k (from 0) is never before `t + (k+1) p`. -/
theorem C106_not_early (t p : Int) (hp : 0 < p) (os : List Op) (hq : ∀ o ∈ os, Quiet o) :
    NotEarly t p (ticks (run (new t p true) (.start :: os)).log) := by
  obtain ⟨hb, hw⟩ := start_base t p true hp
  have h0 : NotEarly t p [] := ⟨by simp, by simp⟩
  obtain ⟨_, h⟩ := quiet_run hp (NotEarly t p) h0 notEarly_snoc os hq _ hb (.inl hw)
  rcases h with ⟨h, _⟩ | ⟨_, h⟩
  · rw [show run (new t p true) (.start :: os) = run (run (new t p true) [.start]) os from rfl, h.none]
    exact h0
  · exact h

/-- **C106.**  A check makes the next call exactly when its time `t + (k+1) p` is over and the last call was
before: delays do not accumulate. -/
theorem C106_due (t p : Int) (hp : 0 < p) (os : List Op) (hq : ∀ o ∈ os, Quiet o) (he : .event ∈ os) (h : List Inner)
    (hh : ∀ i ∈ h, ∃ d, i = Inner.wait d) :
    let s := run (new t p true) (.start :: os)
    let l := ticks s.log
    ticks (run s [.check h]).log =
      if (∀ x, l.getLast? = some x → x < s.now) ∧ t + ((l.length : Int) + 1) * p < s.now then l ++ [s.now] else l := by
  obtain ⟨hb, hw⟩ := start_base t p true hp
  obtain ⟨hb', h'⟩ := quiet_run hp (fun _ => True) trivial (fun _ _ _ _ => trivial) os hq _ hb (.inl hw)
  rcases h' with ⟨_, h'⟩ | ⟨hg, _⟩
  · exact absurd he h'
  · change Base t p true (run (new t p true) (.start :: os)) at hb'
    change Go t p true (run (new t p true) (.start :: os)) at hg
    dsimp only
    generalize run (new t p true) (.start :: os) = s at hb' hg
    obtain ⟨c1, c2⟩ := check_go hp hb' hg h hh
    have hl := hb'.late
    have hmul : 0 ≤ ((ticks s.log).length : Int) * p := Int.mul_nonneg (by omega) (by omega)
    rw [Int.add_mul] at *
    have hiff : dueOf t p true (ticks s.log) < s.now ↔
        (∀ x, (ticks s.log).getLast? = some x → x < s.now) ∧ t + ((ticks s.log).length * p + 1 * p) < s.now := by
      simp only [dueOf, if_true, lastOf]
      rw [Int.add_mul]
      cases (ticks s.log).getLast? with
      | none => simp; omega
      | some x => simp; omega
    show ticks (check h s).log = _
    cases lt_or_ge' (dueOf t p true (ticks s.log)) s.now with
    | inl hlt => rw [if_pos (hiff.mp hlt)]; exact (c2 hlt).2.2.1
    | inr hge => rw [if_neg (fun hc => absurd (hiff.mpr hc) (by omega)), c1 hge]

/-- The thread waits at most `d` and then checks the timeouts; a handler takes at most `e`. -/
def polls (l : List (Nat × Nat)) : List Op := l.flatMap fun w => [.wait w.1, .check [.wait w.2]]

theorem polls_quiet (l : List (Nat × Nat)) : ∀ o ∈ polls l, Quiet o := by
  intro o ho
  obtain ⟨w, _, hw⟩ := List.mem_flatMap.mp ho
  simp only [List.mem_cons, List.not_mem_nil, or_false] at hw
  rcases hw with rfl | rfl
  · trivial
  · intro i hi
    simp only [List.mem_cons, List.not_mem_nil, or_false] at hi
    exact ⟨_, hi⟩

theorem drift_aux {t p : Int} (hp : 0 < p) (d e : Nat) (hd : (d : Int) + e ≤ p) (l : List (Nat × Nat)) :
    (∀ w ∈ l, w.1 ≤ d ∧ w.2 ≤ e) → ∀ s : S, Base t p true s → Go t p true s →
      s.now ≤ t + ((ticks s.log).length + 1) * p + e → lastOf t (ticks s.log) ≤ t + ((ticks s.log).length + 1) * p →
      (∀ (k : Nat) x, (ticks s.log)[k]? = some x → x ≤ t + (k + 1) * p + d + e) →
      let s' := run s (polls l)
      s'.now ≤ t + ((ticks s'.log).length + 1) * p + e ∧
        ∀ (k : Nat) x, (ticks s'.log)[k]? = some x → x ≤ t + (k + 1) * p + d + e := by
  induction l with
  | nil => intro _ s _ _ h1 _ h3; exact ⟨h1, h3⟩
  | cons w l ih =>
    intro hw s hb hg h1 h2 h3
    have ih := ih (fun w hx => hw w (List.mem_cons_of_mem _ hx))
    obtain ⟨hw1, hw2⟩ := hw w (List.mem_cons_self ..)
    have hr : run s (polls (w :: l)) = run (check [.wait w.2] { s with now := s.now + w.1 }) (polls l) := rfl
    rw [hr]
    have hb1 := base_wait hb w.1
    have hg1 : Go t p true { s with now := s.now + w.1 } := ⟨hg.req, hg.prev, hg.next, hg.inacc⟩
    have hqi : ∀ i ∈ [Inner.wait w.2], ∃ d, i = Inner.wait d := by simp
    obtain ⟨c1, c2⟩ := check_go hp hb1 hg1 _ hqi
    have hdue : dueOf t p true (ticks s.log) = t + (((ticks s.log).length : Int) + 1) * p := by
      simp only [dueOf, if_true]
      omega
    cases lt_or_ge' (dueOf t p true (ticks s.log)) (s.now + w.1) with
    | inr hge =>
      rw [c1 hge]
      exact ih _ hb1 hg1 (by simp only; omega) h2 h3
    | inl hlt =>
      obtain ⟨c3, c4, c5, c6⟩ := c2 hlt
      have hnow := check_now w.2 { s with now := s.now + w.1 }
      simp only at c5 hnow
      have hlen : ((ticks (check [.wait w.2] { s with now := s.now + w.1 }).log).length : Int) + 1 =
          ((ticks s.log).length : Int) + 1 + 1 := by simp [c5]
      have hmul : (((ticks s.log).length : Int) + 1 + 1) * p = (((ticks s.log).length : Int) + 1) * p + p := by
        rw [Int.add_mul _ 1 p]; omega
      refine ih _ c3 c4 ?_ ?_ ?_
      · rw [hlen, hmul]
        omega
      · rw [hlen, hmul, c5, lastOf_snoc]
        omega
      · rw [c5]
        intro k x hx
        rcases snoc_get hx with hx | ⟨rfl, rfl⟩
        · exact h3 k x hx
        · omega

/-- **C106.**  When the thread waits at most `d` between its checks and the handler of the module takes at most `e`, and
both together not more than the period: every call is at most `d + e` late, for ever, and none is missing. -/
theorem C106_no_drift (t p : Int) (hp : 0 < p) (d e : Nat) (hd : (d : Int) + e ≤ p) (l : List (Nat × Nat))
    (hl : ∀ w ∈ l, w.1 ≤ d ∧ w.2 ≤ e) :
    let s := run (new t p true) (.start :: .event :: polls l)
    (∀ (k : Nat) x, (ticks s.log)[k]? = some x → x ≤ t + (k + 1) * p + d + e) ∧
      s.now ≤ t + ((ticks s.log).length + 1) * p + e := by
  obtain ⟨hb, hw⟩ := start_base t p true hp
  obtain ⟨hb, hg⟩ := event_wait hp hb hw
  have ht : ticks (event (run (new t p true) [.start])).log = [] := by
    simp [run, step, start, new, hp, activate, event, show ¬ p < 0 by omega, ticks]
  have hn : (event (run (new t p true) [.start])).now = t := by
    simp [run, step, start, new, hp, activate, event, show ¬ p < 0 by omega]
  have := drift_aux hp d e hd l hl _ hb hg (by rw [ht, hn]; simp; omega) (by rw [ht]; simp [lastOf]; omega) (by rw [ht]; simp)
  exact ⟨this.2, this.1⟩

example : ticks (run (new 0 10 true) (.start :: .event :: polls [(4, 2), (4, 2), (4, 2), (4, 2), (4, 2), (4, 2)])).log =
    [12, 22] := by decide

/-- **C106.**  Without synchron mode calls are separated by more than the period. -/
theorem C106_plain (t p : Int) (hp : 0 < p) (os : List Op) (hq : ∀ o ∈ os, Quiet o) :
    let l := ticks (run (new t p false) (.start :: os)).log
    (∀ x, l[0]? = some x → t + p < x) ∧ ∀ (k : Nat) x y, l[k]? = some x → l[k + 1]? = some y → x + p < y := by
  obtain ⟨hb, hw⟩ := start_base t p false hp
  let P : List Int → Prop := fun l =>
    (∀ x, l[0]? = some x → t + p < x) ∧ ∀ (k : Nat) x y, l[k]? = some x → l[k + 1]? = some y → x + p < y
  have h0 : P [] := ⟨by simp, by simp⟩
  have hs : ∀ l x, P l → dueOf t p false l < x → P (l ++ [x]) := by
    intro l x h hx
    have hx : lastOf t l + p < x := by simpa [dueOf] using hx
    constructor
    · intro y hy
      rcases snoc_get hy with hy | ⟨hk, rfl⟩
      · exact h.1 y hy
      · have : l = [] := List.length_eq_zero_iff.mp hk.symm
        subst this
        simpa [lastOf] using hx
    · intro k y z hy hz
      rcases snoc_get hy with hy' | ⟨rfl, rfl⟩
      · rcases snoc_get hz with hz | ⟨hk, rfl⟩
        · exact h.2 k y z hy' hz
        · rw [lastOf_get hy' hk] at hx
          exact hx
      · rcases snoc_get hz with hz | ⟨hk, _⟩
        · have := get_lt hz
          omega
        · omega
  obtain ⟨_, h⟩ := quiet_run hp P h0 hs os hq _ hb (.inl hw)
  rcases h with ⟨h, _⟩ | ⟨_, h⟩
  · rw [show run (new t p false) (.start :: os) = run (run (new t p false) [.start]) os from rfl, h.none]
    exact h0
  · exact h

/-- All calls are delivered while the timer is started. -/
structure Act (s : S) : Prop where
  running : s.running = started false s.log
  active : s.active = started false s.log
  calls : ∀ pre t b post, s.log = pre ++ .tick t b :: post → b = true ∧ started false pre = true
  count : s.counter = (ticks s.log).length
  once : ∀ pre t post, s.log = pre ++ .start t :: post → started false pre = false

theorem snoc_split {l pre post : List Ev} {e f : Ev} (h : l ++ [e] = pre ++ f :: post) :
    (∃ post', l = pre ++ f :: post') ∨ (l = pre ∧ e = f) := by
  rcases List.eq_nil_or_concat post with rfl | ⟨q, x, rfl⟩
  · have := List.append_inj' h rfl
    exact .inr ⟨this.1, by simpa using this.2⟩
  · have h' : l ++ [e] = (pre ++ f :: q) ++ [x] := by simpa using h
    have := List.append_inj' h' rfl
    exact .inl ⟨q, this.1⟩

theorem Act.start {s : S} (h : Act s) : Act (start s) := by
  unfold Timer.start
  split
  · exact h
  · rename_i hrun
    have hrun : s.running = false := by simpa using hrun
    have key : ∀ s' : S, s'.running = true → s'.active = true → s'.log = s.log ++ [.start s.now] → s'.counter = s.counter → Act s' := by
      intro s' h1 h2 h3 h4
      refine ⟨?_, ?_, ?_, ?_, ?_⟩
      · rw [h1, h3, started_append]; rfl
      · rw [h2, h3, started_append]; rfl
      · intro pre t b post hl
        rw [h3] at hl
        rcases snoc_split hl with ⟨q, hq⟩ | ⟨_, hq⟩
        · exact h.calls _ _ _ _ hq
        · cases hq
      · rw [h4, h3, ticks_append, h.count]; simp [ticks]
      · intro pre t post hl
        rw [h3] at hl
        rcases snoc_split hl with ⟨q, hq⟩ | ⟨rfl, _⟩
        · exact h.once _ _ _ hq
        · rw [← h.running, hrun]
    dsimp only
    split <;> exact key _ rfl rfl rfl rfl

theorem Act.stop {s : S} (h : Act s) : Act (stop s) := by
  unfold Timer.stop
  split
  · exact h
  · refine ⟨?_, ?_, ?_, ?_, ?_⟩
    · simp [activate, started_append, started]
    · simp [activate, started_append, started]
    · intro pre t b post hl
      simp only [activate] at hl
      rcases snoc_split hl with ⟨q, hq⟩ | ⟨_, hq⟩
      · exact h.calls _ _ _ _ hq
      · cases hq
    · simp [activate, ticks_append, ticks, h.count]
    · intro pre t post hl
      simp only [activate] at hl
      rcases snoc_split hl with ⟨q, hq⟩ | ⟨_, hq⟩
      · exact h.once _ _ _ hq
      · cases hq

theorem Act.same {s s' : S} (h : Act s) (h1 : s'.running = s.running) (h2 : s'.active = s.active) (h3 : s'.log = s.log)
    (h4 : s'.counter = s.counter) : Act s' :=
  ⟨by rw [h1, h3]; exact h.running, by rw [h2, h3]; exact h.active, by rw [h3]; exact h.calls, by rw [h4, h3]; exact h.count,
    by rw [h3]; exact h.once⟩

theorem Act.inner {s : S} (h : Act s) (i : Inner) : Act (inner s i) := by
  cases i with
  | wait d => exact h.same rfl rfl rfl rfl
  | start => exact h.start
  | stop => exact h.stop
  | shoot d => exact h.same rfl rfl rfl rfl

theorem Act.inners (l : List Inner) : ∀ {s : S}, Act s → Act (l.foldl Timer.inner s) := by
  induction l with
  | nil => intro s h; exact h
  | cons i l ih => intro s h; exact ih (h.inner i)

theorem Act.check {s : S} (h : Act s) (l : List Inner) : Act (check l s) := by
  have hn : ∀ n (r : S × Int), Act r.1 → Act (setNext n r) := by
    intro n r hr
    unfold setNext
    split <;> exact hr.same rfl rfl rfl rfl
  have ha : ∀ d (s : S), Act s → Act (again d s).1 := by
    intro d s hr
    unfold again
    split
    · exact hr
    · exact hr.same rfl rfl rfl rfl
  unfold Timer.check
  split
  · exact h
  · split
    · exact h
    · apply hn
      unfold process
      split
      · exact h
      · rename_i hact
        have hact : s.active = true := by simpa using hact
        have hst : started false s.log = true := by rw [← h.active, hact]
        have hrun : s.running = true := by rw [h.running, hst]
        apply ha
        have h0 : Act { s with counter := s.counter + 1, log := s.log ++ [.tick s.now s.running] } := by
          refine ⟨?_, ?_, ?_, ?_, ?_⟩
          · simp [started_append, started, h.running]
          · simp [started_append, started, h.active]
          · intro pre t b post hl
            simp only at hl
            rcases snoc_split hl with ⟨q, hq⟩ | ⟨rfl, hq⟩
            · exact h.calls _ _ _ _ hq
            · cases hq
              exact ⟨hrun, hst⟩
          · simp [ticks_append, ticks, h.count]
          · intro pre t post hl
            simp only at hl
            rcases snoc_split hl with ⟨q, hq⟩ | ⟨_, hq⟩
            · exact h.once _ _ _ hq
            · cases hq
        rw [show (if s.running = true then _ else _) = _ from if_pos hrun]
        exact Act.inners l h0

/-- **C106.**  For all sequences of operations, also inside of handlers: the timer is called only between start and stop of its
module, every call reaches the module and is counted; a second start without stop does nothing. -/
theorem C106_stopped (t p : Int) (sy : Bool) (os : List Op) :
    let s := run (new t p sy) os
    (∀ pre x b post, s.log = pre ++ .tick x b :: post → b = true ∧ started false pre = true) ∧
      s.counter = (ticks s.log).length ∧
      ∀ pre x post, s.log = pre ++ .start x :: post → started false pre = false := by
  have : ∀ os (s : S), Act s → Act (run s os) := by
    intro os
    induction os with
    | nil => intro s h; exact h
    | cons o os ih =>
      intro s h
      apply ih
      cases o with
      | wait d => exact h.same rfl rfl rfl rfl
      | start => exact h.start
      | stop => exact h.stop
      | shoot d => exact h.same rfl rfl rfl rfl
      | event =>
        simp only [step]
        unfold event
        split
        · exact h
        · split <;> exact h.same rfl rfl rfl rfl
      | check l => exact h.check l
  have h := this os (new t p sy) ⟨rfl, rfl, by intro pre _ _ _ h; cases pre <;> simp [new] at h, rfl,
    by intro pre _ _ h; cases pre <;> simp [new] at h⟩
  exact ⟨h.calls, h.count, h.once⟩

/-- **C106, what fails**: `fInaccuracy` survives stop and start.  After one long handler (100) the module is
stopped; when it is started again at 1111, calls follow each other immediately instead of every 10. -/
theorem C106_restart_counterexample :
    let s := run (new 0 10 true) [.start, .event, .wait 11, .check [.wait 100], .check [], .stop, .event, .wait 1000, .start,
      .event, .wait 11, .check [], .wait 1, .check [], .wait 1, .check [], .wait 1, .check []]
    s.log = [.start 0, .tick 11 true, .tick 111 true, .stop, .start 1111, .tick 1122 true, .tick 1123 true, .tick 1124 true,
      .tick 1125 true] := by decide

/-- **C106, what fails**: `ShootTimer` for a timer without period in synchron mode: instead of one call there
are calls without end. -/
theorem C106_shoot_counterexample (p : Int) (hp : p < 0) (n : Nat) :
    ticks (run (new 0 p true) ([.start, .shoot 5, .event, .wait 6, .check []] ++
      (List.replicate n [Op.wait 1, Op.check []]).flatten)).log = (List.range (n + 1)).map fun k : Nat => 6 + (k : Int) := by
  rw [run_append]
  have h0 : run (new 0 p true) [.start, .shoot 5, .event, .wait 6, .check []] =
      { now := 6, period := p, sync := true, active := true, inacc := 6 - p, counter := 1, running := true, mark := 0,
        interv := 5, req := false, prev := some 6, next := some 6, log := [.start 0, .tick 6 true] } := by
    have e1 : run (new 0 p true) [.start, .shoot 5, .event, .wait 6] =
        { now := 6, period := p, sync := true, active := true, running := true, mark := 0,
          interv := 5, req := false, prev := some 0, next := some 5, log := [.start 0] } := by
      simp [run, step, start, new, show ¬ 0 < p by omega, activate, event]
    rw [show [Op.start, .shoot 5, .event, .wait 6, .check []] = [Op.start, .shoot 5, .event, .wait 6] ++ [.check []] from rfl,
      run_append, e1]
    simp [run, step, check, process, again, setNext, diffOf, show p - (6 - p) < 0 by omega]
  rw [h0]
  have key : ∀ n (s : S), s.period = p → s.sync = true → s.active = true → s.running = true → 0 ≤ s.inacc →
      s.prev = some s.now → s.next = some s.now →
      ticks (run s (List.replicate n [Op.wait 1, Op.check []]).flatten).log =
        ticks s.log ++ (List.range n).map fun k : Nat => s.now + 1 + (k : Int) := by
    intro n
    induction n with
    | zero => intro s _ _ _ _ _ _ _; simp [run]
    | succ n ih =>
      intro s h1 h2 h3 h4 h5 h6 h7
      have e : run s [Op.wait 1, Op.check []] =
          { s with now := s.now + 1, counter := s.counter + 1, inacc := s.inacc + (1 - p), prev := some (s.now + 1),
                   next := some (s.now + 1), log := s.log ++ [.tick (s.now + 1) true] } := by
        simp [run, step, check, process, again, setNext, diffOf, h1, h2, h3, h4, h6, h7,
          show s.now + 1 - s.now = 1 by omega, show p - (s.inacc + (1 - p)) < 0 by omega, show ¬ s.now + 1 ≤ s.now by omega]
      rw [List.replicate_succ, List.flatten_cons, run_append, e,
        ih { s with now := s.now + 1, counter := s.counter + 1, inacc := s.inacc + (1 - p), prev := some (s.now + 1),
                    next := some (s.now + 1), log := s.log ++ [.tick (s.now + 1) true] } h1 h2 h3 h4 (by simp only; omega) rfl rfl]
      simp only [ticks_append, ticks, List.append_assoc, List.range_succ_eq_map, List.map_cons, List.map_map]
      simp
      intro k _
      omega
  rw [key n _ rfl rfl rfl rfl (by simp only; omega) rfl rfl]
  simp only [ticks, List.range_succ_eq_map, List.map_cons, List.map_map]
  simp
  intro k _
  omega

end Verif.Timer
