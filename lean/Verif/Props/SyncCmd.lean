import Verif.SyncCmd

/-!
# C97: commands of a module with main loop
-/

namespace Verif.SyncCmd

/-- Commands which wait. -/
def left (s : S) : List Nat := s.q.getD []

theorem turn_some {s s' : S} (h : turn s = some s') :
    s'.arrived = s.arrived ∧ s'.sync = s.sync ∧ s'.done ++ left s' = s.done ++ left s ∧ (s'.running = s.running ∨ s'.q = none) ∧ (left s = [] → left s' = []) := by
  unfold turn at h
  split at h
  · cases h
  next hq =>
    split at h
    · cases h; exact ⟨rfl, rfl, rfl, .inl rfl, id⟩
    · cases h; exact ⟨rfl, rfl, by simp [left, hq], .inl rfl, fun _ => rfl⟩
    · cases h; exact ⟨rfl, rfl, by simp [left, hq], .inr rfl, fun _ => rfl⟩
  next n l hq => cases h; exact ⟨rfl, rfl, by simp [left, hq], .inl rfl, fun hx => by rw [left, hq] at hx; cases hx⟩

theorem drain_some {s s' : S} {c} (h : drain s c = some s') :
    s'.arrived = s.arrived ∧ s'.sync = s.sync ∧ s'.done ++ left s' = s.done ++ left s ∧ (s'.running = s.running ∨ s'.q = none) ∧ (left s = [] → left s' = []) := by
  unfold drain at h
  split at h
  next hq =>
    cases c with
    | work => cases h; exact ⟨rfl, rfl, rfl, .inl rfl, id⟩
    | stop => cases h; exact ⟨rfl, rfl, rfl, .inr hq, id⟩
  · exact turn_some (s := { s with frames := c :: s.frames }) h

theorem act_cases {s s' : S} {a : Act} (h : act s a = .ok s') :
    (∃ n, a = .arrive n ∧ s' = arrive s n) ∨ (a = .start ∧ s' = { s with running := true }) ∨ (a = .autoStop ∧ s' = { s with running := false }) ∨
      (s'.arrived = s.arrived ∧ s'.sync = s.sync ∧ s'.done ++ left s' = s.done ++ left s ∧ (s'.running = s.running ∨ s'.q = none) ∧ (left s = [] → left s' = [])) := by
  cases a with
  | arrive n => cases h; exact .inl ⟨n, rfl, rfl⟩
  | start => cases h; exact .inr (.inl ⟨rfl, rfl⟩)
  | autoStop => cases h; exact .inr (.inr (.inl ⟨rfl, rfl⟩))
  | drain =>
    simp only [act] at h
    split at h
    next e => cases h; exact .inr (.inr (.inr (drain_some e)))
    · cases h
  | ret =>
    simp only [act] at h
    split at h
    · cases h; exact .inr (.inr (.inr ⟨rfl, rfl, rfl, .inl rfl, id⟩))
    · split at h
      next e => cases h; exact .inr (.inr (.inr (turn_some e)))
      · cases h
  | stop =>
    simp only [act] at h
    split at h
    · split at h
      next e => cases h; exact .inr (.inr (.inr (drain_some e)))
      · cases h
    · cases h; exact .inr (.inr (.inr ⟨rfl, rfl, rfl, .inl rfl, id⟩))

theorem acts_inv {P : S → Prop} {Q : Act → Prop} (hP : ∀ s s' a, P s → Q a → act s a = .ok s' → P s') {as : List Act} :
    ∀ {s s' : S}, P s → (∀ a ∈ as, Q a) → acts s as = .ok s' → P s' := by
  induction as with
  | nil => intro s s' i _ h; cases h; exact i
  | cons a as ih =>
    intro s s' i hq h
    simp only [acts] at h
    split at h
    next s1 e => exact ih (hP _ _ _ i (hq a (by simp)) e) (fun b hb => hq b (by simp [hb])) h
    · cases h

/-- **C97, every command exactly once.** Whatever happens, as long as the program runs: the commands which were
executed together with those which wait are the commands which arrived, each as often as it arrived. -/
theorem C97_once (running sync : Bool) (as : List Act) (s : S) (h : acts (fresh running sync) as = .ok s) :
    (s.done ++ s.q.getD []).Perm s.arrived := by
  refine acts_inv (P := fun s => (s.done ++ s.q.getD []).Perm s.arrived) (Q := fun _ => True) ?_ (.refl _) (fun _ _ => trivial) h
  intro s s' a i _ h
  rcases act_cases h with ⟨n, rfl, rfl⟩ | ⟨rfl, rfl⟩ | ⟨rfl, rfl⟩ | ⟨h1, -, h3, -, -⟩
  · unfold arrive
    dsimp only
    split
    · change (s.done ++ (s.q.getD [] ++ [n])).Perm (s.arrived ++ [n])
      rw [← List.append_assoc]
      exact i.append_right _
    · change (s.done ++ [n] ++ s.q.getD []).Perm (s.arrived ++ [n])
      refine List.Perm.trans ?_ (i.append_right [n])
      rw [List.append_assoc, List.append_assoc]
      exact List.Perm.append_left _ List.perm_append_comm
  · exact i
  · exact i
  · have h3 : s'.done ++ s'.q.getD [] = s.done ++ s.q.getD [] := h3
    rw [h1, h3]; exact i

/-- **C97, order (partial).** As long as the module is stopped only by the command, commands are executed in the order
in which they arrived; a module with synchronous commands executes each of them at once.  Missing: other ways to stop
a module; see the counterexample. -/
theorem C97_order_partial (running sync : Bool) (as : List Act) (s : S) (hn : ∀ a ∈ as, a ≠ .autoStop) (h : acts (fresh running sync) as = .ok s) :
    s.done ++ s.q.getD [] = s.arrived ∧ (sync = true ∨ s.running = false → s.done = s.arrived) := by
  have key := acts_inv (P := fun s => s.done ++ left s = s.arrived ∧ s.sync = sync ∧ (sync = true ∨ s.running = false → left s = [])) (Q := fun a => a ≠ .autoStop)
    ?_ ⟨rfl, rfl, fun _ => rfl⟩ hn h
  · obtain ⟨k1, -, k3⟩ := key
    refine ⟨k1, fun hx => ?_⟩
    rw [← k1, k3 hx, List.append_nil]
  · intro s s' a ⟨i1, i2, i3⟩ hq h
    rcases act_cases h with ⟨n, rfl, rfl⟩ | ⟨rfl, rfl⟩ | ⟨rfl, rfl⟩ | ⟨h1, h2, h3, h4, h5⟩
    · unfold arrive
      dsimp only
      split
      next hc =>
        have hc : s.sync = false ∧ s.running = true := by simpa using hc
        refine ⟨?_, i2, fun hx => ?_⟩
        · change s.done ++ (left s ++ [n]) = s.arrived ++ [n]
          rw [← List.append_assoc, i1]
        · rcases hx with hx | hx
          · rw [← i2, hc.1] at hx; cases hx
          · have hx : s.running = false := hx
            rw [hc.2] at hx; cases hx
      next hc =>
        have hl : left s = [] := i3 (by
          cases h1 : s.sync with
          | true => exact .inl (by rw [← i2, h1])
          | false =>
            right
            rw [h1] at hc
            simpa using hc)
        refine ⟨?_, i2, fun _ => hl⟩
        change s.done ++ [n] ++ left s = s.arrived ++ [n]
        rw [← i1, hl]; simp
    · refine ⟨i1, i2, fun hx => ?_⟩
      rcases hx with hx | hx
      · exact i3 (.inl hx)
      · cases hx
    · exact absurd rfl hq
    · refine ⟨by rw [h3, h1]; exact i1, h2.trans i2, fun hx => ?_⟩
      rcases h4 with h4 | h4
      · have hl : left s = [] := i3 (by rw [h4] at hx; exact hx)
        exact h5 hl
      · simp [left, h4]

/-- A run with commands, also from inside a command, and a stop. -/
example : acts (fresh true false) [.arrive 1, .arrive 2, .drain, .arrive 3, .ret, .ret, .ret, .arrive 4, .stop, .ret, .arrive 5] =
    .ok ⟨false, false, none, [], [1, 2, 3, 4, 5], [1, 2, 3, 4, 5]⟩ := rfl

/-- **C97, the stop ends.** `StopModule` of a running module executes all waiting commands; when they end (and nothing else
happens meanwhile), the module is stopped and nothing waits.  The same for `ModuleWorking`, without the stop. -/
theorem C97_stop_ends (s : S) (hf : s.frames = []) :
    (s.running = true → acts s (.stop :: List.replicate (s.q.getD []).length .ret) =
      .ok { s with running := false, q := none, done := s.done ++ s.q.getD [] }) ∧
    acts s (.drain :: List.replicate (s.q.getD []).length .ret) = .ok { s with q := none, done := s.done ++ s.q.getD [] } := by
  have key : ∀ (l : List Nat) (t : S) (c : Cont), t.frames = [c] → t.q = some l →
      acts t (List.replicate (l.length + 1) .ret) =
        .ok { t with q := none, done := t.done ++ l, frames := [], running := (match c with | .work => t.running | .stop => false) } := by
    intro l
    induction l with
    | nil =>
      intro t c h1 h2
      cases c <;> simp [List.replicate, acts, act, turn, h1, h2]
    | cons n l ih =>
      intro t c h1 h2
      have e : act t .ret = .ok { t with q := some l, done := t.done ++ [n] } := by simp [act, turn, h1, h2]
      have := ih { t with q := some l, done := t.done ++ [n] } c h1 rfl
      rw [List.length_cons, List.replicate_succ, acts, e]
      dsimp only
      rw [this]
      simp
  have hd : ∀ c, drain s c = some (match s.q with
      | some (n :: l) => { s with q := some l, done := s.done ++ [n], frames := [c] }
      | _ => { s with q := none, running := (match c with | .work => s.running | .stop => false) }) := by
    intro c
    obtain ⟨r, y, q, f, a, d⟩ := s
    cases hf
    cases q with
    | none => cases c <;> rfl
    | some l => cases l with
      | nil => cases c <;> rfl
      | cons n l => cases c <;> rfl
  obtain ⟨r, y, q, f, a, d⟩ := s
  cases hf
  refine ⟨fun hr => ?_, ?_⟩
  · cases hr
    rw [acts, act, if_pos rfl, hd .stop]
    cases q with
    | none => simp [acts]
    | some l => cases l with
      | nil => simp [acts]
      | cons n l => exact (key l _ .stop rfl rfl).trans (by simp)
  · rw [acts, act, hd .work]
    cases q with
    | none => simp [acts]
    | some l => cases l with
      | nil => simp [acts]
      | cons n l => exact (key l _ .work rfl rfl).trans (by simp)

example : ∃ s, acts (fresh true false) [.arrive 1, .arrive 2] = .ok s ∧ s.frames = [] ∧ s.running = true ∧ s.q = some [1, 2] := ⟨_, rfl, rfl, rfl, rfl⟩

/-- Calls of `AsyncProcessCommands` are not nested: a command does not call `ModuleWorking`, and the module is not
stopped while commands are executed. -/
def Flat : S → List Act → Prop
  | _, [] => True
  | s, a :: as => ((a = .drain ∨ a = .stop) → s.frames = []) ∧ (match act s a with | .ok s => Flat s as | .error _ => True)

/-- **C97, no null pointer (partial).** Without nested calls of `AsyncProcessCommands` the program goes on. -/
theorem C97_safe_partial (running sync : Bool) (as : List Act) (hf : Flat (fresh running sync) as) : ∃ s, acts (fresh running sync) as = .ok s := by
  have key : ∀ (as : List Act) (s : S), (s.frames = [] ∨ ∃ c l, s.frames = [c] ∧ s.q = some l) → Flat s as → ∃ s', acts s as = .ok s' := by
    intro as
    induction as with
    | nil => intro s _ _; exact ⟨s, rfl⟩
    | cons a as ih =>
      intro s i hf
      obtain ⟨f1, f2⟩ := hf
      have hturn : ∀ (t : S) c l, t.frames = [c] → t.q = some l → ∃ t', turn t = some t' ∧ (t'.frames = [] ∨ ∃ c l, t'.frames = [c] ∧ t'.q = some l) := by
        intro t c l h1 h2
        unfold turn
        rw [h2]
        cases l with
        | nil =>
          dsimp only
          rw [h1]
          cases c
          · exact ⟨_, rfl, .inl rfl⟩
          · exact ⟨_, rfl, .inl rfl⟩
        | cons n l => exact ⟨_, rfl, .inr ⟨c, l, h1, rfl⟩⟩
      have hdrain : s.frames = [] → ∀ c, ∃ t', drain s c = some t' ∧ (t'.frames = [] ∨ ∃ c l, t'.frames = [c] ∧ t'.q = some l) := by
        intro h1 c
        unfold drain
        cases h2 : s.q with
        | none =>
          refine ⟨_, rfl, .inl ?_⟩
          cases c <;> exact h1
        | some l => exact hturn _ c l (by change c :: s.frames = [c]; rw [h1]) rfl
      obtain ⟨t, ht, i'⟩ : ∃ t, act s a = .ok t ∧ (t.frames = [] ∨ ∃ c l, t.frames = [c] ∧ t.q = some l) := by
        cases a with
        | arrive n =>
          refine ⟨_, rfl, ?_⟩
          unfold arrive
          dsimp only
          split
          · rcases i with i | ⟨c, l, h1, h2⟩
            · exact .inl i
            · exact .inr ⟨c, _, h1, rfl⟩
          · exact i
        | start => exact ⟨_, rfl, i⟩
        | autoStop => exact ⟨_, rfl, i⟩
        | drain =>
          obtain ⟨t, e, it⟩ := hdrain (f1 (.inl rfl)) .work
          exact ⟨t, by simp only [act, e], it⟩
        | stop =>
          by_cases hr : s.running = true
          · obtain ⟨t, e, it⟩ := hdrain (f1 (.inr rfl)) .stop
            exact ⟨t, by simp only [act, e, if_pos hr], it⟩
          · exact ⟨s, by simp only [act, if_neg hr], i⟩
        | ret =>
          rcases i with i | ⟨c, l, h1, h2⟩
          · exact ⟨s, by simp only [act, i], .inl i⟩
          · obtain ⟨t, e, it⟩ := hturn s c l h1 h2
            exact ⟨t, by simp only [act, h1, e], it⟩
      rw [ht] at f2
      obtain ⟨s', hs'⟩ := ih t i' f2
      exact ⟨s', by simp only [acts, ht]; exact hs'⟩
  exact key as _ (.inl rfl) hf

example : Flat (fresh true false) [.arrive 1, .drain, .arrive 2, .ret, .ret, .stop] := by
  refine ⟨?_, ?_, ?_, ?_, ?_, ?_, trivial⟩ <;> intro h <;> first | rfl | (rcases h with h | h <;> cases h)

/-- **C97 counterexample, null pointer.** A command processes events (a `Recv` with timeout, for example), and the module
is stopped meanwhile: the inner `AsyncProcessCommands` deletes the queue which the outer one uses.  For every command
and all commands which wait behind it. -/
theorem C97_null_counterexample (n : Nat) : acts (fresh true false) [.arrive n, .drain, .stop, .ret] = .error () := rfl

/-- **C97 counterexample, order.** A module which stops by itself does not execute the commands which wait; later commands
are executed before them. -/
theorem C97_order_counterexample (a b : Nat) :
    ∃ s, acts (fresh true false) [.arrive a, .autoStop, .arrive b] = .ok s ∧ s.arrived = [a, b] ∧ s.done = [b] ∧ s.q = some [a] := ⟨_, rfl, rfl, rfl, rfl⟩

/-- A stopped module does not execute the commands which wait, whatever arrives, until it is started or its
queue is processed. -/
theorem C97_waits_counterexample (a : Nat) (bs : List Nat) :
    ∃ s, acts (fresh true false) (.arrive a :: .autoStop :: bs.map .arrive) = .ok s ∧ s.done = bs ∧ s.q = some [a] := by
  have key : ∀ (bs : List Nat) (s : S), s.running = false → ∃ s', acts s (bs.map .arrive) = .ok s' ∧ s'.done = s.done ++ bs ∧ s'.q = s.q := by
    intro bs
    induction bs with
    | nil => intro s _; exact ⟨s, rfl, by simp, rfl⟩
    | cons b bs ih =>
      intro s hs
      have e : arrive s b = { s with arrived := s.arrived ++ [b], done := s.done ++ [b] } := by simp [arrive, hs]
      obtain ⟨s', h1, h2, h3⟩ := ih (arrive s b) (by rw [e]; exact hs)
      refine ⟨s', h1, ?_, ?_⟩
      · rw [h2, e]; simp
      · rw [h3, e]
  exact key bs ⟨false, false, some [a], [], [a], []⟩ rfl

end Verif.SyncCmd
