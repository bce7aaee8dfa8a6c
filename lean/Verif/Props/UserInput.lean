import Verif.Spec.UserInput
/-!
# C115: the user readout delivers what was read
-/

namespace Verif.UserInput

theorem put_zero (m d : List Byte) : put m 0 d = d ++ m.drop d.length := by simp [put]

theorem run_ind (c : Cfg) (P : St → Prop) (h : ∀ s i, P s → P (step c s i)) : ∀ is s, P s → P (run c s is) := by
  intro is
  induction is with
  | nil => intro s hs; exact hs
  | cons i is ih => intro s hs; exact ih _ (h s i hs)

/-- A readout which keeps to its size, for a trigger which was accepted: the event which is sent has the next number and as raw data just
the bytes of the readout; the trigger is reset once. -/
theorem C115_delivered (c : Cfg) (s : St) (i : Inp) (hs : s.phase = .init) (hl : i.large c) (hr : i.r.fair c) (ht : i.trig ≠ 0)
    (hok : i.r.code = .ok) (h2 : i.r.data.length % 2 = 0) :
    ∃ e, (step c s i).sent = s.sent ++ [e] ∧ e.num = s.count ∧ e.raw = i.r.data ∧ e.crate = c.crate % 256 ∧
      (step c s i).phase = .init ∧ (step c s i).count = s.count + 1 ∧ (step c s i).calls = s.calls ++ c.cycle := by
  obtain ⟨l1, l2⟩ := hl
  obtain ⟨r1, r2⟩ := hr
  have hno : ¬ (i.mem.length < 40 ∨ i.mem.length < 28 + c.size ∨ i.mem.length < 28 + i.r.data.length) := by omega
  refine ⟨mkEv c s.count i.mem i.trig i.r, ?_⟩
  have hraw : (mkEv c s.count i.mem i.trig i.r).raw = i.r.data := by
    simp only [mkEv, filled, put_zero]
    have : rawSize i.mem.length i.r.size = i.r.data.length := by unfold rawSize; omega
    rw [this, List.take_left']
    rfl
  refine ⟨?_, rfl, hraw, rfl, ?_, ?_, ?_⟩ <;>
    simp only [step, hs, finish, complete, if_neg ht, if_neg hno, hok, Cfg.cycle]

example : ∃ (c : Cfg) (i : Inp), i.large c ∧ i.r.fair c ∧ i.trig ≠ 0 ∧ i.r.code = .ok ∧ i.r.data.length % 2 = 0 ∧ i.r.data ≠ [] := by
  refine ⟨{}, ⟨List.replicate 64 0, 1, ⟨[1, 2, 3, 4], 4, .ok⟩⟩, ?_, ?_, ?_, rfl, ?_, ?_⟩
  · unfold Inp.large; decide
  · unfold Readout.fair; decide
  · decide
  · decide
  · decide

/-- Invariant: numbers of the events, and the calls are cycles and waits which timed out. -/
structure Inv (c : Cfg) (s : St) : Prop where
  nums : s.sent.map (·.num) = List.range s.sent.length
  count : s.count = s.sent.length
  resets : s.calls.count .reset = s.calls.count .readout
  hdr : ∀ e ∈ s.sent, e.trigger = 1 ∧ e.procid = c.control % 65536 ∧ e.control = c.procid % 256

theorem finish_inv (c : Cfg) (s : St) (m : List Byte) (i : Inp) (h : Inv c s) : Inv c (finish c s m i) := by
  obtain ⟨h1, h2, h3, h4⟩ := h
  unfold finish complete
  split
  · exact ⟨h1, h2, h3, h4⟩
  · rename_i code b n l heq
    split at heq
    · cases heq
      refine ⟨h1, h2, ?_, h4⟩
      simpa using h3
    · split at heq
      · cases heq
      · dsimp only at heq
        have hc : ∀ k, List.count Call.reset (s.calls ++ (if k = true then [Call.wait, .reset, .readout] else [Call.wait, .readout, .reset])) =
            List.count Call.readout (s.calls ++ (if k = true then [Call.wait, .reset, .readout] else [Call.wait, .readout, .reset])) := by
          intro k
          cases k <;> simp [h3]
        cases hcode : i.r.code with
        | ok =>
          rw [hcode] at heq
          cases heq
          refine ⟨?_, ?_, hc _, ?_⟩
          · simp only [List.map_append, h1, List.map_cons, List.map_nil, List.length_append, List.length_singleton, List.range_succ]
            simp [mkEv, h2]
          · simp [h2]
          · intro e he
            rcases List.mem_append.1 he with h | h
            · exact h4 e h
            · rw [List.mem_singleton] at h
              subst h
              exact ⟨rfl, rfl, rfl⟩
        | skip => rw [hcode] at heq; cases heq; exact ⟨h1, h2, hc _, h4⟩
        | timeout => rw [hcode] at heq; cases heq; exact ⟨h1, h2, hc _, h4⟩
        | error => rw [hcode] at heq; cases heq; exact ⟨h1, h2, hc _, h4⟩

theorem step_inv (c : Cfg) (s : St) (i : Inp) (h : Inv c s) : Inv c (step c s i) := by
  unfold step
  split
  · exact finish_inv c s _ i h
  · split
    · exact finish_inv c s _ i h
    · exact h
  · exact h
  · exact h

theorem reach_inv {c : Cfg} {s : St} (h : Reach c s) : Inv c s := by
  obtain ⟨is, rfl⟩ := h
  exact run_ind c (Inv c) (step_inv c) is {} ⟨rfl, rfl, rfl, by intro e he; cases he⟩

/-- Whatever triggers and readouts come: the events which were sent are numbered from 0, and the trigger was reset as often as it was read
out. -/
theorem C115_numbers (c : Cfg) (s : St) (h : Reach c s) :
    s.sent.map (·.num) = List.range s.sent.length ∧ s.calls.count .reset = s.calls.count .readout :=
  ⟨(reach_inv h).nums, (reach_inv h).resets⟩

example : ∃ s, Reach {} s ∧ s.sent.length = 2 ∧ s.calls = [.wait, .readout, .reset, .wait, .wait, .readout, .reset] := by
  refine ⟨_, ⟨[⟨List.replicate 64 0, 1, ⟨[1, 2], 2, .ok⟩⟩, ⟨List.replicate 64 0, 0, ⟨[], 0, .ok⟩⟩,
    ⟨[], 1, ⟨[1, 2], 2, .ok⟩⟩], rfl⟩, ?_, ?_⟩ <;> decide

/-- Calls made in one call of the transport: none, a wait without trigger, or one whole cycle; with the option `earlytrigclr` the trigger is
reset before the readout, else after it. -/
theorem C115_calls (c : Cfg) (s : St) (i : Inp) : ∃ l, (step c s i).calls = s.calls ++ l ∧
    (l = [] ∨ (i.trig = 0 ∧ l = [.wait]) ∨ (i.trig ≠ 0 ∧ l = c.cycle)) := by
  have hf : ∀ m, ∃ l, (finish c s m i).calls = s.calls ++ l ∧
      (l = [] ∨ (i.trig = 0 ∧ l = [.wait]) ∨ (i.trig ≠ 0 ∧ l = c.cycle)) := by
    intro m
    unfold finish complete
    split
    · exact ⟨[], by simp, Or.inl rfl⟩
    · rename_i code b n l heq
      split at heq
      · rename_i h0
        cases heq
        exact ⟨[.wait], rfl, Or.inr (Or.inl ⟨h0, rfl⟩)⟩
      · rename_i h0
        split at heq
        · cases heq
        · refine ⟨c.cycle, ?_, Or.inr (Or.inr ⟨h0, rfl⟩)⟩
          dsimp only at heq
          cases hcode : i.r.code <;> rw [hcode] at heq <;> cases heq <;> rfl
  unfold step
  split
  · exact hf _
  · split
    · exact hf _
    · exact ⟨[], by simp, Or.inl rfl⟩
  · exact ⟨[], by simp, Or.inl rfl⟩
  · exact ⟨[], by simp, Or.inl rfl⟩

/-- Without trigger the buffer is kept, and used when one comes: waiting changes nothing of what is sent later. -/
theorem C115_wait (c : Cfg) (s : St) (i j : Inp) (hs : s.phase = .init) (h0 : i.trig = 0) :
    (step c (step c s i) j).sent = (step c s { j with mem := i.mem }).sent ∧
    (step c (step c s i) j).phase = (step c s { j with mem := i.mem }).phase ∧
    (step c (step c s i) j).count = (step c s { j with mem := i.mem }).count := by
  have h1 : step c s i = { s with phase := .waiting, cur := .mem i.mem, calls := s.calls ++ [.wait] } := by
    simp [step, hs, finish, complete, h0]
  rw [h1]
  simp only [step, hs, finish]
  cases hc : complete c s.count i.mem j.trig j.r with
  | outside => exact ⟨rfl, rfl, rfl⟩
  | ret code b n l => cases code <;> exact ⟨rfl, rfl, rfl⟩

example : ({} : St).phase = .init := rfl

/-- A readout which is skipped leaves nothing but the calls: the next trigger is served as if it was the first one. -/
theorem C115_skip (c : Cfg) (s : St) (i : Inp) (hs : s.phase = .init) (hl : i.large c) (hr : i.r.data.length ≤ c.size)
    (ht : i.trig ≠ 0) (hc : i.r.code = .skip) :
    (step c s i).phase = .init ∧ (step c s i).sent = s.sent ∧ (step c s i).count = s.count ∧
      (step c s i).calls = s.calls ++ c.cycle := by
  obtain ⟨l1, l2⟩ := hl
  have hno : ¬ (i.mem.length < 40 ∨ i.mem.length < 28 + c.size ∨ i.mem.length < 28 + i.r.data.length) := by omega
  refine ⟨?_, ?_, ?_, ?_⟩ <;> simp only [step, hs, finish, complete, if_neg ht, if_neg hno, hc, Cfg.cycle]

example : ∃ i : Inp, i.large {} ∧ i.r.data.length ≤ ({} : Cfg).size ∧ i.trig ≠ 0 ∧ i.r.code = .skip :=
  ⟨⟨List.replicate 64 0, 1, ⟨[], 0, .skip⟩⟩, by unfold Inp.large; decide, by decide, by decide, rfl⟩

/-- Memory outside of the buffer is not used when the buffer is large enough and the readout keeps to its size. -/
theorem C115_inside (c : Cfg) (is : List Inp) (h : ∀ i ∈ is, i.large c ∧ i.r.data.length ≤ c.size) :
    (run c {} is).phase ≠ .broken := by
  have key : ∀ is s, (∀ i ∈ is, i.large c ∧ i.r.data.length ≤ c.size) → s.phase ≠ .broken →
      (∀ m, s.cur = .mem m → 40 ≤ m.length ∧ 28 + c.size ≤ m.length) → (run c s is).phase ≠ .broken := by
    intro is
    induction is with
    | nil => intro s _ hs _; exact hs
    | cons i is ih =>
      intro s hi hs hm
      have hii := hi i List.mem_cons_self
      have hf : ∀ m, 40 ≤ m.length ∧ 28 + c.size ≤ m.length → (finish c s m i).phase ≠ .broken ∧
          (∀ m', (finish c s m i).cur = .mem m' → 40 ≤ m'.length ∧ 28 + c.size ≤ m'.length) := by
        intro m hml
        unfold finish complete
        by_cases h0 : i.trig = 0
        · rw [if_pos h0]
          refine ⟨by simp, ?_⟩
          intro m' e
          simp only [Buf.mem.injEq] at e
          rw [← e]; exact hml
        · rw [if_neg h0, if_neg (by omega)]
          dsimp only
          cases i.r.code <;> exact ⟨by simp, by intro m' e; simp at e⟩
      have hstep : (step c s i).phase ≠ .broken ∧
          (∀ m', (step c s i).cur = .mem m' → 40 ≤ m'.length ∧ 28 + c.size ≤ m'.length) := by
        unfold step
        split
        · exact hf _ hii.1
        · split
          · rename_i m e; exact hf _ (hm m e)
          · exact ⟨hs, hm⟩
        · exact ⟨hs, hm⟩
        · exact ⟨hs, hm⟩
      exact ih _ (fun j hj => hi j (List.mem_cons_of_mem _ hj)) hstep.1 hstep.2
  exact key is {} h (by simp) (by intro m e; cases e)

example : ∃ i : Inp, i.large {} ∧ i.r.data.length ≤ ({} : Cfg).size :=
  ⟨⟨List.replicate 64 0, 1, ⟨[1, 2], 2, .ok⟩⟩, by unfold Inp.large; decide, by decide⟩

/-! ### Where the code does otherwise -/

/-- The type of the trigger is not in any event: every event has type 1. -/
theorem C115_trigger_counterexample (c : Cfg) (s : St) (h : Reach c s) : ∀ e ∈ s.sent, e.trigger = 1 :=
  fun e he => ((reach_inv h).hdr e he).1

/-- Instead it is seen in the raw data, where the readout wrote less than it said. -/
theorem C115_trigger_raw_counterexample : ∃ s e, Reach {} s ∧ e ∈ s.sent ∧ e.raw = [0, 0, 0, 0, 0, 0, 0, 0, 0, 0, 14, 0] := by
  refine ⟨_, ⟨0, 1, 0, 7, 1, [0, 0, 0, 0, 0, 0, 0, 0, 0, 0, 14, 0]⟩,
    ⟨[⟨List.replicate 64 0, 14, ⟨[], 12, .ok⟩⟩], rfl⟩, ?_, rfl⟩
  decide

/-- The options `procid` and `ctrlid` are exchanged in every event. -/
theorem C115_ids_counterexample (c : Cfg) (s : St) (h : Reach c s) :
    ∀ e ∈ s.sent, e.procid = c.control % 65536 ∧ e.control = c.procid % 256 :=
  fun e he => ((reach_inv h).hdr e he).2

example : ∃ s e, Reach {} s ∧ e ∈ s.sent := by
  refine ⟨_, ⟨0, 1, 0, 7, 1, [1, 2]⟩, ⟨[⟨List.replicate 64 0, 14, ⟨[1, 2], 2, .ok⟩⟩], rfl⟩, ?_⟩
  decide

/-- After a readout which returned the code for a timeout nothing is called and nothing is sent any more, whatever comes. -/
theorem C115_timeout_counterexample (c : Cfg) (s : St) (i : Inp) (hs : s.phase = .init) (hl : i.large c) (hr : i.r.data.length ≤ c.size)
    (ht : i.trig ≠ 0) (hc : i.r.code = .timeout) (is : List Inp) :
    (run c (step c s i) is).sent = s.sent ∧ (run c (step c s i) is).calls = s.calls ++ c.cycle ∧
      (run c (step c s i) is).phase = .waiting := by
  obtain ⟨l1, l2⟩ := hl
  have hno : ¬ (i.mem.length < 40 ∨ i.mem.length < 28 + c.size ∨ i.mem.length < 28 + i.r.data.length) := by omega
  have h1 : step c s i = { s with phase := .waiting, cur := .null, calls := s.calls ++ c.cycle } := by
    simp only [step, hs, finish, complete, if_neg ht, if_neg hno, hc, Cfg.cycle]
  have h2 : ∀ is, run c { s with phase := .waiting, cur := .null, calls := s.calls ++ c.cycle } is =
      { s with phase := .waiting, cur := .null, calls := s.calls ++ c.cycle } := by
    intro is
    induction is with
    | nil => rfl
    | cons j is ih => exact ih
  rw [h1, h2]
  exact ⟨rfl, rfl, rfl⟩

example : ∃ i : Inp, i.large {} ∧ i.r.data.length ≤ ({} : Cfg).size ∧ i.trig ≠ 0 ∧ i.r.code = .timeout :=
  ⟨⟨List.replicate 64 0, 1, ⟨[], 0, .timeout⟩⟩, by unfold Inp.large; decide, by decide, by decide, rfl⟩

/-! ### The readout which is built in -/

theorem builtinLoop_spec (c : Cfg) (vals : Nat → BitVec 32) : ∀ k sz,
    (builtinLoop c vals k sz).size = sz + (builtinLoop c vals k sz).data.length ∧
    ((builtinLoop c vals k sz).code = .ok ↔ k = 0 ∨ sz + 4 * (k - 1) < c.size) ∧
    ((builtinLoop c vals k sz).code ≠ .ok → (builtinLoop c vals k sz).code = .error) ∧
    ((builtinLoop c vals k sz).code = .ok → (builtinLoop c vals k sz).data.length = 4 * k) ∧
    (sz < c.size + 4 → sz + (builtinLoop c vals k sz).data.length < c.size + 4) ∧
    (builtinLoop c vals k sz).data.length % 4 = 0 := by
  intro k
  induction k with
  | zero => intro sz; simp [builtinLoop]
  | succ k ih =>
    intro sz
    unfold builtinLoop
    split
    · rename_i h
      refine ⟨by simp, ?_, by simp, by simp, by simp, by simp⟩
      constructor
      · intro h; cases h
      · intro h; omega
    · rename_i h
      dsimp only
      obtain ⟨i1, i2, i3, i4, i5, i6⟩ := ih (sz + 4)
      refine ⟨?_, ?_, i3, ?_, ?_, ?_⟩
      · rw [i1]; simp; omega
      · rw [i2]; omega
      · intro h; have := i4 h; simp; omega
      · intro h'
        have := i5 (by omega)
        simp; omega
      · simp; omega

/-- It works just when the option `size` is above 396 bytes, it then reads 400 bytes. -/
theorem C115_builtin (c : Cfg) (vals : Nat → BitVec 32) :
    ((builtin c vals).code = .ok ↔ 396 < c.size) ∧ ((builtin c vals).code = .ok → (builtin c vals).data.length = 400) ∧
    ((builtin c vals).code ≠ .ok → (builtin c vals).code = .error) ∧
    (builtin c vals).size = (builtin c vals).data.length ∧
    (c.size % 4 = 0 → (builtin c vals).data.length ≤ c.size) := by
  obtain ⟨h1, h2, h3, h4, h5, h6⟩ := builtinLoop_spec c vals 100 0
  unfold builtin
  refine ⟨by rw [h2]; omega, fun h => by rw [h4 h], h3, by rw [h1]; omega, fun h => ?_⟩
  have := h5 (by omega)
  omega

/-- So with the default options the first trigger closes the transport, and no event is ever sent. -/
theorem C115_default_counterexample (is : List Inp) (h : ∀ i ∈ is, ∃ vals, i.r = builtin {} vals) : (run {} {} is).sent = [] := by
  have key : ∀ (is : List Inp) (s : St), (∀ i ∈ is, i.r.code = .error) → s.sent = [] → (run {} s is).sent = [] := by
    intro is
    induction is with
    | nil => intro s _ hs; exact hs
    | cons i is ih =>
      intro s hi hs
      have hc := hi i List.mem_cons_self
      have hf : ∀ m, (finish {} s m i).sent = [] := by
        intro m
        unfold finish complete
        split
        · exact hs
        · rename_i code b n l heq
          split at heq
          · cases heq; exact hs
          · split at heq
            · cases heq
            · dsimp only at heq
              rw [hc] at heq
              cases heq; exact hs
      refine ih _ (fun j hj => hi j (List.mem_cons_of_mem _ hj)) ?_
      unfold step
      split
      · exact hf _
      · split
        · exact hf _
        · exact hs
      · exact hs
      · exact hs
  refine key is {} ?_ rfl
  intro i hi
  obtain ⟨vals, e⟩ := h i hi
  obtain ⟨b1, _, b3, _⟩ := C115_builtin {} vals
  rw [e]
  apply b3
  exact fun hk => absurd (b1.1 hk) (by decide)

example : ∃ i : Inp, ∃ vals, i.r = builtin {} vals := ⟨⟨[], 1, builtin {} (fun _ => 0)⟩, fun _ => 0, rfl⟩

/-- With a size which is not a multiple of four it may write more than this size. -/
theorem C115_builtin_size_counterexample (vals : Nat → BitVec 32) : ∃ c : Cfg, (builtin c vals).code = .ok ∧
    c.size < (builtin c vals).data.length := by
  refine ⟨{ size := 397 }, ?_, ?_⟩
  · rw [(C115_builtin _ vals).1]; decide
  · rw [(C115_builtin _ vals).2.1 ((C115_builtin _ vals).1.2 (by decide))]; decide

end Verif.UserInput
