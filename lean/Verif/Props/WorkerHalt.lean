import Verif.WorkerHaltCalm

/-!
# C23: a worker is halted only when it is not in use
-/

namespace Verif.WorkerHalt

open Spec

theorem guarded_member {s : S} (h : Inv s) {w : Nat} {f : Frame} (hf : f ∈ s.stack) (hg : Guarded w f) : Member s w := by
  have hfo := h.frames f hf
  cases f with
  | event id v =>
    obtain rfl : v = w := hg
    obtain ⟨r, h1, h2⟩ := h.wid v (by rw [hfo.2]; exact hfo.1)
    exact ⟨r, List.mem_of_getElem? h1, h2⟩
  | guard id v =>
    obtain ⟨h0, rfl⟩ := hg
    obtain ⟨r, h1, h2⟩ := h.wid v (by rw [hfo.resolve_left h0]; exact h0)
    exact ⟨r, List.mem_of_getElem? h1, h2⟩
  | raw => exact hg.elim
  | fin => exact hg.elim

theorem member_get {s : S} {w : Nat} : Member s w ↔ ∃ (id : Nat) (r : Rec), s.recs[id]? = some r ∧ r.work = some w := by
  constructor
  · rintro ⟨r, hr, hw⟩
    obtain ⟨id, hid⟩ := List.getElem?_of_mem hr
    exact ⟨id, r, hid, hw⟩
  · rintro ⟨id, r, hr, hw⟩
    exact ⟨r, List.mem_of_getElem? hr, hw⟩

theorem member_set {s s' : S} {id : Nat} {r r' : Rec} (hr : s.recs[id]? = some r) (hw : r'.work = r.work)
    (hrecs : s'.recs = s.recs.set id r') {w : Nat} (h : Member s w) : Member s' w := by
  obtain ⟨j, q, h1, h2⟩ := member_get.1 h
  refine member_get.2 ?_
  by_cases hj : j = id
  · rw [hj, hr] at h1
    exact ⟨id, r', by rw [hrecs]; exact set_self hr, by rw [hw, Option.some.inj h1]; exact h2⟩
  · exact ⟨j, q, by rw [hrecs, set_other hj]; exact h1, h2⟩

theorem member_check {s : S} {w : Nat} (h : Member s w) (id : Nat) (a : Act) (cmd : Option Nat) :
    Member (s.check id a cmd) w ∧ (s.check id a cmd).destroyed = s.destroyed := by
  have hans : Member (s.answer cmd false) w ∧ (s.answer cmd false).destroyed = s.destroyed := by
    cases cmd with
    | none => exact ⟨h, rfl⟩
    | some c => exact ⟨h, rfl⟩
  unfold S.check
  cases hl : s.live id with
  | none => exact hans
  | some p =>
    obtain ⟨r, v⟩ := p
    obtain ⟨hr, hw⟩ := live_some.1 hl
    dsimp only
    split
    · exact hans
    · split
      · exact ⟨member_set hr (r' := { r.ask a with cmds := (r.ask a).cmds ++ cmd.toList }) (ask_work r a) rfl h, rfl⟩
      · exact ⟨member_set hr (r' := r.ask a) (ask_work r a) rfl h, rfl⟩

theorem member_own {s : S} {w : Nat} (h : Member s w) (f : S → S) (hf : ∀ s, Member s w → Member (f s) w) :
    Member (s.own f) w := by
  rcases own_cases s f with ⟨_, h2⟩ | ⟨_, h2⟩
  · rw [h2]; exact hf _ h
  · rw [h2]; exact h

theorem member_step {s : S} {w : Nat} (hinv : Inv s) (h : Member s w) (o : Op) :
    Member (step s o) w ∨ Asked s w := by
  cases o with
  | fire v =>
    refine Or.inl ?_
    unfold step
    dsimp only
    split <;> exact h
  | magic v =>
    refine Or.inl ?_
    unfold step
    dsimp only
    split <;> exact h
  | assign v =>
    refine Or.inl ?_
    unfold step
    dsimp only
    split <;> exact h
  | ask v a c =>
    refine Or.inl ?_
    unfold step
    dsimp only
    split <;> exact h
  | next =>
    unfold step
    dsimp only
    split
    · exact Or.inl h
    · rename_i id cmd hc
      obtain ⟨r, v, hr, hv, _, hd⟩ : ∃ r w, s.recs[id]? = some r ∧ r.work = some w ∧ r.recursion = 0 ∧ r.doing = true := by
        have := hinv.chk
        unfold ChkOk at this
        rw [hc] at this
        exact this
      by_cases hvw : v = w
      · rw [hvw] at hv
        exact Or.inr ⟨r, List.mem_of_getElem? hr, hv, by simpa [Rec.doing] using hd⟩
      · refine Or.inl (member_get.2 ?_)
        obtain ⟨j, q, h1, h2⟩ := member_get.1 h
        unfold S.remove
        rw [live_some.2 ⟨hr, hv⟩]
        refine ⟨j, q, ?_, h2⟩
        dsimp only
        rw [set_other]
        · exact h1
        · intro hj
          rw [hj, hr] at h1
          rw [← Option.some.inj h1, hv] at h2
          exact hvw (Option.some.inj h2)
    · exact Or.inl h
  | add k =>
    refine Or.inl (member_own h _ fun s h => ?_)
    split
    · exact h
    · obtain ⟨r, hr, hw⟩ := h
      exact ⟨r, List.mem_append_left _ hr, hw⟩
  | exec k =>
    refine Or.inl (member_own h _ fun s h => ?_)
    split
    · exact h
    · rename_i q _
      exact (member_check (s := { s with reqs := s.reqs.eraseIdx k, done := s.done ++ q.cmd.toList }) h _ _ _).1
  | event k =>
    refine Or.inl (member_own h _ fun s h => ?_)
    split
    · exact h
    · rename_i e _
      unfold S.begin
      split
      · exact h
      · split
        · exact h
        · rename_i r v hl
          obtain ⟨hr, hw⟩ := live_some.1 hl
          exact member_set (s := { s with queue := s.queue.eraseIdx k }) hr
            (r' := { r with processed := r.processed + 1, recursion := r.recursion + 1 }) rfl rfl h
  | guard v =>
    refine Or.inl (member_own h _ fun s h => ?_)
    unfold S.enter
    split
    · exact h
    · rename_i r u hl
      obtain ⟨hr, hw⟩ := live_some.1 hl
      exact member_set (s := s) hr (r' := { r with recursion := r.recursion + 1 }) rfl rfl h
  | raw id =>
    refine Or.inl (member_own h _ fun s h => ?_)
    split <;> exact h
  | pop =>
    refine Or.inl (member_own h _ fun s h => ?_)
    unfold S.pop
    split
    · exact h
    · rename_i id v t _
      unfold S.endEvent
      split
      · exact h
      · rename_i r hr
        have h' : Member { s with stack := t, recs := s.recs.set id { r with recursion := r.recursion - 1 } } w :=
          member_set (s := s) hr (r' := { r with recursion := r.recursion - 1 }) rfl rfl h
        dsimp only
        split
        · exact (member_check h' _ _ _).1
        · exact h'
    · rename_i id v t _
      unfold S.leave
      split
      · exact h
      · rename_i r u hl
        obtain ⟨hr, hw⟩ := live_some.1 hl
        have h' : Member { s with stack := t, recs := s.recs.set id { r with recursion := r.recursion - 1 } } w :=
          member_set (s := s) hr (r' := { r with recursion := r.recursion - 1 }) rfl rfl h
        dsimp only
        split
        · exact (member_check h' _ _ _).1
        · exact h'
    · exact h
    · exact h
  | wait => exact Or.inl (member_own h _ fun s h => h)
  | none =>
    refine Or.inl ?_
    unfold step
    dsimp only
    split
    · refine member_own h _ fun s h => ?_
      unfold S.none
      split
      · obtain ⟨j, q, h1, h2⟩ := member_get.1 h
        cases hrs : s.recs with
        | nil => rw [hrs] at h1; simp at h1
        | cons a t =>
          rw [hrs] at h1
          refine member_get.2 ⟨j, q, ?_, h2⟩
          cases j with
          | zero => exact h1
          | succ n =>
            simp only [List.getElem?_cons_succ] at h1 ⊢
            exact shrink_keep t n q h1 (by rw [h2]; simp)
      · exact h
    · exact h

/-- C23: in every execution, with any interleaving with other threads, a worker whose code is active below `ProcessEvent` or a
`RecursionGuard` is still one of the workers of the thread: it was not halted or destroyed below its own code. -/
theorem C23_stack_partial (l : List Op) (w : Nat) (f : Frame) (hf : f ∈ (run init l).stack) (hg : Guarded w f) :
    Member (run init l) w :=
  guarded_member (inv_run l) hf hg

/-- C23: a worker leaves the thread only after a request, and at this moment none of its code is active (except calls by
`CheckTimeouts`, see `C23_timeout_counterexample`). -/
theorem C23_halt_partial (l : List Op) (o : Op) (w : Nat) (h : Member (run init l) w)
    (h' : ¬ Member (run init (l ++ [o])) w) :
    Asked (run init l) w ∧ ∀ f ∈ (run init (l ++ [o])).stack, ¬ Guarded w f := by
  refine ⟨?_, fun f hf hg => h' (guarded_member (inv_run _) hf hg)⟩
  rw [run_snoc] at h'
  exact (member_step (inv_run l) h o).resolve_left h'

/-- C23: a worker which was asked to halt accepts no normal event. -/
theorem C23_refused (l : List Op) (w : Nat) (h : Asked (run init l) w) : run init (l ++ [.fire w]) = run init l := by
  obtain ⟨r, hr, hw, hd⟩ := h
  obtain ⟨id, hid⟩ := List.getElem?_of_mem hr
  have := ((inv_run l).recs id r hid).inactive w hw (by unfold Rec.doing; simpa using hd)
  rw [run_snoc]
  unfold step
  dsimp only
  rw [this]
  simp

/-- C23: an event is processed by the worker which fired it, also when ids are used again. -/
theorem C23_owner_partial (l : List Op) (hf : FitsRun init l) (e : Ev) (he : e ∈ (run init l).queue) (r : Rec) (w : Nat)
    (h0 : e.item ≠ 0) (hr : (run init l).recs[e.item]? = some r) (hw : r.work = some w) : e.own = w := by
  have hinv := inv_run l
  rcases (own_run l hf).items e he with h1 | h1 | ⟨q, h1, h2⟩
  · exact absurd h1 h0
  · obtain ⟨q, h2, h3⟩ := hinv.wid e.own (by rw [h1]; exact h0)
    rw [h1, hr] at h2
    rw [← Option.some.inj h2, hw] at h3
    exact (Option.some.inj h3).symm
  · rw [hr] at h1
    rw [← Option.some.inj h1, hw] at h2
    simp at h2

/-- C23: all events which are not processed belong to workers which are not halted, and the counters are exact: no event of a
halted worker is lost, if no command with magic priority comes while it is removed. -/
theorem C23_events_partial (l : List Op) (hf : FitsRun init l) (hc : CalmRun init l) :
    (∀ e ∈ (run init l).queue, Member (run init l) e.own) ∧
      ∀ r ∈ (run init l).recs, ∀ w, r.work = some w →
        ((run init l).ws w).fired = r.processed + ((run init l).queue.filter (·.own = w)).length := by
  have hinv := inv_run l
  have hq := q_run l hf hc
  refine ⟨?_, ?_⟩
  · intro e he
    obtain ⟨h1, h2⟩ := hq.items e he
    obtain ⟨r, h3, h4⟩ := hinv.wid e.own (by rw [h2]; exact h1)
    exact ⟨r, List.mem_of_getElem? h3, h4⟩
  · intro r hr w hw
    obtain ⟨id, hid⟩ := List.getElem?_of_mem hr
    rw [hq.count id r w hid hw]
    unfold evs
    rw [List.countP_eq_length_filter]
    congr 2

/-- C23: the thread does not forget a request: a worker which was asked to halt is still a member only as long as some of its
code is active, or one of its events is in the queue, or the thread is just removing it. -/
theorem C23_prompt_partial (l : List Op) (hf : FitsRun init l) (hc : CalmRun init l) (w : Nat) (h : Asked (run init l) w)
    (hi : (run init l).chk = .idle) :
    (∃ f ∈ (run init l).stack, Guarded w f) ∨ ∃ e ∈ (run init l).queue, e.own = w := by
  have hinv := inv_run l
  have hq := q_run l hf hc
  obtain ⟨r, hr, hw, hd⟩ := h
  obtain ⟨id, hid⟩ := List.getElem?_of_mem hr
  have h0 := id_ne_zero hinv hid hw
  rcases hq.prompt id r w hid hw (by unfold Rec.doing; simpa using hd) h0 with h1 | h1 | ⟨c, h1⟩
  · rw [(hinv.recs id r hid).recursion w hw] at h1
    have hpos : 0 < (run init l).stack.countP (isG id) := by
      unfold cnt at h1
      omega
    obtain ⟨f, hf, hg⟩ := List.countP_pos_iff.1 hpos
    refine Or.inl ⟨f, hf, ?_⟩
    have hfo := hinv.frames f hf
    have same : ∀ v, ((run init l).ws v).wid = id → v = w := by
      intro v hv
      obtain ⟨q, h2, h3⟩ := hinv.wid v (by rw [hv]; exact h0)
      rw [hv, hid] at h2
      rw [← Option.some.inj h2, hw] at h3
      exact (Option.some.inj h3).symm
    cases f with
    | event i v =>
      rw [isG_event] at hg
      have hg : i = id := by simpa using hg
      exact same v (hfo.2.trans hg)
    | guard i v =>
      rw [isG_guard] at hg
      have hg : i = id := by simpa using hg
      exact ⟨by rw [hg]; exact h0, same v ((hfo.resolve_left (by rw [hg]; exact h0)).trans hg)⟩
    | raw => simp [isG] at hg
    | fin => simp [isG] at hg
  · have hpos : 0 < evs w (run init l) := Nat.pos_of_ne_zero h1
    obtain ⟨e, he, hg⟩ := List.countP_pos_iff.1 hpos
    exact Or.inr ⟨e, he, by simpa using hg⟩
  · rw [hi] at h1; simp at h1

/-- C23: each command of an executed request was answered once or waits; when no halt is in progress, all are answered. -/
theorem C23_answered (l : List Op) (c : Nat) :
    (run init l).done.count c = ((run init l).answers.map (·.1)).count c + (waiting (run init l)).count c ∧
      ((∀ w, ¬ Asked (run init l) w) → (run init l).chk = .idle → (∀ f ∈ (run init l).stack, waitFrame f = []) →
        (run init l).done.count c = ((run init l).answers.map (·.1)).count c) := by
  have hb := bal_run c l
  refine ⟨hb, fun h1 h2 h3 => ?_⟩
  have hinv := inv_run l
  have : waiting (run init l) = [] := by
    unfold waiting waitRecs waitChk
    rw [h2]
    dsimp only
    rw [List.append_nil, List.append_eq_nil_iff]
    refine ⟨List.flatMap_eq_nil_iff.2 fun r hr => ?_, List.flatMap_eq_nil_iff.2 h3⟩
    obtain ⟨id, hid⟩ := List.getElem?_of_mem hr
    have hok := hinv.recs id r hid
    refine hok.idle ?_
    cases hw : r.work with
    | none => rw [hok.free hw]; rfl
    | some w =>
      cases hd : r.doing with
      | false => rfl
      | true => exact absurd ⟨r, hr, hw, by simpa [Rec.doing] using hd⟩ (h1 w)
  unfold Bal at hb
  rw [this] at hb
  simpa [ansCnt] using hb

/-! ## Examples: the hypotheses can be met -/

/-- Worker 1 fires an event, is asked by two callers to halt while the event is processed, and is halted afterwards. -/
def demo : List Op :=
  [.assign 1, .add 0, .fire 1, .ask 1 .halt (some 7), .ask 1 .destroy (some 8), .event 0, .exec 0, .exec 0]

instance (s : S) (w : Nat) : Decidable (Member s w) := inferInstanceAs (Decidable (∃ r ∈ s.recs, r.work = some w))
instance (s : S) (w : Nat) : Decidable (Asked s w) :=
  inferInstanceAs (Decidable (∃ r ∈ s.recs, r.work = some w ∧ (r.halt = true ∨ r.destroy = true)))
instance (w : Nat) (f : Frame) : Decidable (Guarded w f) := by cases f <;> unfold Guarded <;> infer_instance
instance (w : Nat) (f : Frame) : Decidable (Active w f) := by cases f <;> unfold Active <;> infer_instance
instance (s : S) : Decidable (Fits s) := inferInstanceAs (Decidable (_ ∧ _))
instance decFits (s : S) (l : List Op) : Decidable (FitsRun s l) :=
  match l with
  | [] => inferInstanceAs (Decidable (Fits s))
  | o :: t => @instDecidableAnd _ _ _ (decFits (step s o) t)
instance (s : S) (o : Op) : Decidable (Calm s o) := by cases o <;> unfold Calm <;> infer_instance
instance decCalm (s : S) (l : List Op) : Decidable (CalmRun s l) :=
  match l with
  | [] => inferInstanceAs (Decidable True)
  | o :: t => @instDecidableAnd _ _ _ (decCalm (step s o) t)

example : (∃ f ∈ (run init demo).stack, Guarded 1 f) ∧ Asked (run init demo) 1 := by decide +kernel
example : FitsRun init demo ∧ CalmRun init demo ∧ (run init demo).chk = .idle := by decide +kernel
example : Member (run init (demo ++ [.pop])) 1 ∧ ¬ Member (run init (demo ++ [.pop, .next])) 1 := by decide +kernel
example : (run init (demo ++ [.pop, .next, .next])).destroyed = [1] := by decide +kernel
example : (run init (demo ++ [.pop, .next, .next, .pop])).answers = [(7, true), (8, true)] := by decide +kernel
example : ∃ e ∈ (run init (demo.take 3)).queue, e.item = 2 ∧ e.own = 1 := by decide +kernel
example : (∀ w < 3, ¬ Asked (run init (demo ++ [.pop, .next, .next, .pop])) w) ∧
    (run init (demo ++ [.pop, .next, .next, .pop])).stack = [] := by decide +kernel

/-! ## Violations -/

/-- `CheckTimeouts` calls `ProcessTimeout` of worker 1 without any counter (lines 1295-1313); a request which is executed below
it (the worker detaches itself, or a nested event loop runs) removes and destroys the worker while its code is active. -/
theorem C23_timeout_counterexample : ∃ l, FitsRun init l ∧ CalmRun init l ∧ (∃ f ∈ (run init l).stack, Active 1 f) ∧
    ¬ Member (run init l) 1 ∧ (run init l).destroyed = [1] := by
  refine ⟨[.assign 1, .add 0, .raw 2, .ask 1 .destroy (some 7), .exec 0, .next, .next], ?_⟩
  decide +kernel

/-- The balance of events is checked under one lock and the worker is removed under another one.  A command with magic priority
which is submitted in between is accepted, but its event is not processed. -/
theorem C23_magic_counterexample : ∃ l, FitsRun init l ∧ (run init l).queue = [{ item := 2, own := 1 }] ∧
    ¬ Member (run init l) 1 ∧ (run init (l ++ [.event 0])).stack = (run init l).stack ∧
    (run init (l ++ [.event 0])).queue = [] := by
  refine ⟨[.assign 1, .add 0, .ask 1 .halt (some 7), .exec 0, .magic 1, .next, .next, .pop], ?_⟩
  decide +kernel

/-- Requests carry the id of the worker.  Two requests for worker 1 are on their way; after the first one the id is given to
worker 2, and the second one halts worker 2. -/
theorem C23_reuse_counterexample : ∃ l, FitsRun init l ∧ CalmRun init l ∧ (∀ o ∈ l, ∀ w a c, o = .ask w a c → w = 1) ∧
    Member (run init (l.take 13)) 2 ∧ ¬ Member (run init l) 2 := by
  refine ⟨[.assign 1, .add 0, .ask 1 .halt (some 7), .ask 1 .halt (some 8), .exec 0, .next, .next, .pop, .wait, .none,
    .assign 2, .add 0, .exec 0, .next], ?_, ?_, ?_, ?_, ?_⟩
  · decide +kernel
  · decide +kernel
  · intro o ho w a c h
    subst h
    simp at ho
    rcases ho with h | h <;> exact h.1
  · decide +kernel
  · decide +kernel

end Verif.WorkerHalt
