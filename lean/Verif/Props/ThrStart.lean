import Verif.ThrStartOk

/-!
# C104: `Start` and `Stop` of a thread
-/

namespace Verif.ThrStart

/-- **C104.**  `Start` and `Stop` called one after the other from other threads, whatever takes how long and whatever
ends by timeout: never two threads of the operating system execute the object, no thread is joined twice, and no function
of pthread gets the handle of a joined thread. -/
theorem C104_one_thread (as : List Act) (s : S) (hq : Sequential as) (he : External as) (h : run init as = some s)
    (hk : s.killed = false) : AtMostOne s ∧ s.joins.Nodup ∧ s.ub = false := by
  rcases inv_of_run hq he h with h1 | ⟨hb, _⟩
  · rw [hk] at h1; cases h1
  · refine ⟨?_, hb.nd, hb.ub⟩
    intro i j o p hi hj ho hp
    have h1 := hb.one i o hi ho
    have h2 := hb.one j p hj hp
    rw [h1] at h2
    exact Option.some.inj h2

/-- Start, stop, start again. -/
def good : List Act :=
  [.start true, .make 0, .create 0, .takeConfirm 0 0, .answered 0, .startEnd 0,
   .stop none, .takeStop 0, .leave 0, .finish 0, .see 1, .join 1, .stopEnd 1,
   .start true, .make 2, .create 2, .takeConfirm 1 2, .answered 2, .startEnd 2]

theorem external_good : External good := by
  intro a ha
  simp only [good, List.mem_cons, List.not_mem_nil, or_false] at ha
  rcases ha with rfl | rfl | rfl | rfl | rfl | rfl | rfl | rfl | rfl | rfl | rfl | rfl | rfl | rfl | rfl | rfl | rfl | rfl | rfl <;>
    simp

theorem smooth_good : Smooth good := by
  intro a ha
  simp only [good, List.mem_cons, List.not_mem_nil, or_false] at ha
  rcases ha with rfl | rfl | rfl | rfl | rfl | rfl | rfl | rfl | rfl | rfl | rfl | rfl | rfl | rfl | rfl | rfl | rfl | rfl | rfl <;>
    simp

/-- A check of `Sequential` for a given list. -/
def seqCheck : S → List Act → Bool
  | _, [] => true
  | s, a :: as =>
    (match a with
      | .start _ | .stop _ => s.calls.all fun c => match c with | .done _ _ => true | _ => false
      | _ => true) &&
    (match step s a with
      | some t => seqCheck t as
      | none => true)

theorem seqCheck_sound (as : List Act) : ∀ s, seqCheck s as = true →
    ∀ p a q t, as = p ++ a :: q → ((∃ r, a = .start r) ∨ ∃ b, a = .stop b) → run s p = some t →
      ∀ c ∈ t.calls, Returned c := by
  induction as with
  | nil => intro s _ p a q t h; simp at h
  | cons b bs ih =>
    intro s hs p a q t he ha hr c hc
    simp only [seqCheck, Bool.and_eq_true] at hs
    cases p with
    | nil =>
      simp only [List.nil_append, List.cons.injEq] at he
      obtain ⟨rfl, rfl⟩ := he
      cases hr
      have h1 := hs.1
      rcases ha with ⟨r, rfl⟩ | ⟨r, rfl⟩
      all_goals
        simp only [List.all_eq_true] at h1
        have h2 := h1 c hc
        cases c <;> first | exact ⟨_, _, rfl⟩ | cases h2
    | cons b' p =>
      simp only [List.cons_append, List.cons.injEq] at he
      obtain ⟨rfl, rfl⟩ := he
      simp only [run] at hr
      cases hst : step s b with
      | none => rw [hst] at hr; cases hr
      | some u =>
        rw [hst] at hr
        have h2 := hs.2
        rw [hst] at h2
        exact ih u h2 p a q t rfl ha hr c hc

theorem sequential_of_check {as : List Act} (h : seqCheck init as = true) : Sequential as :=
  fun p a q s he ha hr => seqCheck_sound as init h p a q s he ha hr

example : Sequential good ∧ External good ∧ Smooth good ∧
    (run init good).map (fun s => (s.st, s.calls, s.os, s.joins, s.killed)) =
      some (.running, [.done true true, .done false true, .done true true], [⟨.gone, false⟩, ⟨.loop, false⟩], [0], false) :=
  ⟨sequential_of_check (by decide), external_good, smooth_good, by decide⟩

theorem set_old {l : List Pc} {k k' : Nat} {x y : Pc} (h : (l.set k' x)[k]? = some y) (hx : x ≠ y) :
    l[k]? = some y := by
  by_cases hk : k' = k
  · subst hk
    by_cases hl : k' < l.length
    · rw [List.getElem?_set_self hl] at h
      exact absurd (Option.some.inj h) hx
    · rw [List.getElem?_eq_none (by simp; omega)] at h
      cases h
  · rwa [List.getElem?_set_ne hk] at h

theorem snoc_old {l : List Pc} {k : Nat} {x y : Pc} (h : (l ++ [x])[k]? = some y) (hx : x ≠ y) : l[k]? = some y := by
  rw [List.getElem?_append] at h
  split at h
  · exact h
  · by_cases hk : k - l.length = 0
    · rw [hk] at h
      simp at h
      exact absurd h hx
    · rw [List.getElem?_eq_none (by simp; omega)] at h
      cases h

theorem kill_calls (s : S) : (kill s).calls = s.calls := by
  unfold kill
  split
  · rfl
  · split
    · rfl
    · split <;> rfl

theorem cancel_calls (s : S) : (cancel s).calls = s.calls := by
  unfold cancel
  split
  · rfl
  · split
    · rfl
    · split <;> rfl

/-- A call returns either at once, or after its last section. -/
theorem returned_by {s t : S} {a : Act} {k : Nat} {b r : Bool} (ht : step s a = some t)
    (hk : s.calls[k]? ≠ some (.done b r)) (hr : t.calls[k]? = some (.done b r)) :
    (∃ q, a = .start q ∧ t = enterStart s q) ∨ (∃ q, a = .stop q ∧ t = enterStop s q) ∨
      (a = .startEnd k ∧ b = true ∧ s.calls[k]? = some (.startEnd r) ∧
        t = { s with st := if r then .running else .error, calls := s.calls.set k (.done true r) }) ∨
      (a = .stopEnd k ∧ b = false ∧ s.calls[k]? = some (.stopEnd r) ∧ t = stopEnd s k r) := by
  unfold step at ht
  split at ht
  · cases ht
  · split at ht
    · rename_i hoc
      clear hoc
      cases a <;> simp only [stepCall] at ht <;> try (cases ht; done)
      case start real =>
        cases ht
        exact .inl ⟨_, rfl, rfl⟩
      case stop q =>
        cases q with
        | none => cases ht; exact .inr (.inl ⟨_, rfl, rfl⟩)
        | some i =>
          simp only at ht
          split at ht <;> cases ht
          exact .inr (.inl ⟨_, rfl, rfl⟩)
      case make j =>
        split at ht <;> cases ht
        rename_i kl _
        exfalso
        refine hk (set_old (x := .create) (k' := j) ?_ (by simp))
        unfold make at hr
        cases kl with
        | false => exact hr
        | true =>
          simp only [if_true] at hr
          rw [kill_calls] at hr
          exact hr
      case create j =>
        split at ht <;> cases ht
        exfalso
        unfold create at hr
        split at hr <;> exact hk (set_old hr (by simp))
      case answered j =>
        split at ht
        · split at ht <;> cases ht
          exact absurd (set_old hr (by simp)) hk
        · cases ht
      case unanswered j =>
        split at ht <;> cases ht
        exact absurd (set_old hr (by simp)) hk
      case startEnd j =>
        split at ht <;> cases ht
        rename_i res hj
        right; right; left
        change (s.calls.set j (.done true res))[k]? = _ at hr
        by_cases hjk : j = k
        · subst hjk
          by_cases he : Pc.done true res = .done b r
          · cases he
            exact ⟨rfl, rfl, hj, rfl⟩
          · exact absurd (set_old hr he) hk
        · rw [List.getElem?_set_ne hjk] at hr
          exact absurd hr hk
      case halt j =>
        split at ht <;> cases ht
        exact absurd (set_old hr (by simp)) hk
      case see j =>
        split at ht
        · split at ht <;> cases ht
          exact absurd (set_old hr (by simp)) hk
        · cases ht
      case cancel j =>
        split at ht <;> cases ht
        rw [cancel_calls] at hr
        exact absurd hr hk
      case timeout j =>
        split at ht <;> cases ht
        exact absurd (set_old hr (by simp)) hk
      case join j =>
        split at ht
        · exfalso
          unfold join at ht
          split at ht
          · cases ht
          · split at ht
            · cases ht
              exact hk (set_old hr (by simp))
            · split at ht <;> cases ht
              exact hk (set_old hr (by simp))
        · cases ht
      case stopEnd j =>
        split at ht <;> cases ht
        rename_i res hj
        right; right; right
        have hc : (stopEnd s j res).calls = s.calls.set j (.done false res) := by
          unfold stopEnd
          split <;> rfl
        rw [hc] at hr
        by_cases hjk : j = k
        · subst hjk
          by_cases he : Pc.done false res = .done b r
          · cases he
            exact ⟨rfl, rfl, hj, rfl⟩
          · exact absurd (set_old hr he) hk
        · rw [List.getElem?_set_ne hjk] at hr
          exact absurd hr hk
    · rename_i hoc
      clear hoc
      exfalso
      cases a <;> simp only [stepOs] at ht <;> try (cases ht; done)
      case takeStop i => split at ht <;> cases ht; exact hk hr
      case takeConfirm i k => split at ht <;> cases ht; exact hk hr
      case quit i => split at ht <;> cases ht; exact hk hr
      all_goals
        split at ht
        · split at ht <;> cases ht
          exact hk hr
        · cases ht

/-- **C104.**  When `Stop` returns `true`, no thread of the operating system executes the object any more - unless the
state was `stError` before, where `Stop` does nothing. -/
theorem C104_stop_partial (as : List Act) (a : Act) (s t : S) (k : Nat) (hq : Sequential (as ++ [a]))
    (he : External (as ++ [a])) (h : run init as = some s) (ht : step s a = some t)
    (hk : s.calls[k]? ≠ some (.done false true)) (hr : t.calls[k]? = some (.done false true)) :
    Silent t ∨ s.st = .error := by
  have hnk : s.killed = false := by
    cases hc : s.killed with
    | false => rfl
    | true => simp [step, hc] at ht
  rcases inv_of_run hq.init (fun b hb => he b (List.mem_append_left _ hb)) h with h1 | ⟨hb, hi⟩
  · rw [hnk] at h1; cases h1
  · rcases returned_by ht hk hr with ⟨q, rfl, rfl⟩ | ⟨b, rfl, rfl⟩ | ⟨_, h1, _⟩ | ⟨rfl, _, hp, rfl⟩
    · exfalso
      unfold enterStart at hr
      split at hr <;> exact hk (snoc_old hr (by simp))
    · have hall := hq as _ [] s rfl (.inr ⟨b, rfl⟩) h
      have hid : IdleF s := by
        rcases hi with hi | ⟨ds, c, hi⟩
        · exact hi
        · exact absurd (hall c (by rw [hi.eq]; simp)) hi.pc.notReturned
      unfold enterStop at hr ⊢
      cases hst : s.st with
      | created => left; exact hid.off (.inl hst)
      | stopped => left; exact hid.off (.inr hst)
      | error => exact .inr rfl
      | changing => exact absurd hst hid.nch
      | running =>
        exfalso
        rw [hst] at hr
        split at hr
        · cases ‹St.running = St.created›
        · split at hr <;> exact hk (snoc_old hr (by simp))
        all_goals simp_all
    · cases h1
    · left
      obtain ⟨ds, hd, rfl⟩ := busy_of hi hp (not_returned_stopEnd _)
      unfold stopEnd
      rw [if_pos hd.pc.1]
      exact hd.pc.2

/-- The last step of the first `Stop` of `good`. -/
example : (run init (good.take 12)).map (·.calls) = some [.done true true, .stopEnd true] ∧
    (run init (good.take 13)).map (fun s => (s.calls, s.os)) =
      some ([.done true true, .done false true], [⟨.gone, false⟩]) := by decide

/-- **C104.**  No call hangs: a call which has not returned can always go on by itself, `PosixThread::Join` included. -/
theorem C104_no_hang (as : List Act) (s : S) (k : Nat) (c : Pc) (hq : Sequential as) (he : External as)
    (h : run init as = some s) (hk : s.killed = false) (hc : s.calls[k]? = some c) (hn : ¬ Returned c) :
    ∃ a ∈ [Act.make k, .create k, .unanswered k, .startEnd k, .timeout k, .join k, .stopEnd k], step s a ≠ none := by
  rcases inv_of_run hq he h with h1 | ⟨hb, hi⟩
  · rw [hk] at h1; cases h1
  · cases c with
    | make b => exact ⟨.make k, by simp, by simp [step, hk, ofCall, stepCall, hc]⟩
    | create => exact ⟨.create k, by simp, by simp [step, hk, ofCall, stepCall, hc]⟩
    | wait => exact ⟨.unanswered k, by simp, by simp [step, hk, ofCall, stepCall, hc]⟩
    | startEnd b => exact ⟨.startEnd k, by simp, by simp [step, hk, ofCall, stepCall, hc]⟩
    | halt =>
      obtain ⟨ds, hd, rfl⟩ := busy_of hi hc not_returned_halt
      exact hd.pc.elim
    | poll => exact ⟨.timeout k, by simp, by simp [step, hk, ofCall, stepCall, hc]⟩
    | join =>
      refine ⟨.join k, by simp, ?_⟩
      obtain ⟨ds, hd, rfl⟩ := busy_of hi hc not_returned_join
      obtain ⟨hst, hs, g, hg, hgj⟩ := hd.pc
      have hga : alive s g = false := by
        unfold alive
        split
        · rename_i o ho
          simp [hs.of_alive ho]
        · rfl
      simp [step, hk, ofCall, stepCall, hc, join, hg, hgj, hga]
    | stopEnd b => exact ⟨.stopEnd k, by simp, by simp [step, hk, ofCall, stepCall, hc]⟩
    | done b r => exact absurd ⟨b, r, rfl⟩ hn

/-- The thread of the handle is in its main loop, the loop will go on, no stop event waits for it, and all other threads
of the operating system ended and were joined. -/
def Works (s : S) : Prop :=
  ∃ h, s.handle = some h ∧ s.os[h]? = some ⟨.loop, false⟩ ∧ s.working = true ∧ s.stops = 0 ∧
    ∀ (i : Nat) (o : Os), s.os[i]? = some o → i ≠ h → o.phase = .gone ∧ i ∈ s.joins

/-- No thread, nothing left over. -/
def Clean (s : S) : Prop := Silent s ∧ s.stops = 0 ∧ ∀ i, i < s.os.length → i ∈ s.joins

/-- **C104.**  When moreover nothing takes too long in `Stop` and the thread does not leave its main loop by itself, the
state tells the truth whenever no call is active: after `stRunning` (and after a `Start` whose confirmation came too
late) the thread works; before the first `Start` and after `Stop` there is no thread, all threads are joined and no stop
event waits for the next one. -/
theorem C104_state_partial (as : List Act) (s : S) (hq : Sequential as) (he : External as) (hs : Smooth as)
    (h : run init as = some s) (hk : s.killed = false) (hr : ∀ c ∈ s.calls, Returned c) :
    (s.st = .running ∨ s.st = .error → Works s) ∧ (s.st = .created ∨ s.st = .stopped → Clean s) ∧
      s.st ≠ .changing := by
  rcases k_of_run hq he hs h with h1 | h1
  · rw [hk] at h1; cases h1
  rcases inv_of_run hq he h with h2 | ⟨hb, _⟩
  · rw [hk] at h2; cases h2
  · have hi := h1.idle hr
    refine ⟨fun hst => ?_, fun hst => hi.off hst, hi.nch⟩
    obtain ⟨g, ht⟩ := hi.on hst
    refine ⟨g, ht.1, ht.2.1, ht.2.2.1, ht.2.2.2.1, ?_⟩
    intro i o ho hig
    have hlt : i < s.os.length := (List.getElem?_eq_some_iff.mp ho).1
    constructor
    · cases hp : o.phase with
      | gone => rfl
      | loop => exact absurd (T.one hb ht ho (by simp [hp])).1 hig
      | left => exact absurd (T.one hb ht ho (by simp [hp])).1 hig
    · cases Classical.em (i ∈ s.joins) with
      | inl h => exact h
      | inr h => exact absurd (ht.2.2.2.2 i hlt h) hig

/-- **C104.**  Under the same conditions: when `Start` returns `true`, the thread works. -/
theorem C104_start_partial (as : List Act) (a : Act) (s t : S) (k : Nat) (hq : Sequential (as ++ [a]))
    (he : External (as ++ [a])) (hs : Smooth (as ++ [a])) (h : run init as = some s) (ht : step s a = some t)
    (hk : s.calls[k]? ≠ some (.done true true)) (hr : t.calls[k]? = some (.done true true)) : Works t := by
  have hnk : s.killed = false := by
    cases hc : s.killed with
    | false => rfl
    | true => simp [step, hc] at ht
  have hrun : run init (as ++ [a]) = some t := by rw [run_append, h]; exact ht
  rcases inv_of_run hq.init (fun b hb => he b (List.mem_append_left _ hb)) h with h1 | ⟨hb, hi⟩
  · rw [hnk] at h1; cases h1
  · rcases returned_by ht hk hr with ⟨q, rfl, rfl⟩ | ⟨b, rfl, rfl⟩ | ⟨rfl, _, hp, rfl⟩ | ⟨_, h1, _⟩
    · have hall := hq as _ [] s rfl (.inl ⟨q, rfl⟩) h
      have hst : s.st = .running := by
        cases hst : s.st with
        | running => rfl
        | _ =>
          exfalso
          simp only [enterStart, hst] at hr
          exact hk (snoc_old hr (by simp))
      have e : enterStart s q = { s with calls := s.calls ++ [.done true true] } := by simp [enterStart, hst]
      rw [e] at hrun ⊢
      exact (C104_state_partial _ _ hq he hs hrun hnk (ret_snoc hall _ _)).1 (.inl hst)
    · exfalso
      unfold enterStop at hr
      split at hr
      · exact hk (snoc_old hr (by simp))
      · split at hr <;> exact hk (snoc_old hr (by simp))
      all_goals exact hk (snoc_old hr (by simp))
    · obtain ⟨ds, hd, rfl⟩ := busy_of hi hp (not_returned_startEnd _)
      refine (C104_state_partial _ _ hq he hs hrun hnk ?_).1 (.inl rfl)
      change ∀ c ∈ s.calls.set ds.length _, _
      rw [hd.set]
      exact ret_snoc hd.ret _ _
    · cases h1

/-- The last step of `good` is the return of the second `Start`. -/
example : (run init (good.take 18)).map (·.calls) = some [.done true true, .done false true, .startEnd true] := by decide

/-- What the answer to `ConfirmStart` rests on. -/
structure Conf (as : List Act) (s : S) : Prop where
  real : s.real = true
  took : ∀ k ∈ s.confirmed, ∃ i, Act.takeConfirm i k ∈ as
  ans : ∀ k : Nat, s.calls[k]? = some (.startEnd true) → k ∈ s.confirmed

theorem Conf.keep {as : List Act} {s t : S} {a : Act} (h : Conf as s) (hr : t.real = true)
    (hc : t.confirmed = s.confirmed)
    (ha : ∀ k : Nat, t.calls[k]? = some (.startEnd true) → s.calls[k]? = some (.startEnd true)) : Conf (as ++ [a]) t := by
  refine ⟨hr, ?_, ?_⟩
  · intro k hk
    rw [hc] at hk
    obtain ⟨i, hi⟩ := h.took k hk
    exact ⟨i, List.mem_append_left _ hi⟩
  · intro k hk
    rw [hc]
    exact h.ans k (ha k hk)

theorem Conf.step {as : List Act} {s t : S} {a : Act} (h : Conf as s) (hx : a ≠ .start false)
    (ht : ThrStart.step s a = some t) : Conf (as ++ [a]) t := by
  unfold ThrStart.step at ht
  split at ht
  · cases ht
  · split at ht
    · rename_i hoc
      clear hoc
      cases a <;> simp only [stepCall] at ht <;> try (cases ht; done)
      case start real =>
        cases ht
        have hr : real = true := by cases real; exact absurd rfl hx; rfl
        subst hr
        unfold enterStart
        split
        · exact h.keep rfl rfl fun k hk => snoc_old hk (by simp)
        · exact h.keep rfl rfl fun k hk => snoc_old hk (by simp)
        · exact h.keep h.real rfl fun k hk => snoc_old hk (by simp)
        · exact h.keep rfl rfl fun k hk => snoc_old hk (by simp)
        · exact h.keep h.real rfl fun k hk => snoc_old hk (by simp)
      case stop q =>
        have e : t = enterStop s q := by
          cases q with
          | none => cases ht; rfl
          | some i =>
            simp only at ht
            split at ht <;> cases ht
            rfl
        subst e
        unfold enterStop
        split
        · exact h.keep h.real rfl fun k hk => snoc_old hk (by simp)
        · split
          · exact h.keep h.real rfl fun k hk => snoc_old hk (by simp)
          · exact h.keep h.real rfl fun k hk => snoc_old hk (by simp)
        · exact h.keep h.real rfl fun k hk => snoc_old hk (by simp)
        · exact h.keep h.real rfl fun k hk => snoc_old hk (by simp)
        · exact h.keep h.real rfl fun k hk => snoc_old hk (by simp)
      case make j =>
        split at ht <;> cases ht
        rename_i kl _
        have h1 : (kill s).real = s.real ∧ (kill s).confirmed = s.confirmed := by
          unfold kill
          split
          · exact ⟨rfl, rfl⟩
          · split
            · exact ⟨rfl, rfl⟩
            · split <;> exact ⟨rfl, rfl⟩
        unfold make
        cases kl with
        | false => exact h.keep h.real rfl fun k hk => set_old hk (by simp)
        | true =>
          refine h.keep (h1.1.trans h.real) h1.2 fun k hk => ?_
          have hk' : ((kill s).calls.set j .create)[k]? = some (.startEnd true) := hk
          rw [kill_calls] at hk'
          exact set_old hk' (by simp)
      case create j =>
        split at ht <;> cases ht
        let u : S := { s with os := s.os ++ [⟨.loop, false⟩], handle := some s.os.length,
                              confirms := s.confirms ++ [j], calls := s.calls.set j .wait }
        have e : create s j = u := by simp [create, h.real, u]
        rw [e]
        exact h.keep h.real rfl fun k hk => set_old hk (by simp)
      case answered j =>
        split at ht
        · split at ht <;> cases ht
          rename_i hj
          refine ⟨h.real, ?_, ?_⟩
          · intro k hk
            obtain ⟨i, hi⟩ := h.took k hk
            exact ⟨i, List.mem_append_left _ hi⟩
          · intro k hk
            by_cases hjk : j = k
            · subst hjk; exact hj
            · change (s.calls.set j _)[k]? = _ at hk
              rw [List.getElem?_set_ne hjk] at hk
              exact h.ans k hk
        · cases ht
      case unanswered j =>
        split at ht <;> cases ht
        exact h.keep h.real rfl fun k hk => set_old hk (by simp)
      case startEnd j =>
        split at ht <;> cases ht
        exact h.keep h.real rfl fun k hk => set_old hk (by simp)
      case halt j =>
        split at ht <;> cases ht
        exact h.keep h.real rfl fun k hk => set_old hk (by simp)
      case see j =>
        split at ht
        · split at ht <;> cases ht
          exact h.keep h.real rfl fun k hk => set_old hk (by simp)
        · cases ht
      case cancel j =>
        split at ht <;> cases ht
        have h1 : (cancel s).real = s.real ∧ (cancel s).confirmed = s.confirmed := by
          unfold cancel
          split
          · exact ⟨rfl, rfl⟩
          · split
            · exact ⟨rfl, rfl⟩
            · split <;> exact ⟨rfl, rfl⟩
        exact h.keep (h1.1.trans h.real) h1.2 fun k hk => by rwa [cancel_calls] at hk
      case timeout j =>
        split at ht <;> cases ht
        exact h.keep h.real rfl fun k hk => set_old hk (by simp)
      case join j =>
        split at ht
        · unfold join at ht
          split at ht
          · cases ht
          · split at ht
            · cases ht
              exact h.keep h.real rfl fun k hk => set_old hk (by simp)
            · split at ht <;> cases ht
              exact h.keep h.real rfl fun k hk => set_old hk (by simp)
        · cases ht
      case stopEnd j =>
        split at ht <;> cases ht
        unfold stopEnd
        split
        · exact h.keep h.real rfl fun k hk => set_old hk (by simp)
        · exact h.keep h.real rfl fun k hk => set_old hk (by simp)
    · rename_i hoc
      clear hoc
      cases a <;> simp only [stepOs] at ht <;> try (cases ht; done)
      case takeStop i => split at ht <;> cases ht; exact h.keep h.real rfl fun k hk => hk
      case takeConfirm i j =>
        split at ht <;> cases ht
        refine ⟨h.real, ?_, ?_⟩
        · intro k hk
          rcases List.mem_append.mp hk with h1 | h1
          · obtain ⟨i', hi⟩ := h.took k h1
            exact ⟨i', List.mem_append_left _ hi⟩
          · simp at h1
            subst h1
            exact ⟨i, by simp⟩
        · intro k hk
          exact List.mem_append_left _ (h.ans k hk)
      case quit i => split at ht <;> cases ht; exact h.keep h.real rfl fun k hk => hk
      all_goals
        split at ht
        · split at ht <;> cases ht
          exact h.keep h.real rfl fun k hk => hk
        · cases ht

theorem conf_of_run {as : List Act} : ∀ {s : S}, External as → run init as = some s → Conf as s := by
  induction h : as.length generalizing as with
  | zero =>
    intro s _ hr
    have : as = [] := List.length_eq_zero_iff.mp h
    subst this
    cases hr
    exact ⟨rfl, by simp [init], by simp [init]⟩
  | succ n ih =>
    intro s he hr
    have hne : as ≠ [] := by intro h1; subst h1; simp at h
    have hsp : as = as.dropLast ++ [as.getLast hne] := (List.dropLast_concat_getLast hne).symm
    rw [hsp] at he hr ⊢
    rw [run_append] at hr
    cases hp : run init as.dropLast with
    | none => rw [hp] at hr; cases hr
    | some t =>
      rw [hp] at hr
      exact (ih (by simp [h]) (fun a ha => he a (List.mem_append_left _ ha)) hp).step
        (he (as.getLast hne) (by simp)).1 hr

/-- **C104.**  Even with calls at the same time: `Start` returns `true` only if the state was `stRunning`, or a thread of
the operating system executed the command `ConfirmStart` of this call. -/
theorem C104_confirmed (as : List Act) (a : Act) (s t : S) (k : Nat) (he : External (as ++ [a]))
    (h : run init as = some s) (ht : step s a = some t)
    (hk : s.calls[k]? ≠ some (.done true true)) (hr : t.calls[k]? = some (.done true true)) :
    (∃ q, a = .start q ∧ s.st = .running) ∨ ∃ i, Act.takeConfirm i k ∈ as := by
  have hc := conf_of_run (fun b hb => he b (List.mem_append_left _ hb)) h
  rcases returned_by ht hk hr with ⟨q, rfl, rfl⟩ | ⟨b, rfl, rfl⟩ | ⟨rfl, _, hp, rfl⟩ | ⟨_, h1, _⟩
  · refine .inl ⟨q, rfl, ?_⟩
    cases hst : s.st with
    | running => rfl
    | _ =>
      exfalso
      simp only [enterStart, hst] at hr
      exact hk (snoc_old hr (by simp))
  · exfalso
    unfold enterStop at hr
    split at hr
    · exact hk (snoc_old hr (by simp))
    · split at hr <;> exact hk (snoc_old hr (by simp))
    all_goals exact hk (snoc_old hr (by simp))
  · exact .inr (hc.took k (hc.ans k hp))
  · cases h1

/-- **C104, what fails**: `Start` waits too long for its confirmation (`stError`); then `Stop` returns `true`, but the
thread works on. -/
theorem C104_stop_counterexample :
    ∃ as s, Sequential as ∧ External as ∧ Smooth as ∧ run init as = some s ∧
      s.calls = [.done true false, .done false true] ∧ Works s := by
  refine ⟨[.start true, .make 0, .create 0, .unanswered 0, .startEnd 0, .stop none], _,
    sequential_of_check (by decide), ?_, ?_, rfl, rfl, ⟨0, rfl, rfl, rfl, rfl, ?_⟩⟩
  · intro a ha
    simp only [List.mem_cons, List.not_mem_nil, or_false] at ha
    rcases ha with rfl | rfl | rfl | rfl | rfl | rfl <;> simp
  · intro a ha
    simp only [List.mem_cons, List.not_mem_nil, or_false] at ha
    rcases ha with rfl | rfl | rfl | rfl | rfl | rfl <;> simp
  · intro i o ho hi
    cases i with
    | zero => exact absurd rfl hi
    | succ i => cases ho

/-- **C104, what fails**: a further `Start` in this state kills the process. -/
theorem C104_restart_counterexample :
    ∃ as s, Sequential as ∧ External as ∧ Smooth as ∧ run init as = some s ∧ s.killed = true := by
  refine ⟨[.start true, .make 0, .create 0, .unanswered 0, .startEnd 0, .start true, .make 1], _,
    sequential_of_check (by decide), ?_, ?_, rfl, rfl⟩
  · intro a ha
    simp only [List.mem_cons, List.not_mem_nil, or_false] at ha
    rcases ha with rfl | rfl | rfl | rfl | rfl | rfl | rfl <;> simp
  · intro a ha
    simp only [List.mem_cons, List.not_mem_nil, or_false] at ha
    rcases ha with rfl | rfl | rfl | rfl | rfl | rfl | rfl <;> simp

/-- **C104, what fails**: `Stop` cancels the thread before it takes the stop event, and returns `true`; the event stays in
the queue, the next `Start` creates a thread which takes it and ends, and `Start` returns `false`. -/
theorem C104_stale_counterexample :
    ∃ as s, Sequential as ∧ External as ∧ run init as = some s ∧
      s.calls = [.done true true, .done false true, .done true false] ∧ s.st = .error ∧ Silent s := by
  refine ⟨[.start true, .make 0, .create 0, .takeConfirm 0 0, .answered 0, .startEnd 0,
    .stop none, .cancel 1, .die 0, .finish 0, .see 1, .join 1, .stopEnd 1,
    .start true, .make 2, .create 2, .takeStop 1, .leave 1, .finish 1, .unanswered 2, .startEnd 2], _,
    sequential_of_check (by decide), ?_, rfl, rfl, rfl, ?_⟩
  · intro a ha
    simp only [List.mem_cons, List.not_mem_nil, or_false] at ha
    rcases ha with rfl | rfl | rfl | rfl | rfl | rfl | rfl | rfl | rfl | rfl | rfl | rfl | rfl | rfl | rfl | rfl | rfl |
      rfl | rfl | rfl | rfl <;> simp
  · unfold Silent; decide

/-- **C104, what fails**: the thread calls `Stop` for itself; when it is started again before it leaves its main loop, it
goes on, and two threads execute the main loop. -/
theorem C104_self_counterexample :
    ∃ as s, Sequential as ∧ run init as = some s ∧ s.os = [⟨.loop, false⟩, ⟨.loop, false⟩] ∧ s.working = true ∧
      s.stops = 0 ∧ s.calls = [.done true true, .done false true, .done true true] :=
  ⟨[.start true, .make 0, .create 0, .takeConfirm 0 0, .answered 0, .startEnd 0,
    .stop (some 0), .halt 1, .stopEnd 1, .start true, .make 2, .create 2, .takeConfirm 1 2, .answered 2, .startEnd 2], _,
    sequential_of_check (by decide), rfl, rfl, rfl, rfl, rfl⟩

/-- **C104, what fails**: with calls at the same time.  `Stop` has seen that the thread ended; before it calls
`PosixThread::Join`, another call starts the thread again, and `Stop` waits for the end of the new thread, which nobody
asked to stop. -/
theorem C104_join_counterexample :
    ∃ as s, External as ∧ Smooth as ∧ run init as = some s ∧ s.calls = [.done true true, .join, .done true true] ∧
      s.handle = some 1 ∧ s.os = [⟨.gone, false⟩, ⟨.loop, false⟩] ∧ s.working = true ∧ s.stops = 0 ∧
      step s (.join 1) = none := by
  refine ⟨[.start true, .make 0, .create 0, .takeConfirm 0 0, .answered 0, .startEnd 0, .stop none, .takeStop 0, .leave 0,
    .finish 0, .see 1, .start true, .make 2, .create 2, .takeConfirm 1 2, .answered 2, .startEnd 2], _, ?_, ?_, rfl, rfl,
    rfl, rfl, rfl, rfl, rfl⟩
  · intro a ha
    simp only [List.mem_cons, List.not_mem_nil, or_false] at ha
    rcases ha with rfl | rfl | rfl | rfl | rfl | rfl | rfl | rfl | rfl | rfl | rfl | rfl | rfl | rfl | rfl | rfl | rfl <;>
      simp
  · intro a ha
    simp only [List.mem_cons, List.not_mem_nil, or_false] at ha
    rcases ha with rfl | rfl | rfl | rfl | rfl | rfl | rfl | rfl | rfl | rfl | rfl | rfl | rfl | rfl | rfl | rfl | rfl <;>
      simp

/-- **C104, what fails**: with calls at the same time.  `Stop` ends by timeout just when the thread has ended and a second
call starts it again; `Stop` declares the state `stError` on the way, so that a third call may start it too: two threads
execute the main loop. -/
theorem C104_two_threads_counterexample :
    ∃ as s, External as ∧ run init as = some s ∧
      s.os = [⟨.gone, false⟩, ⟨.loop, false⟩, ⟨.loop, false⟩] ∧ s.working = true ∧ s.killed = false ∧ s.ub = false := by
  refine ⟨[.start true, .make 0, .create 0, .takeConfirm 0 0, .answered 0, .startEnd 0, .stop none, .takeStop 0, .leave 0,
    .finish 0, .start true, .timeout 1, .stopEnd 1, .start true, .make 2, .make 3, .create 2, .create 3], _, ?_, rfl, rfl,
    rfl, rfl, rfl⟩
  intro a ha
  simp only [List.mem_cons, List.not_mem_nil, or_false] at ha
  rcases ha with rfl | rfl | rfl | rfl | rfl | rfl | rfl | rfl | rfl | rfl | rfl | rfl | rfl | rfl | rfl | rfl | rfl |
    rfl <;> simp

end Verif.ThrStart
