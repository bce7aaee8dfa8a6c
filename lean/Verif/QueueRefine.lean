import Verif.QueueLemmas
import Verif.Spec.Queue

/-! Refinement of the ideal queues by the ring (helper file). -/

namespace Verif.Queue
variable {α : Type} [DecidableEq α]

theorem step_bounded {q : Q α} {l} (h : Rep q l) {op o s} (hs : boundedStep (l, q.cap) op = some (o, s)) :
    ∃ q', step false q op = some (o, q') ∧ Rep q' s.1 ∧ q'.cap = s.2 := by
  have h1 := h.len
  cases op with
  | push v =>
    simp only [boundedStep, Option.some.injEq, Prod.mk.injEq] at hs
    obtain ⟨rfl, rfl⟩ := hs
    by_cases hr : q.size < q.cap
    · obtain ⟨q', e1, e2, e3⟩ := rep_push h false v (Or.inl hr)
      rw [if_pos (by omega)]
      exact ⟨q', by simp [step, e1], e2, by simpa [hr] using e3⟩
    · rw [if_neg (by omega)]
      exact ⟨q, by simp [step, rep_push_full v hr], h, rfl⟩
  | pop =>
    cases l with
    | nil => simp [boundedStep, fifoStep] at hs
    | cons a l =>
      simp only [boundedStep, fifoStep, Option.map_some, Option.some.injEq, Prod.mk.injEq] at hs
      obtain ⟨rfl, rfl⟩ := hs
      obtain ⟨q', e1, e2, e3⟩ := rep_pop h
      exact ⟨q', by simp [step, e1], e2, e3⟩
  | popOnly =>
    simp only [boundedStep, fifoStep, Option.map_some, Option.some.injEq, Prod.mk.injEq] at hs
    obtain ⟨rfl, rfl⟩ := hs
    refine ⟨_, rfl, by simpa using rep_popOnly h, ?_⟩
    simp only [Q.popOnly]; split <;> rfl
  | front =>
    cases l with
    | nil => simp [boundedStep, fifoStep] at hs
    | cons a l =>
      simp only [boundedStep, fifoStep, List.head?_cons, Option.map_some, Option.some.injEq, Prod.mk.injEq] at hs
      obtain ⟨rfl, rfl⟩ := hs
      exact ⟨q, by simp [step, Q.front, (rep_tail h).1], h, rfl⟩
  | back =>
    cases hl : l.getLast? with
    | none => simp [boundedStep, fifoStep, hl] at hs
    | some a =>
      simp only [boundedStep, fifoStep, hl, Option.map_some, Option.some.injEq, Prod.mk.injEq] at hs
      obtain ⟨rfl, rfl⟩ := hs
      have hne : l ≠ [] := by intro e; simp [e] at hl
      have hpos : 0 < l.length := List.length_pos_iff.mpr hne
      have : q.back = some a := by
        rw [Q.back, if_neg (by omega), rep_item h (by omega), ← h1, ← List.getLast?_eq_getElem?, hl]
      exact ⟨q, by simp [step, this], h, rfl⟩
  | item i =>
    cases hl : l[i]? with
    | none => simp [boundedStep, fifoStep, hl] at hs
    | some a =>
      simp only [boundedStep, fifoStep, hl, Option.map_some, Option.some.injEq, Prod.mk.injEq] at hs
      obtain ⟨rfl, rfl⟩ := hs
      have : q.item i = some a := by
        rw [rep_item h ((List.getElem?_eq_some_iff.mp hl).1), hl]
      exact ⟨q, by simp [step, this], h, rfl⟩
  | size =>
    simp only [boundedStep, fifoStep, Option.map_some, Option.some.injEq, Prod.mk.injEq] at hs
    obtain ⟨rfl, rfl⟩ := hs
    exact ⟨q, by simp [step, h1], h, rfl⟩
  | empty =>
    simp only [boundedStep, fifoStep, Option.map_some, Option.some.injEq, Prod.mk.injEq] at hs
    obtain ⟨rfl, rfl⟩ := hs
    refine ⟨q, ?_, h, rfl⟩
    simp only [step, ← h1]
    cases l <;> simp
  | full =>
    simp only [boundedStep, Option.some.injEq, Prod.mk.injEq] at hs
    obtain ⟨rfl, rfl⟩ := hs
    refine ⟨q, ?_, h, rfl⟩
    simp only [step, h1]
    have : (q.cap == q.size) = decide (q.size = q.cap) := by
      rw [Bool.eq_iff_iff, beq_iff_eq, decide_eq_true_iff]; exact eq_comm
    rw [this]
  | removeItem i =>
    simp only [boundedStep, fifoStep, Option.map_some, Option.some.injEq, Prod.mk.injEq] at hs
    obtain ⟨rfl, rfl⟩ := hs
    by_cases hi : i < l.length
    · obtain ⟨q', e1, e2, e3⟩ := rep_removeItem h hi
      exact ⟨q', by simp [step, e1, hi], e2, e3⟩
    · refine ⟨q, by simp [step, removeItem_out h hi, hi], ?_, rfl⟩
      rw [List.eraseIdx_of_length_le (by omega)]; exact h
  | remove v =>
    simp only [boundedStep, fifoStep, Option.map_some, Option.some.injEq, Prod.mk.injEq] at hs
    obtain ⟨rfl, rfl⟩ := hs
    obtain ⟨b, q', e1, e2, e3, _⟩ := rep_remove h v
    exact ⟨q', by simp [step, e1], e2, e3⟩
  | reset =>
    simp only [boundedStep, fifoStep, Option.map_some, Option.some.injEq, Prod.mk.injEq] at hs
    obtain ⟨rfl, rfl⟩ := hs
    exact ⟨_, rfl, rep_reset h, rfl⟩
  | expand n =>
    simp only [boundedStep, Option.some.injEq, Prod.mk.injEq] at hs
    obtain ⟨rfl, rfl⟩ := hs
    refine ⟨_, rfl, rep_expand h n, ?_⟩
    rw [expand_cap, Nat.mul_comm]
  | allocate n =>
    by_cases hn : n = 0
    · simp [boundedStep, hn] at hs
    · simp only [boundedStep, hn, if_false, Option.some.injEq, Prod.mk.injEq] at hs
      obtain ⟨rfl, rfl⟩ := hs
      exact ⟨_, rfl, rep_allocate q (by omega), allocate_cap q (by omega)⟩

theorem step_plain {q : Q α} {l} (h : Rep q l) {op o l'}
    (hs : Option.map (fun x : Out α × List α => (x.1, (x.2, q.cap))) (fifoStep l op) = some (o, (l', q.cap)))
    (he : boundedStep (l, q.cap) op = Option.map (fun x : Out α × List α => (x.1, (x.2, q.cap))) (fifoStep l op) ∧
      step true q op = step false q op) :
    ∃ q', step true q op = some (o, q') ∧ Rep q' l' := by
  obtain ⟨q', e1, e2, _⟩ := step_bounded h (he.1.trans hs)
  exact ⟨q', he.2.trans e1, e2⟩

theorem step_fifo {q : Q α} {l} (h : Rep q l) {op o l'} (hs : fifoStep l op = some (o, l')) :
    ∃ q', step true q op = some (o, q') ∧ Rep q' l' := by
  cases op with
  | push v =>
    simp only [fifoStep, Option.some.injEq, Prod.mk.injEq] at hs
    obtain ⟨rfl, rfl⟩ := hs
    obtain ⟨q', e1, e2, e3⟩ := rep_push h true v (Or.inr rfl)
    exact ⟨q', by simp [step, e1], e2⟩
  | full => simp [fifoStep] at hs
  | expand n =>
    simp only [fifoStep, Option.some.injEq, Prod.mk.injEq] at hs
    obtain ⟨rfl, rfl⟩ := hs
    exact ⟨_, rfl, rep_expand h n⟩
  | allocate n =>
    by_cases hn : n = 0
    · simp [fifoStep, hn] at hs
    · simp only [fifoStep, hn, if_false, Option.some.injEq, Prod.mk.injEq] at hs
      obtain ⟨rfl, rfl⟩ := hs
      exact ⟨_, rfl, rep_allocate q (by omega)⟩
  | pop | popOnly | front | back | item | size | empty | removeItem | remove | reset =>
    all_goals
      have hb := congrArg (Option.map (fun x : Out α × List α => (x.1, (x.2, q.cap)))) hs
      exact step_plain h hb ⟨rfl, rfl⟩

theorem run_fifo (ops : List (Op α)) : ∀ {q : Q α} {l outs l'}, Rep q l →
    specRun fifoStep l ops = some (outs, l') → ∃ q', run true q ops = some (outs, q') ∧ Rep q' l' := by
  induction ops with
  | nil =>
    intro q l outs l' h hs
    simp only [specRun, Option.some.injEq, Prod.mk.injEq] at hs
    obtain ⟨rfl, rfl⟩ := hs
    exact ⟨q, rfl, h⟩
  | cons op ops ih =>
    intro q l outs l' h hs
    simp only [specRun, Option.bind_eq_bind, Option.bind_eq_some_iff, Option.some.injEq] at hs
    obtain ⟨⟨o, l1⟩, hs1, ⟨os, l2⟩, hs2, hs3⟩ := hs
    simp only [Prod.mk.injEq] at hs3
    obtain ⟨rfl, rfl⟩ := hs3
    obtain ⟨q1, e1, e2⟩ := step_fifo h hs1
    obtain ⟨q2, e3, e4⟩ := ih e2 hs2
    exact ⟨q2, by simp [run, e1, e3], e4⟩

theorem run_bounded (ops : List (Op α)) : ∀ {q : Q α} {l outs s}, Rep q l →
    specRun boundedStep (l, q.cap) ops = some (outs, s) →
    ∃ q', run false q ops = some (outs, q') ∧ Rep q' s.1 ∧ q'.cap = s.2 := by
  induction ops with
  | nil =>
    intro q l outs s h hs
    simp only [specRun, Option.some.injEq, Prod.mk.injEq] at hs
    obtain ⟨rfl, rfl⟩ := hs
    exact ⟨q, rfl, h, rfl⟩
  | cons op ops ih =>
    intro q l outs s h hs
    simp only [specRun, Option.bind_eq_bind, Option.bind_eq_some_iff, Option.some.injEq] at hs
    obtain ⟨⟨o, l1, c1⟩, hs1, ⟨os, l2⟩, hs2, hs3⟩ := hs
    simp only [Prod.mk.injEq] at hs3
    obtain ⟨rfl, rfl⟩ := hs3
    obtain ⟨q1, e1, e2, e3⟩ := step_bounded h hs1
    obtain ⟨q2, e4, e5⟩ := ih e2 (by rw [e3]; exact hs2)
    exact ⟨q2, by simp [run, e1, e4], e5⟩

theorem step_rep {ce : Bool} {q : Q α} {l} (h : Rep q l) {op o q'} (hop : op ≠ Op.allocate 0)
    (hs : step ce q op = some (o, q')) : ∃ l', Rep q' l' := by
  cases op with
  | push v =>
    simp only [step, Option.bind_eq_bind, Option.bind_eq_some_iff, Option.some.injEq, Prod.mk.injEq] at hs
    obtain ⟨q1, e1, _, rfl⟩ := hs
    by_cases hr : q.size < q.cap ∨ ce = true
    · obtain ⟨q2, e2, e3, _⟩ := rep_push h ce v hr
      rw [e2] at e1; cases e1
      exact ⟨_, e3⟩
    · simp only [not_or, Bool.not_eq_true] at hr
      obtain ⟨hr1, rfl⟩ := hr
      rw [rep_push_full v hr1] at e1; cases e1
      exact ⟨_, h⟩
  | pop =>
    simp only [step, Option.bind_eq_bind, Option.bind_eq_some_iff, Option.some.injEq, Prod.mk.injEq] at hs
    obtain ⟨⟨v, q1⟩, e1, _, rfl⟩ := hs
    cases l with
    | nil =>
      have : q.size = 0 := by simpa using h.len.symm
      simp [Q.pop, this] at e1
    | cons a l =>
      obtain ⟨q2, e2, e3, _⟩ := rep_pop h
      rw [e2] at e1; cases e1
      exact ⟨_, e3⟩
  | popOnly =>
    simp only [step, Option.some.injEq, Prod.mk.injEq] at hs
    obtain ⟨_, rfl⟩ := hs
    exact ⟨_, rep_popOnly h⟩
  | removeItem i =>
    simp only [step, Option.bind_eq_bind, Option.bind_eq_some_iff, Option.some.injEq, Prod.mk.injEq] at hs
    obtain ⟨⟨v, q1⟩, e1, _, rfl⟩ := hs
    by_cases hi : i < l.length
    · obtain ⟨q2, e2, e3, _⟩ := rep_removeItem h hi
      rw [e2] at e1; cases e1
      exact ⟨_, e3⟩
    · rw [removeItem_out h hi] at e1; cases e1
      exact ⟨_, h⟩
  | remove v =>
    simp only [step, Option.bind_eq_bind, Option.bind_eq_some_iff, Option.some.injEq, Prod.mk.injEq] at hs
    obtain ⟨⟨b, q1⟩, e1, _, rfl⟩ := hs
    obtain ⟨b, q2, e2, e3, _⟩ := rep_remove h v
    rw [e2] at e1; cases e1
    exact ⟨_, e3⟩
  | reset =>
    simp only [step, Option.some.injEq, Prod.mk.injEq] at hs
    obtain ⟨_, rfl⟩ := hs
    exact ⟨_, rep_reset h⟩
  | expand n =>
    simp only [step, Option.some.injEq, Prod.mk.injEq] at hs
    obtain ⟨_, rfl⟩ := hs
    exact ⟨_, rep_expand h n⟩
  | allocate n =>
    simp only [step, Option.some.injEq, Prod.mk.injEq] at hs
    obtain ⟨_, rfl⟩ := hs
    have : n ≠ 0 := by intro e; exact hop (by rw [e])
    exact ⟨_, rep_allocate q (by omega)⟩
  | front | back | item i =>
    all_goals
      simp only [step, Option.bind_eq_bind, Option.bind_eq_some_iff, Option.some.injEq, Prod.mk.injEq] at hs
      obtain ⟨_, _, _, rfl⟩ := hs
      exact ⟨_, h⟩
  | size | empty | full =>
    all_goals
      simp only [step, Option.some.injEq, Prod.mk.injEq] at hs
      obtain ⟨_, rfl⟩ := hs
      exact ⟨_, h⟩

theorem run_rep {ce : Bool} (ops : List (Op α)) : ∀ {q : Q α} {l outs q'}, Rep q l →
    (∀ op ∈ ops, op ≠ Op.allocate 0) → run ce q ops = some (outs, q') → ∃ l', Rep q' l' := by
  induction ops with
  | nil =>
    intro q l outs q' h _ hs
    simp only [run, Option.some.injEq, Prod.mk.injEq] at hs
    exact ⟨l, hs.2 ▸ h⟩
  | cons op ops ih =>
    intro q l outs q' h hop hs
    simp only [run, Option.bind_eq_bind, Option.bind_eq_some_iff, Option.some.injEq] at hs
    obtain ⟨⟨o, q1⟩, hs1, ⟨os, q2⟩, hs2, hs3⟩ := hs
    simp only [Prod.mk.injEq] at hs3
    obtain ⟨rfl, rfl⟩ := hs3
    obtain ⟨l1, e1⟩ := step_rep h (hop op (by simp)) hs1
    exact ih e1 (fun op h => hop op (by simp [h])) hs2

theorem reachable_rep {ce : Bool} {q : Q α} (h : Reachable ce q) : ∃ l, Rep q l := by
  obtain ⟨cap, ops, outs, hop, hr⟩ := h
  exact run_rep ops rep_init hop hr

theorem Rep.content {q : Q α} {l} (h : Rep q l) : Content q l :=
  ⟨h.len.symm, fun _ hi => rep_item h hi⟩

theorem content_unique {q : Q α} {l l'} (h : Content q l) (h' : Content q l') : l = l' := by
  have hlen : l.length = l'.length := h.1.symm.trans h'.1
  apply List.ext_getElem?
  intro i
  by_cases hi : i < l.length
  · rw [← h.2 i hi, h'.2 i (by omega)]
  · rw [List.getElem?_eq_none (by omega), List.getElem?_eq_none (by omega)]

theorem reachable_content {ce : Bool} {q : Q α} (h : Reachable ce q) {l} (hc : Content q l) : Rep q l := by
  obtain ⟨l', hr⟩ := reachable_rep h
  rw [content_unique hc hr.content]; exact hr

theorem iterFrom_spec {q : Q α} (rest : List α) : ∀ {l : List α} (_ : Rep q l) (k : Nat) (fuel : Nat),
    k < l.length → l.drop k = rest → rest.length < fuel →
    q.iterFrom (if q.tail + k ≥ q.cap then (q.tail + k - q.cap, 1) else (q.tail + k, 0)) fuel = some rest := by
  induction rest with
  | nil => intro l h k fuel hk hd; simp at hd; omega
  | cons a rest ih =>
    intro l h k fuel hk hd hf
    have h1 := h.len; have h2 := h.le; have h3 := h.tl; have h4 := h.hd; have h5 := h.cells
    obtain ⟨fuel, rfl⟩ : ∃ f, fuel = f + 1 := ⟨fuel - 1, by omega⟩
    have hka : l[k]? = some a := by
      have : (l.drop k)[0]? = some a := by rw [hd]; rfl
      simpa using this
    have hrd : q.rd (if q.tail + k ≥ q.cap then (q.tail + k - q.cap, 1) else (q.tail + k, 0)).1 = some a := by
      rw [← hka, ← h5 k hk]
      have hat : q.at k < q.cap := by simp only [Q.at]; split <;> omega
      have : (if q.tail + k ≥ q.cap then (q.tail + k - q.cap, 1) else (q.tail + k, 0)).1 = q.at k := by
        simp only [Q.at]; split <;> rfl
      rw [this, Q.rd, if_pos hat]
    have hne : (if q.tail + k ≥ q.cap then (q.tail + k - q.cap, 1) else (q.tail + k, 0)) ≠ q.iterEnd := by
      simp only [Q.at] at h4
      simp only [Q.iterEnd]
      by_cases c1 : q.tail + q.size ≥ q.cap
      · rw [if_pos c1] at h4
        rw [if_neg (by omega : ¬ q.head > q.tail)]
        split <;> simp <;> omega
      · rw [if_neg c1] at h4
        rw [if_pos (by omega : q.head > q.tail), if_neg (by omega)]
        simp; omega
    have hnext : q.iterNext (if q.tail + k ≥ q.cap then (q.tail + k - q.cap, 1) else (q.tail + k, 0)) =
        (if q.tail + (k+1) ≥ q.cap then (q.tail + (k+1) - q.cap, 1) else (q.tail + (k+1), 0)) := by
      simp only [Q.iterNext]
      by_cases c1 : q.tail + k ≥ q.cap
      · rw [if_pos c1, if_neg (by simp; omega), if_pos (by omega)]
        simp; omega
      · rw [if_neg c1]
        by_cases c2 : q.tail + k + 1 = q.cap
        · rw [if_pos c2, if_pos (by omega)]; simp; omega
        · rw [if_neg c2, if_neg (by omega)]; simp; omega
    have hd' : l.drop (k+1) = rest := by
      rw [← List.drop_drop, hd]; rfl
    rw [Q.iterFrom, if_neg hne, hrd, hnext]
    by_cases hk' : k + 1 < l.length
    · have := ih h (k+1) fuel hk' hd' (by simp at hf; omega)
      rw [this]; rfl
    · have hnil : rest = [] := by rw [← hd']; exact List.drop_eq_nil_of_le (by omega)
      subst hnil
      obtain ⟨fuel, rfl⟩ : ∃ f, fuel = f + 1 := ⟨fuel - 1, by simp at hf; omega⟩
      have : (if q.tail + (k+1) ≥ q.cap then (q.tail + (k+1) - q.cap, 1) else (q.tail + (k+1), 0)) = q.iterEnd := by
        have : k + 1 = q.size := by omega
        rw [this]
        simp only [Q.at] at h4
        simp only [Q.iterEnd]
        by_cases c1 : q.tail + q.size ≥ q.cap
        · rw [if_pos c1] at h4 ⊢
          rw [if_neg (by omega : ¬ q.head > q.tail), h4]
        · rw [if_neg c1] at h4 ⊢
          rw [if_pos (by omega : q.head > q.tail), h4]
      rw [Q.iterFrom, if_pos this]; rfl

theorem run_fixed_cap : ∀ (ops : List (Op α)) (q0 q : Q α) (outs : List (Out α)) (l : List α), Rep q0 l →
    (∀ op ∈ ops, ∀ n, op ≠ Op.allocate n ∧ op ≠ Op.expand n) → run false q0 ops = some (outs, q) →
    q.cap = q0.cap := by
  intro ops
  induction ops with
  | nil => intro q0 q outs l _ _ hr; simp only [run, Option.some.injEq, Prod.mk.injEq] at hr; rw [hr.2]
  | cons op ops ih =>
    intro q0 q outs l h hop hr
    simp only [run, Option.bind_eq_bind, Option.bind_eq_some_iff, Option.some.injEq] at hr
    obtain ⟨⟨o, q1⟩, hs1, ⟨os, q2⟩, hs2, hs3⟩ := hr
    simp only [Prod.mk.injEq] at hs3
    obtain ⟨rfl, rfl⟩ := hs3
    obtain ⟨l1, hl1⟩ := step_rep h ((hop op (by simp) 0).1) hs1
    rw [ih q1 q2 os l1 hl1 (fun op h => hop op (by simp [h])) hs2]
    have hop' := hop op (by simp)
    cases op with
    | push v =>
      simp only [step, Option.bind_eq_bind, Option.bind_eq_some_iff, Option.some.injEq, Prod.mk.injEq] at hs1
      obtain ⟨q2, e2, _, rfl⟩ := hs1
      by_cases hr : q0.size < q0.cap
      · obtain ⟨q3, e3, _, e4⟩ := rep_push h false v (Or.inl hr)
        rw [e3] at e2; cases e2; simpa [hr] using e4
      · rw [rep_push_full v hr] at e2; cases e2; rfl
    | pop =>
      simp only [step, Q.pop] at hs1
      split at hs1
      · simp at hs1
      · simp only [Option.bind_eq_bind, Option.bind_eq_some_iff, Option.some.injEq, Prod.mk.injEq] at hs1
        obtain ⟨_, ⟨_, _, rfl⟩, _, rfl⟩ := hs1; rfl
    | popOnly =>
      simp only [step, Option.some.injEq, Prod.mk.injEq] at hs1
      obtain ⟨_, rfl⟩ := hs1
      simp only [Q.popOnly]; split <;> rfl
    | removeItem i =>
      simp only [step, Option.bind_eq_bind, Option.bind_eq_some_iff, Option.some.injEq, Prod.mk.injEq] at hs1
      obtain ⟨⟨v, q1⟩, e1, _, rfl⟩ := hs1
      by_cases hi : i < l.length
      · obtain ⟨q2, e2, _, e3⟩ := rep_removeItem h hi
        rw [e2] at e1; cases e1; exact e3
      · rw [removeItem_out h hi] at e1; cases e1; rfl
    | remove v =>
      simp only [step, Option.bind_eq_bind, Option.bind_eq_some_iff, Option.some.injEq, Prod.mk.injEq] at hs1
      obtain ⟨⟨b, q1⟩, e1, _, rfl⟩ := hs1
      obtain ⟨b, q2, e2, _, e3, _⟩ := rep_remove h v
      rw [e2] at e1; cases e1; exact e3
    | reset =>
      simp only [step, Option.some.injEq, Prod.mk.injEq] at hs1
      obtain ⟨_, rfl⟩ := hs1; rfl
    | expand n => exact absurd rfl (hop' n).2
    | allocate n => exact absurd rfl (hop' n).1
    | front | back | item i =>
      all_goals
        simp only [step, Option.bind_eq_bind, Option.bind_eq_some_iff, Option.some.injEq, Prod.mk.injEq] at hs1
        obtain ⟨_, _, _, rfl⟩ := hs1; rfl
    | size | empty | full =>
      all_goals
        simp only [step, Option.some.injEq, Prod.mk.injEq] at hs1
        obtain ⟨_, rfl⟩ := hs1; rfl

end Verif.Queue
