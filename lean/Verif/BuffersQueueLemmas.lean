import Verif.Spec.BuffersQueue

namespace Verif.BuffersQueue
variable {β : Type}

theorem mod_lt2 {x c : Nat} (hx : x < 2 * c) : x % c = if x < c then x else x - c := by
  split
  · exact Nat.mod_eq_of_lt ‹_›
  · rw [Nat.mod_eq_sub_mod (by omega), Nat.mod_eq_of_lt (by omega)]

structure Rep (q : BQ β) (l : List (Option β)) : Prop where
  pos : 0 < q.cap
  len : l.length = q.size
  le : q.size ≤ q.cap
  fr : q.front < q.cap
  tl : q.tail = (q.front + q.size) % q.cap
  cells : ∀ k, k < l.length → some (q.vect ((q.front + k) % q.cap)) = l[k]?

theorem rep_create {n} (h : 0 < n) : Rep (BQ.create n : BQ β) [] := by
  constructor <;> simp [BQ.create, h]

theorem rep_push {q : BQ β} {l} (h : Rep q l) (b) (hr : l.length < q.cap) :
    ∃ q', q.push b = some (true, none, q') ∧ Rep q' (l ++ [b]) ∧ q'.cap = q.cap := by
  have h0 := h.pos; have h1 := h.len; have h2 := h.le; have h3 := h.fr; have h4 := h.tl; have h5 := h.cells
  rw [mod_lt2 (by omega)] at h4
  have ht : q.tail < q.cap := by rw [h4]; split <;> omega
  refine ⟨{ q with vect := fun i => if i = q.tail then b else q.vect i, size := q.size + 1, tail := (q.tail + 1) % q.cap }, by rw [BQ.push, if_neg (by omega), if_pos ht], ?_, rfl⟩
  constructor
  · exact h0
  · simp [h1]
  · show q.size + 1 ≤ q.cap; omega
  · exact h3
  · show (q.tail + 1) % q.cap = (q.front + (q.size + 1)) % q.cap
    rw [mod_lt2 (by omega), mod_lt2 (by omega), h4]
    repeat' split
    all_goals omega
  · intro k hk
    simp only [List.length_append, List.length_singleton] at hk
    show some (if (q.front + k) % q.cap = q.tail then b else q.vect ((q.front + k) % q.cap)) = _
    by_cases hk' : k < l.length
    · rw [List.getElem?_append_left hk', if_neg, h5 k hk']
      rw [mod_lt2 (by omega), h4]
      repeat' split
      all_goals omega
    · have : k = l.length := by omega
      subst this
      rw [if_pos]
      · simp
      · rw [mod_lt2 (by omega), h4, h1]

theorem rep_push_full {q : BQ β} {l} (h : Rep q l) (b) (hr : ¬ l.length < q.cap) :
    q.push b = some (false, b, q) := by
  have h1 := h.len; have h2 := h.le
  rw [BQ.push, if_pos (by omega)]

theorem rep_pop {q : BQ β} {a l} (h : Rep q (a :: l)) (b) :
    ∃ q', q.pop b = some (true, a, q') ∧ Rep q' l ∧ q'.cap = q.cap := by
  have h0 := h.pos; have h1 := h.len; have h2 := h.le; have h3 := h.fr; have h4 := h.tl; have h5 := h.cells
  simp only [List.length_cons] at h1 h5
  have ha : q.vect q.front = a := by
    have := h5 0 (by omega)
    rw [Nat.add_zero, Nat.mod_eq_of_lt h3] at this
    simpa using this
  refine ⟨{ q with vect := fun i => if i = q.front then none else q.vect i, size := q.size - 1, front := (q.front + 1) % q.cap }, by rw [BQ.pop, if_neg (by omega), if_pos h3, ha], ?_, rfl⟩
  constructor
  · exact h0
  · show l.length = q.size - 1; omega
  · show q.size - 1 ≤ q.cap; omega
  · exact Nat.mod_lt _ h0
  · show q.tail = ((q.front + 1) % q.cap + (q.size - 1)) % q.cap
    rw [h4, Nat.mod_add_mod]; congr 1; omega
  · intro k hk
    have := h5 (k + 1) (by omega)
    rw [List.getElem?_cons_succ] at this
    rw [← this]
    show some (if ((q.front + 1) % q.cap + k) % q.cap = q.front then none else q.vect (((q.front + 1) % q.cap + k) % q.cap)) = _
    rw [Nat.mod_add_mod, show q.front + 1 + k = q.front + (k + 1) by omega, if_neg]
    rw [mod_lt2 (by omega)]; split <;> omega

theorem rep_item {q : BQ β} {l} (h : Rep q l) {n} (hn : n < l.length) : q.item n = l[n]? := by
  have h0 := h.pos
  rw [BQ.item, if_neg (by omega), Nat.add_comm, h.cells n hn]

theorem rep_cleanup (fuel : Nat) : ∀ {q : BQ β} {l}, Rep q l → l.length < fuel →
    ∃ q', q.cleanup fuel = some q' ∧ Rep q' [] ∧ q'.cap = q.cap := by
  induction fuel with
  | zero => intro q l _ h; omega
  | succ fuel ih =>
    intro q l h hf
    have h1 := h.len
    cases l with
    | nil => 
      simp only [List.length_nil] at h1
      exact ⟨q, by simp [BQ.cleanup, ← h1], h, rfl⟩
    | cons a l =>
      simp only [List.length_cons] at h1 hf
      obtain ⟨q1, e1, e2, e3⟩ := rep_pop h none
      obtain ⟨q2, e4, e5, e6⟩ := ih e2 (by omega)
      refine ⟨q2, ?_, e5, e6.trans e3⟩
      rw [BQ.cleanup, if_pos (by omega), e1]; exact e4

theorem rep_cleanupM (fuel : Nat) : ∀ {q : BQ β} {l}, Rep q l → l.length < fuel →
    ∃ q', q.cleanupM fuel = some q' ∧ Rep q' ((l.dropWhile Option.isSome).drop 1) ∧ q'.cap = q.cap := by
  induction fuel with
  | zero => intro q l _ h; omega
  | succ fuel ih =>
    intro q l h hf
    have h1 := h.len
    cases l with
    | nil => 
      simp only [List.length_nil] at h1
      exact ⟨q, by simp [BQ.cleanupM, ← h1], by simpa using h, rfl⟩
    | cons a l =>
      simp only [List.length_cons] at h1 hf
      obtain ⟨q1, e1, e2, e3⟩ := rep_pop h none
      cases a with
      | none =>
        refine ⟨q1, ?_, by simpa using e2, e3⟩
        rw [BQ.cleanupM, if_pos (by omega), e1]; rfl
      | some x =>
        obtain ⟨q2, e4, e5, e6⟩ := ih e2 (by omega)
        refine ⟨q2, ?_, by simpa using e5, e6.trans e3⟩
        rw [BQ.cleanupM, if_pos (by omega), e1]; exact e4

theorem step_spec {q : BQ β} {l op o l'} (h : Rep q l) (hs : specStep q.cap l op = some (o, l')) :
    ∃ q', step q op = some (o, q') ∧ Rep q' l' ∧ q'.cap = q.cap := by
  have h1 := h.len
  cases op with
  | push b =>
    simp only [specStep] at hs
    by_cases hr : l.length < q.cap
    · rw [if_pos hr] at hs; cases hs
      obtain ⟨q', e1, e2, e3⟩ := rep_push h b hr
      exact ⟨q', by simp [step, e1], e2, e3⟩
    · rw [if_neg hr] at hs; cases hs
      exact ⟨q, by simp [step, rep_push_full h b hr], h, rfl⟩
  | pop =>
    cases l with
    | nil =>
      simp only [specStep] at hs; cases hs
      simp only [List.length_nil] at h1
      exact ⟨q, by simp [step, BQ.pop, ← h1], h, rfl⟩
    | cons a l =>
      simp only [specStep] at hs; cases hs
      obtain ⟨q', e1, e2, e3⟩ := rep_pop h none
      exact ⟨q', by simp [step, e1], e2, e3⟩
  | item n =>
    simp only [specStep, Option.map_eq_some_iff] at hs
    obtain ⟨b, hb, hs⟩ := hs
    cases hs
    have := rep_item h (List.getElem?_eq_some_iff.mp hb).1
    exact ⟨q, by simp [step, this, hb], h, rfl⟩
  | size =>
    simp only [specStep] at hs; cases hs
    exact ⟨q, by simp [step, h1], h, rfl⟩
  | cleanup =>
    simp only [specStep] at hs; cases hs
    obtain ⟨q', e1, e2, e3⟩ := rep_cleanup (q.size + 1) h (by omega)
    exact ⟨q', by simp [step, e1], e2, e3⟩
  | cleanupM =>
    simp only [specStep] at hs; cases hs
    obtain ⟨q', e1, e2, e3⟩ := rep_cleanupM (q.size + 1) h (by omega)
    exact ⟨q', by simp [step, e1], e2, e3⟩

theorem run_spec (ops : List (Op β)) : ∀ {q : BQ β} {l outs l'}, Rep q l →
    specRun q.cap l ops = some (outs, l') → ∃ q', run q ops = some (outs, q') ∧ Rep q' l' ∧ q'.cap = q.cap := by
  induction ops with
  | nil =>
    intro q l outs l' h hs
    simp only [specRun] at hs; cases hs
    exact ⟨q, rfl, h, rfl⟩
  | cons op ops ih =>
    intro q l outs l' h hs
    simp only [specRun, Option.bind_eq_bind, Option.bind_eq_some_iff] at hs
    obtain ⟨⟨o, l1⟩, hs1, ⟨os, l2⟩, hs2, hs3⟩ := hs
    cases hs3
    obtain ⟨q1, e1, e2, e3⟩ := step_spec h hs1
    obtain ⟨q2, e4, e5, e6⟩ := ih e2 (by rw [e3]; exact hs2)
    exact ⟨q2, by simp [run, e1, e4], e5, e6.trans e3⟩

end Verif.BuffersQueue
