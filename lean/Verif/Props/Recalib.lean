import Verif.Spec.Recalib
/-! # C123: recalibration sends every buffer once, in order, with its events transformed -/

namespace Verif.Recalib
open Verif.Bytes

theorem results_len {t : Event → Nat → List Byte} : ∀ {room : Nat} {l rs : List Event},
    Results t room l rs → rs.flatten.length ≤ room := by
  intro room l rs h
  induction h with
  | nil => simp
  | cons _ _ hl _ ih => simp only [List.flatten_cons, List.length_append]; omega

theorem transform_spec {t : Event → Nat → List Byte} : ∀ (l : List Event) {room : Nat}
    {rs : List Event}, transformAll t room l = some rs →
    ∃ done lost, l = done ++ lost ∧ Results t room done rs ∧
      ∀ e k, lost = e :: k → t e (room - rs.flatten.length) = []
  | [], room, rs, h => by
    simp only [transformAll, Option.some.injEq] at h
    subst h
    exact ⟨[], [], rfl, .nil, fun e k h => by cases h⟩
  | e :: l, room, rs, h => by
    simp only [transformAll] at h
    split at h
    · rename_i he
      cases h
      refine ⟨[], e :: l, rfl, .nil, fun e' k hk => ?_⟩
      cases hk
      simpa using he
    · rename_i he
      split at h
      · cases h
      · rename_i hr
        obtain ⟨rs', h1, rfl⟩ := Option.map_eq_some_iff.mp h
        obtain ⟨done, lost, e1, e2, e3⟩ := transform_spec l h1
        refine ⟨e :: done, lost, by rw [e1]; rfl, .cons rfl he (by omega) e2, fun e' k hk => ?_⟩
        have := e3 e' k hk
        rw [Nat.sub_sub] at this
        simpa using this

theorem transform_total {t : Event → Nat → List Byte} (hf : ∀ e room, (t e room).length ≤ room) :
    ∀ (l : List Event) (room : Nat), ∃ rs, transformAll t room l = some rs
  | [], _ => ⟨[], rfl⟩
  | e :: l, room => by
    obtain ⟨rs, h⟩ := transform_total hf l (room - (t e room).length)
    simp only [transformAll]
    split
    · exact ⟨[], rfl⟩
    · rw [if_neg (by have := hf e room; omega), h]
      exact ⟨_, rfl⟩

theorem convert_spec {c : Conf} {b : Buf} {o : Option Buf} (h : convert c b = some o) :
    ∃ lost, Sends c b o lost := by
  cases b with
  | other t d =>
    cases h
    exact ⟨[], .other⟩
  | events l =>
    simp only [convert] at h
    split at h
    · rename_i hr
      cases h
      exact ⟨[], .inPlace hr⟩
    · rename_i hr
      have hr : c.replace = false := by simpa using hr
      obtain ⟨rs, h1, h2⟩ := Option.map_eq_some_iff.mp h
      obtain ⟨done, lost, e1, e2, e3⟩ := transform_spec l h1
      split at h2
      · rename_i h0
        subst h0
        subst h2
        cases e2
        subst e1
        exact ⟨_, .nothing hr (by simpa using e3)⟩
      · rename_i h0
        subst h2
        subst e1
        exact ⟨lost, .copied hr e2 e3 h0⟩

theorem sends_append {c : Conf} {l l' : List Buf} (h : SendsAll c l l') {b : Buf} {o : Option Buf}
    {lost : List Event} (hb : Sends c b o lost) : SendsAll c (l ++ [b]) (l' ++ o.toList) := by
  induction h with
  | nil =>
    cases o with
    | none => exact .none hb .nil
    | some b' => exact .some hb .nil
  | some h1 _ ih => exact .some h1 ih
  | none h1 _ ih => exact .none h1 ih

/-- Relation of the state with what arrived. -/
def Inv (c : Conf) (s : State) (arr : List Buf) : Prop :=
  ∃ taken, arr = taken ++ s.inp ∧ SendsAll c taken s.sent

theorem call_inv {c : Conf} {s s' : State} {arr : List Buf} {x y b : Bool} (h : Inv c s arr)
    (hc : retransmit c x y s = .ok s' b) : Inv c s' arr := by
  obtain ⟨taken, h1, h2⟩ := h
  unfold retransmit at hc
  split at hc
  · cases hc
    exact ⟨taken, h1, h2⟩
  · rename_i q l hq
    rw [hq] at h1
    split at hc
    · cases hc
      exact ⟨taken, by rw [hq]; exact h1, h2⟩
    · split at hc
      · cases hc
        exact ⟨taken, by rw [hq]; exact h1, h2⟩
      · split at hc
        · cases hc
        · rename_i e
          cases hc
          obtain ⟨lost, hs⟩ := convert_spec e
          refine ⟨taken ++ [q], by simpa using h1, ?_⟩
          simpa using sends_append h2 hs
        · rename_i e
          cases hc
          obtain ⟨lost, hs⟩ := convert_spec e
          refine ⟨taken ++ [q], by simpa using h1, ?_⟩
          simpa using sends_append h2 hs

theorem run_inv {c : Conf} : ∀ (ops : List Op) {s s' : State} {arr : List Buf}, Inv c s arr →
    run c s ops = some s' → Inv c s' (arr ++ arrived ops)
  | [], s, s', arr, h, hr => by
    cases hr
    simpa [arrived] using h
  | o :: ops, s, s', arr, h, hr => by
    obtain ⟨s1, h1, h2⟩ := Option.bind_eq_some_iff.mp hr
    cases o with
    | arrive b =>
      cases h1
      obtain ⟨taken, e1, e2⟩ := h
      have hi : Inv c { s with inp := s.inp ++ [b] } (arr ++ [b]) :=
        ⟨taken, by simp [e1], e2⟩
      have := run_inv ops hi h2
      simpa [arrived] using this
    | call x y =>
      simp only [step] at h1
      split at h1
      · rename_i e
        cases h1
        exact run_inv ops (call_inv h e) h2
      · cases h1

/-- At any time the sent buffers are those for the first buffers which arrived, in order and each
at most once; all others still wait in the input queue. -/
theorem C123_in_order {c : Conf} {ops : List Op} {s : State} (h : run c ⟨[], []⟩ ops = some s) :
    ∃ taken, arrived ops = taken ++ s.inp ∧ SendsAll c taken s.sent := by
  have := run_inv ops (arr := []) ⟨[], rfl, .nil⟩ h
  simpa [Inv] using this

/-- In place every buffer goes out with all its events. -/
theorem C123_in_place {c : Conf} (hr : c.replace = true) {ops : List Op} {s : State}
    (h : run c ⟨[], []⟩ ops = some s) :
    (s.sent ++ (s.inp.map fun | .events l => .events (l.map c.inPlace) | b => b))
      = (arrived ops).map fun | .events l => .events (l.map c.inPlace) | b => b := by
  obtain ⟨taken, e, hs⟩ := C123_in_order h
  rw [e, List.map_append]
  congr 1
  clear e h
  generalize s.sent = out at hs
  induction hs with
  | nil => rfl
  | some h1 _ ih =>
    rw [List.map_cons, ← ih]
    congr 1
    cases h1 with
    | other => rfl
    | inPlace _ => rfl
    | copied h0 => rw [hr] at h0; cases h0
  | none h1 _ ih =>
    cases h1 with
    | nothing h0 => rw [hr] at h0; cases h0

/-- With enough room no event is lost: if every event can be transformed with the room left by the
events before it, its buffer is sent with all results. -/
theorem C123_complete {c : Conf} (hr : c.replace = false) {l rs : List Event}
    (h : Results c.transform c.cap l rs) (hl : l ≠ []) {q : List Buf} {out : List Buf} :
    retransmit c true true ⟨.events l :: q, out⟩ = .ok ⟨q, out ++ [.events rs]⟩ true := by
  have key : ∀ {room l rs}, Results c.transform room l rs →
      transformAll c.transform room l = some rs := by
    intro room l rs h
    induction h with
    | nil => rfl
    | cons h1 h2 h3 _ ih =>
      subst h1
      simp only [transformAll]
      rw [if_neg h2, if_neg (by omega), ih]
      rfl
  have hne : rs ≠ [] := by
    cases h with
    | nil => exact absurd rfl hl
    | cons => simp
  simp [retransmit, convert, hr, key h, hne]

/-- Nothing is done while there is no input, or an output or the pool is not ready. -/
theorem C123_waits (c : Conf) (s : State) {x y : Bool}
    (h : s.inp = [] ∨ x = false ∨ (c.replace = false ∧ y = false)) :
    retransmit c x y s = .ok s false := by
  unfold retransmit
  split
  · rfl
  · rename_i hq
    rcases h with h | h | ⟨h1, h2⟩
    · rw [hq] at h; cases h
    · simp [h]
    · simp [h1, h2]

/-- When outputs and, if needed, the pool are ready, the first buffer is taken; the module asks to
be called again exactly when it took a buffer. -/
theorem C123_progress {c : Conf} (hf : Fits c) {b : Buf} {q out : List Buf} {y : Bool}
    (h : c.replace = true ∨ y = true) :
    ∃ o lost, Sends c b o lost ∧
      retransmit c true y ⟨b :: q, out⟩ = .ok ⟨q, out ++ o.toList⟩ true := by
  have : ∃ o, convert c b = some o := by
    cases b with
    | other t d => exact ⟨_, rfl⟩
    | events l =>
      simp only [convert]
      split
      · exact ⟨_, rfl⟩
      · obtain ⟨rs, hrs⟩ := transform_total hf l c.cap
        rw [hrs]
        exact ⟨_, rfl⟩
  obtain ⟨o, ho⟩ := this
  obtain ⟨lost, hs⟩ := convert_spec ho
  refine ⟨o, lost, hs, ?_⟩
  have h' : (!c.replace && !y) = false := by rcases h with h | h <;> simp [h]
  cases o <;> simp [retransmit, h', ho]

/-- The process ends only if a transformation writes behind the end of the buffer. -/
theorem C123_alive {c : Conf} (hf : Fits c) : ∀ (ops : List Op) (s : State), ∃ s', run c s ops = some s'
  | [], s => ⟨s, rfl⟩
  | .arrive b :: ops, s => C123_alive hf ops _
  | .call x y :: ops, s => by
    have : ∃ s1, step c s (.call x y) = some s1 := by
      simp only [step]
      by_cases h : x = true ∧ (c.replace = true ∨ y = true)
      · obtain ⟨inp, out⟩ := s
        cases inp with
        | nil => exact ⟨_, rfl⟩
        | cons b q =>
          obtain ⟨o, lost, -, e⟩ := C123_progress hf (b := b) (q := q) (out := out) h.2
          rw [h.1, e]
          exact ⟨_, rfl⟩
      · rw [C123_waits c s (x := x) (y := y)]
        · exact ⟨_, rfl⟩
        · right
          cases x <;> cases y <;> cases hr : c.replace <;> simp_all
    obtain ⟨s1, h1⟩ := this
    obtain ⟨s2, h2⟩ := C123_alive hf ops s1
    exact ⟨s2, by simp [run, h1, h2]⟩

/-- What is sent is never larger than a buffer of the pool. -/
theorem C123_size {c : Conf} (hr : c.replace = false) {l rs : List Event} {lost : List Event}
    (h : Sends c (.events l) (some (.events rs)) lost) : rs.flatten.length ≤ c.cap := by
  cases h with
  | inPlace h0 => rw [hr] at h0; cases h0
  | copied _ h1 => exact results_len h1

/-! ## Examples and deviations -/

/-- Copies events which fit. -/
def exConf : Conf := ⟨false, 3, id, fun e room => if e.length ≤ room then e else []⟩

theorem ex_fits : Fits exConf := by
  intro e room
  show (if e.length ≤ room then e else []).length ≤ room
  split
  · assumption
  · simp

/-- Events behind the first one for which there is no room are lost, also those which would fit. -/
theorem C123_lost_counterexample :
    retransmit exConf true true ⟨[.events [[1, 2], [3, 4], [5]]], []⟩
      = .ok ⟨[], [.events [[1, 2]]]⟩ true := by
  rfl

/-- If this is the first event, nothing at all is sent for the buffer. -/
theorem C123_dropped_counterexample :
    retransmit exConf true true ⟨[.events [[1, 2, 3, 4], [5]]], []⟩ = .ok ⟨[], []⟩ true := by
  rfl

example : Results exConf.transform exConf.cap [[1, 2], [3]] [[1, 2], [3]] :=
  .cons rfl (by decide) (by decide) (.cons rfl (by decide) (by decide) .nil)

example : run exConf ⟨[], []⟩ [.arrive (.events [[1]]), .arrive (.other 1 []), .call false true,
    .call true true, .call true true] = some ⟨[], [.events [[1]], .other 1 []]⟩ := rfl

example : run { exConf with replace := true } ⟨[], []⟩ [.arrive (.events [[1]]), .call true false]
    = some ⟨[], [.events [[1]]]⟩ := rfl

end Verif.Recalib
