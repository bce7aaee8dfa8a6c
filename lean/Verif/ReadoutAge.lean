import Verif.ReadoutSub
/-!
# Age of the events, end of the waiting, use of the iterators by one thread at a time
-/

namespace Verif.Readout
open Spec

/-- What the answer of the module may change. -/
theorem processData_shape (s : S) :
    processData s = s ∨
    (∃ it it2 c2 nf q ra, processData s = reply true
      { s with iter := it, iter2 := it2, cur2 := c2, lastNF := nf, queue := q, curTm := some s.now, racy := ra } ∧
      (s.racy = false → (∃ m, s.user = .waiting m) → ra = false)) ∨
    (∃ it2 c2 nf q tm ra, processData s = reply false
      { s with iter2 := it2, cur2 := c2, lastNF := nf, queue := q, curTm := tm, racy := ra } ∧
      (tm = some s.now ∨ tm = s.curTm) ∧
      (s.racy = false → (∃ m, s.user = .waiting m) → ra = false)) := by
  have tch : ∀ t : S, t.racy = s.racy → t.user = s.user →
      s.racy = false → (∃ m, s.user = .waiting m) → (touch t).racy = false := by
    intro t h1 h2 h3 ⟨m, h4⟩
    unfold touch
    dsimp only
    rw [h1, h2, h3, h4]
    rfl
  cases hc : s.cmd with
  | none => exact .inl (processData_idle hc)
  | some ma =>
    right
    cases hd : drain (cleanq ma s) s.queue with
    | none =>
      obtain ⟨nf, e⟩ := processData_nil hc (drain_none hd)
      exact .inr ⟨s.iter2, s.cur2, nf, s.queue, s.curTm, s.racy, e, .inr rfl, fun h _ => h⟩
    | some bq =>
      obtain ⟨b, q⟩ := bq
      obtain ⟨nf, e⟩ := processData_cons hc hd
      rw [e]
      cases b with
      | eof => exact .inr ⟨s.iter2, s.cur2, nf, q, some s.now, s.racy, rfl, .inl rfl, fun h _ => h⟩
      | mbs l =>
        exact .inl ⟨l, s.iter2, s.cur2, nf, q, _, rfl, tch _ rfl rfl⟩
      | had l =>
        unfold accept
        dsimp only
        rcases bool_cases s.h with hh | hh
        · rw [if_pos hh]
          exact .inl ⟨s.iter, l, l.head?, nf, q, _, rfl, tch _ rfl rfl⟩
        · rw [if_neg (by rw [hh]; simp)]
          exact .inr ⟨s.iter2, s.cur2, nf, q, some s.now, s.racy, rfl, .inl rfl, fun h _ => h⟩
      | other =>
        unfold accept
        dsimp only
        rcases bool_cases s.h with hh | hh
        · rw [if_pos hh]
          exact .inr ⟨[], none, nf, q, some s.now, _, rfl, .inl rfl, tch _ rfl rfl⟩
        · rw [if_neg (by rw [hh]; simp)]
          exact .inr ⟨s.iter2, s.cur2, nf, q, some s.now, s.racy, rfl, .inl rfl, fun h _ => h⟩

/-- An event is not older than the limit, or its buffer was taken during the call. -/
def Young (r : Ret) : Prop :=
  r.ev ≠ none → ∀ m, r.maxage = some m → ∃ t, r.tm = some t ∧ (r.at_ ≤ t + m ∨ r.called ≤ t)

structure Age (s : S) : Prop where
  h : s.h = false
  since : s.since ≤ s.now
  tm : s.iter ≠ [] → s.curTm ≠ none
  got : ∀ m, s.user = .got true m → ∃ t, s.curTm = some t ∧ s.since ≤ t
  log : ∀ r ∈ s.log, Young r

theorem Age.processData {s : S} (hi : Age s) : Age (processData s) := by
  rcases processData_shape s with e | ⟨it, it2, c2, nf, q, ra, e, _⟩ | ⟨it2, c2, nf, q, tm, ra, e, ht, _⟩
  · rw [e]; exact hi
  · rw [e]
    unfold reply
    refine ⟨hi.h, hi.since, ?_, ?_, hi.log⟩
    · intro _; simp
    · intro m _; exact ⟨s.now, rfl, hi.since⟩
  · rw [e]
    unfold reply
    rcases ht with rfl | rfl
    · refine ⟨hi.h, hi.since, ?_, ?_, hi.log⟩
      · intro _; simp
      · intro m _; exact ⟨s.now, rfl, hi.since⟩
    · refine ⟨hi.h, hi.since, hi.tm, ?_, hi.log⟩
      intro m hm
      dsimp only at hm ⊢
      cases hu : s.user with
      | got r m' => rw [hu] at hm; dsimp only at hm; exact hi.got m (by rw [hu]; exact hm)
      | idle => rw [hu] at hm; cases hm
      | sent _ _ => rw [hu] at hm; cases hm
      | waiting _ => rw [hu] at hm; cases hm

theorem Age.take {s : S} (hi : Age s) (dl : Option Nat) : Age (take dl s) := by
  unfold Readout.take
  split
  · exact hi.processData
  · split
    · exact hi.processData
    · exact ⟨hi.h, hi.since, hi.tm, hi.got, hi.log⟩

theorem Age.ret {s : S} (hi : Age s) (e : Option Ev) (ma : Option Nat) (it : List Ev)
    (h1 : it ≠ [] → s.iter ≠ [])
    (hy : e ≠ none → ∀ m, ma = some m → ∃ t, s.curTm = some t ∧ (s.now ≤ t + m ∨ s.since ≤ t)) :
    Age (ret e ma { s with iter := it }) := by
  unfold Readout.ret
  refine ⟨hi.h, hi.since, fun h => hi.tm (h1 h), ?_, ?_⟩
  · intro m h; cases h
  · intro r hr
    simp only [List.mem_append, List.mem_singleton] at hr
    rcases hr with hr | rfl
    · exact hi.log r hr
    · exact hy

theorem Age.callMbs {s : S} (hi : Age s) (dl ma : Option Nat) : Age (callMbs dl ma s) := by
  unfold Readout.callMbs
  have send : Age { s with user := .sent dl ma } := ⟨hi.h, hi.since, hi.tm, fun m h => (by cases h), hi.log⟩
  split
  · rename_i ht
    split
    · rename_i e l hit
      refine hi.ret _ _ l (fun _ => by rw [hit]; simp) ?_
      intro _ m hm
      subst hm
      cases hct : s.curTm with
      | none => exact absurd hct (hi.tm (by rw [hit]; simp))
      | some t =>
        refine ⟨t, rfl, .inl ?_⟩
        unfold inTime at ht
        rw [hct] at ht
        simpa using ht
    · exact send
  · exact send

theorem Age.step {s t : S} {a : Act} (hi : Age s) (h : step s a = some t) : Age t := by
  have hh := hi.h
  cases a <;> simp only [Readout.step] at h
  case tick d =>
    simp only [Option.some.injEq] at h
    subst h
    exact ⟨hi.h, Nat.le_trans hi.since (Nat.le_add_right _ _), hi.tm, hi.got, hi.log⟩
  case arrive b =>
    simp only [Option.some.injEq] at h
    subst h
    exact ⟨hi.h, hi.since, hi.tm, hi.got, hi.log⟩
  case input =>
    split at h
    · simp only [Option.some.injEq] at h
      subst h
      exact Age.processData ⟨hi.h, hi.since, hi.tm, hi.got, hi.log⟩
    · cases h
  case timer =>
    split at h
    · split at h
      · simp only [Option.some.injEq] at h
        subst h
        exact Age.processData ⟨hi.h, hi.since, hi.tm, hi.got, hi.log⟩
      · cases h
    · cases h
  case call tm m =>
    split at h
    · rename_i hu
      simp only [Option.some.injEq] at h
      subst h
      unfold Readout.call
      rw [if_neg (by dsimp only; rw [hh]; simp)]
      apply Age.callMbs
      refine ⟨hi.h, Nat.le_refl _, hi.tm, ?_, hi.log⟩
      intro m h
      dsimp only at h
      rw [hu] at h; cases h
    · cases h
  case exec =>
    split at h
    · split at h
      · simp only [Option.some.injEq] at h
        subst h
        unfold Readout.exec
        split
        · exact ⟨hi.h, hi.since, hi.tm, fun m h => (by cases h), hi.log⟩
        · apply Age.take
          exact ⟨hi.h, hi.since, hi.tm, fun m h => (by cases h), hi.log⟩
      · cases h
    · cases h
  case giveUp =>
    split at h
    · simp only [Option.some.injEq] at h
      subst h
      exact ⟨hi.h, hi.since, hi.tm, fun m h => (by cases h), hi.log⟩
    · simp only [Option.some.injEq] at h
      subst h
      exact ⟨hi.h, hi.since, hi.tm, fun m h => (by cases h), hi.log⟩
    · cases h
  case late =>
    split at h
    · cases h
    · split at h
      · simp only [Option.some.injEq] at h
        subst h
        exact ⟨hi.h, hi.since, hi.tm, hi.got, hi.log⟩
      · simp only [Option.some.injEq] at h
        subst h
        apply Age.take
        exact ⟨hi.h, hi.since, hi.tm, hi.got, hi.log⟩
  case finish =>
    split at h
    · rename_i r m hu
      simp only [Option.some.injEq] at h
      subst h
      unfold Readout.finish
      split
      · rename_i e l hit
        refine hi.ret _ _ l (fun _ => by rw [hit]; simp) ?_
        intro _ _ _
        obtain ⟨t, h1, h2⟩ := hi.got m hu
        exact ⟨t, h1, .inr h2⟩
      · rw [if_neg (by rw [hh]; simp)]
        exact hi.ret none m s.iter id (fun h => absurd rfl h)
    · cases h

/-- Without given up calls. -/
structure Calm (s : S) : Prop where
  stale : s.stale = []
  racy : s.racy = false
  waits : s.cmd ≠ none → ∃ m, s.user = .waiting m
  sent : ∀ dl m, s.user = .sent dl m → dl = s.tmo.map (s.since + ·)
  wait : ∀ m, s.user = .waiting m → s.cmd ≠ none ∧ ∃ t, s.tmo = some t ∧ s.due = some (s.since + t)

theorem calm_new (h : Bool) (cap : Nat) : Calm (new h cap) := by
  refine ⟨rfl, rfl, fun h => absurd rfl h, ?_, ?_⟩
  · intro _ _ h; cases h
  · intro _ h; cases h

/-- The module answers when asked. -/
theorem calm_process {s : S} (h1 : s.stale = []) (h2 : s.racy = false) (h3 : s.cmd ≠ none → ∃ m, s.user = .waiting m)
    (h4 : s.cmd = none → ∀ m, s.user ≠ .waiting m) (h5 : ∀ dl m, s.user = .sent dl m → dl = s.tmo.map (s.since + ·)) :
    Calm (processData s) := by
  by_cases hc : s.cmd = none
  · rw [processData_idle hc]
    exact ⟨h1, h2, h3, h5, fun m hm => absurd hm (h4 hc m)⟩
  · obtain ⟨m, hu⟩ := h3 hc
    have key : ∀ res it it2 c2 nf q tm ra, ra = false →
        Calm (reply res { s with iter := it, iter2 := it2, cur2 := c2, lastNF := nf, queue := q, curTm := tm, racy := ra }) := by
      intro res it it2 c2 nf q tm ra hr
      subst hr
      unfold reply
      dsimp only
      rw [hu]
      exact ⟨h1, rfl, fun h => absurd rfl h, fun _ _ h => (by cases h), fun _ h => (by cases h)⟩
    rcases processData_shape s with e | ⟨it, it2, c2, nf, q, ra, e, hr⟩ | ⟨it2, c2, nf, q, tm, ra, e, _, hr⟩
    · exfalso
      have : (processData s).cmd = none := by
        cases hcc : s.cmd with
        | none => exact absurd hcc hc
        | some ma =>
          cases hd : drain (cleanq ma s) s.queue with
          | none => obtain ⟨nf, e⟩ := processData_nil hcc (drain_none hd); rw [e]; rfl
          | some bq =>
            obtain ⟨b, q⟩ := bq
            obtain ⟨nf, e⟩ := processData_cons hcc hd
            rw [e]
            cases b <;> simp only [accept] <;> first | rfl | (split <;> rfl)
      rw [e] at this
      exact hc this
    · rw [e]; exact key true it it2 c2 nf q _ ra (hr h2 ⟨m, hu⟩)
    · rw [e]; exact key false s.iter it2 c2 nf q tm ra (hr h2 ⟨m, hu⟩)

theorem Calm.idleCmd {s : S} (hi : Calm s) : s.cmd = none → ∀ m, s.user ≠ .waiting m := by
  intro hc m hu
  exact (hi.wait m hu).1 hc

theorem Calm.noCmd {s : S} (hi : Calm s) (h : ∀ m, s.user ≠ .waiting m) : s.cmd = none := by
  cases hc : s.cmd with
  | none => rfl
  | some x =>
    obtain ⟨m, hm⟩ := hi.waits (by rw [hc]; simp)
    exact absurd hm (h m)

theorem calm_ret {s : S} (h1 : s.stale = []) (h2 : s.racy = false) (hc : s.cmd = none) (e : Option Ev) (ma : Option Nat) :
    Calm (ret e ma s) := by
  unfold ret
  exact ⟨h1, h2, fun h => absurd hc h, fun _ _ h => (by cases h), fun _ h => (by cases h)⟩

theorem calm_callMbs {s : S} (h1 : s.stale = []) (h2 : s.racy = false) (hc : s.cmd = none) (ma : Option Nat)
    (dl : Option Nat) (hd : dl = s.tmo.map (s.since + ·)) : Calm (callMbs dl ma s) := by
  have send : Calm { s with user := .sent dl ma } :=
    ⟨h1, h2, fun h => absurd hc h, fun d m h => (by cases h; exact hd), fun _ h => (by cases h)⟩
  unfold callMbs
  split
  · split
    · (apply calm_ret; exact h1; exact h2; exact hc)
    · exact send
  · exact send

theorem Calm.step {s t : S} {a : Act} (hi : Calm s) (hg : a ≠ .giveUp) (h : step s a = some t) : Calm t := by
  cases a <;> simp only [Readout.step] at h
  case tick d =>
    simp only [Option.some.injEq] at h
    subst h
    exact ⟨hi.stale, hi.racy, hi.waits, hi.sent, hi.wait⟩
  case arrive b =>
    simp only [Option.some.injEq] at h
    subst h
    exact ⟨hi.stale, hi.racy, hi.waits, hi.sent, hi.wait⟩
  case input =>
    split at h
    · simp only [Option.some.injEq] at h
      subst h
      exact calm_process hi.stale hi.racy hi.waits hi.idleCmd hi.sent
    · cases h
  case timer =>
    split at h
    · split at h
      · simp only [Option.some.injEq] at h
        subst h
        exact calm_process hi.stale hi.racy hi.waits hi.idleCmd hi.sent
      · cases h
    · cases h
  case call tm m =>
    split at h
    · rename_i hu
      simp only [Option.some.injEq] at h
      subst h
      have hc := hi.noCmd (fun m h => by rw [hu] at h; cases h)
      unfold Readout.call
      split
      · split
        · (apply calm_ret; exact hi.stale; exact hi.racy; exact hc)
        · (apply calm_callMbs; exact hi.stale; exact hi.racy; exact hc; rfl)
      · (apply calm_callMbs; exact hi.stale; exact hi.racy; exact hc; rfl)
    · cases h
  case exec =>
    split at h
    · rename_i dl m hu
      split at h
      · simp only [Option.some.injEq] at h
        subst h
        have hc := hi.noCmd (fun m h => by rw [hu] at h; cases h)
        have hd := hi.sent _ _ hu
        unfold Readout.exec
        rw [if_neg (by simp [hc])]
        have pr : Calm (Readout.processData { s with cmd := some m, user := .waiting m }) :=
          calm_process hi.stale hi.racy (fun _ => ⟨m, rfl⟩) (fun h => by cases h) (fun _ _ h => by cases h)
        unfold Readout.take
        split
        · exact pr
        · rename_i d
          split
          · exact pr
          · refine ⟨hi.stale, hi.racy, fun _ => ⟨m, rfl⟩, fun _ _ h => (by cases h), ?_⟩
            intro _ _
            refine ⟨by simp, ?_⟩
            cases ht : s.tmo with
            | none => rw [ht] at hd; cases hd
            | some t =>
              rw [ht] at hd
              simp only [Option.map_some, Option.some.injEq] at hd
              exact ⟨t, rfl, by dsimp only; rw [hd]⟩
      · cases h
    · cases h
  case giveUp => exact absurd rfl hg
  case late =>
    rw [hi.stale] at h
    cases h
  case finish =>
    split at h
    · rename_i r m hu
      simp only [Option.some.injEq] at h
      subst h
      have hc := hi.noCmd (fun m h => by rw [hu] at h; cases h)
      unfold Readout.finish
      split
      · (apply calm_ret; exact hi.stale; exact hi.racy; exact hc)
      · split
        · split
          · (apply calm_ret; exact hi.stale; exact hi.racy; exact hc)
          · (apply calm_ret; exact hi.stale; exact hi.racy; exact hc)
        · (apply calm_ret; exact hi.stale; exact hi.racy; exact hc)
    · cases h

end Verif.Readout
