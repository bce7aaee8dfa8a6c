import Verif.MbsCombSafe

/-! # C36: events of the MBS event builder -/

namespace Verif.MbsComb

open Verif.Bytes Verif.MbsIter

/-- C36: for every configuration and everything that may happen to the module, each event in the output is built properly (`Merges`) from at most
one event of each input. What an input contributes to the events one after the other, followed by what it still has, is taken in order
from what arrived there: nothing is used twice, mixed up or invented. -/
theorem C36_merged (c : Cfg) (ks : List ICfg) (ops : List Op) (s : St) (h : run c ops (init ks) = some s) :
    ∃ prov : List Parts, List.Forall₂ (Merges c) prov (outputs s) ∧ (∀ ps ∈ prov, ps.map Prod.fst = ks) ∧
      ∀ n i, s.inps[n]? = some i → ((prov.filterMap fun ps : Parts => (ps[n]?).bind Prod.snd) ++ pending i).Sublist (arrived n ops) := by
  obtain ⟨prov, hp⟩ := (init_inv c ks).run h
  refine ⟨prov, hp.merges, hp.all, fun n i hi => ?_⟩
  have := hp.order n i hi
  rw [List.nil_append] at this
  exact this

/-- C36: the number of an event in the output is the one of all its parts, when all inputs have numbers in the headers. -/
theorem C36_number {c : Cfg} {ps : Parts} {e : Ev} (h : Merges c ps e) (hk : ∀ q ∈ ps, q.1.realNum = true ∧ q.1.noNum = false) : ∀ q ∈ given ps, key c q.2 = key c e := by
  have hg : ∀ q ∈ given ps, q.1.realNum = true ∧ q.1.noNum = false := by
    intro q hq
    unfold given at hq
    obtain ⟨⟨k, o⟩, h1, h2⟩ := List.mem_filterMap.1 hq
    cases o with
    | none => cases h2
    | some u =>
      injection h2 with h2
      subst h2
      exact hk _ h1
  obtain ⟨q0, hq0, _, hn, _⟩ := h.head
  rcases h.kind with ⟨q1, h1, _⟩ | ⟨⟨nr, hnr⟩, _⟩
  · intro q hq
    rw [h1] at hq hq0
    rw [List.mem_singleton.1 hq, ← List.mem_singleton.1 hq0]
    unfold key
    rw [hn]
  · have hkey : ∀ q ∈ given ps, key c q.2 = nr := by
      intro q hq
      rcases (hnr q hq (hg q hq).2).2 with ⟨_, h2⟩ | ⟨h2, _⟩
      · exact h2.symm
      · rw [(hg q hq).1] at h2
        cases h2
    intro q hq
    rw [hkey q hq, ← hkey q0 hq0]
    unfold key
    rw [hn]

/-- C36: an event with a usual trigger number in the complete mode has a part of every obligatory input. -/
theorem C36_complete {c : Cfg} {ps : Parts} {e : Ev} (h : Merges c ps e) (hc : c.complete = true) (hs : ∀ q ∈ given ps, ¬ Special c q.1 q.2) :
    ∀ q ∈ ps, q.1.opt = false → ∃ u, q.2 = some u ∧ (q.1, u) ∈ given ps := by
  intro q hq ho
  rcases h.kind with ⟨q1, h1, h2⟩ | ⟨_, h1, _⟩
  · exact absurd h2 (hs q1 (by rw [h1]; exact List.mem_cons_self ..))
  · cases hu : q.2 with
    | none =>
      rw [h1 hc q hq hu] at ho
      cases ho
    | some u =>
      refine ⟨u, rfl, List.mem_filterMap.2 ⟨q, hq, ?_⟩⟩
      rw [hu]
      rfl

/-- C36: the module stays inside of the events, when those without subevents come only from inputs that have no numbers or have them in the
headers. Missing: `C36_outside_counterexample`. -/
theorem C36_inside_partial (c : Cfg) (ks : List ICfg) (ops : List Op)
    (hr : ∀ n b, Op.arrive n b ∈ ops → ∀ k, ks[n]? = some k → ∀ e ∈ b, k.realNum = true ∨ k.noNum = true ∨ e.subs ≠ []) : ∃ s, run c ops (init ks) = some s := by
  refine SafeInv.run (ks := ks) ops ⟨fun i hi => ?_, fun i hi => ?_⟩ (init_inv c ks).cfgs hr
  · exact (init_inv c ks).ok i hi
  · obtain ⟨k, _, rfl⟩ := List.mem_map.1 hi
    intro e he
    cases he

/-- C36: with increasing numbers in the headers of obligatory inputs, the complete mode loses nothing: what is in the output, followed by what can
still be built from what the inputs have, is one event for every number that arrived at all inputs, in order. Missing: numbers that overflow or
repeat, optional inputs, inputs that disconnect, events larger than the buffers (`C36_stuck_counterexample`). -/
theorem C36_exact_partial (c : Cfg) (ks : List ICfg) (ops : List Op) (hp : Plain c ks) (hr : Regular c ks ((List.range ks.length).map fun n => arrived n ops))
    (hg : ∀ o ∈ ops, ∀ env ∈ o.envs, Good (expected c ks ((List.range ks.length).map fun n => arrived n ops)) env) :
    ∃ s, run c ops (init ks) = some s ∧ outputs s ++ expected c ks (s.inps.map pending) = expected c ks ((List.range ks.length).map fun n => arrived n ops) := by
  obtain ⟨s, h1, h2⟩ := ExInv.run hp.1 hr ops hg (exInv_init hp ops)
  refine ⟨s, h1, ?_⟩
  have := h2.eq
  rw [total_none] at this
  exact this

/-- C36: and all of it is built by as many calls as events arrived, if the outputs accept the buffers and the pool has some. -/
theorem C36_progress_partial (c : Cfg) (ks : List ICfg) (ops : List Op) (envs : List Env) (hp : Plain c ks) (hr : Regular c ks ((List.range ks.length).map fun n => arrived n ops))
    (hg : ∀ o ∈ ops, ∀ env ∈ o.envs, Good (expected c ks ((List.range ks.length).map fun n => arrived n ops)) env)
    (hw : Within c ((List.range ks.length).map fun n => arrived n ops))
    (he : ∀ env ∈ envs, Good (expected c ks ((List.range ks.length).map fun n => arrived n ops)) env ∧ Free env)
    (hl : (((List.range ks.length).map fun n => arrived n ops).map List.length).sum ≤ envs.length) :
    ∃ s, (run c ops (init ks)).bind (run c (envs.map .build)) = some s ∧ outputs s = expected c ks ((List.range ks.length).map fun n => arrived n ops) := by
  obtain ⟨s, h1, h2⟩ := ExInv.run hp.1 hr ops hg (exInv_init hp ops)
  rw [h1]
  refine ExInv.builds hp.1 hr hw envs he h2 (Or.inl ?_)
  have hsub := h2.sub
  rw [total_none] at hsub
  refine Nat.le_trans ?_ hl
  have hcount : ∀ a b : List (List Ev), List.Forall₂ List.Sublist a b → count a ≤ count b := by
    intro a b hsub
    induction hsub with
    | nil => exact Nat.le_refl _
    | cons h _ ih =>
      have := h.length_le
      unfold count at ih ⊢
      rw [List.map_cons, List.map_cons, List.sum_cons, List.sum_cons]
      omega
  exact hcount _ _ hsub

/-! ## Examples and counterexamples -/

section Tests

private def mbs : ICfg := ⟨true, true, false, false, 0, 0⟩
private def slow : ICfg := ⟨false, false, true, false, 0, 0⟩
private def src : ICfg := ⟨false, false, false, false, 7, 0⟩
private def full : Cfg := ⟨true, false, 0xffffffff, 0, 12⟩
private def part : Cfg := ⟨false, false, 0xffffffff, 0, 12⟩
private def ev (n : Word) (l : List Sub) : Ev := ⟨0, n, l⟩
private def sub (n : Nat) (id : Word) : Sub := ⟨id, List.replicate n 1⟩
private def env (cap : Nat) : Env := ⟨fun _ => true, fun _ => false, fun _ => false, fun _ => false, true, true, some cap⟩

/-- Two inputs, of which the second misses number 1. -/
private def ops : List Op := [.arrive 0 [ev 1 [sub 4 1], ev 2 [sub 4 1]], .arrive 1 [ev 2 [sub 8 2], ev 3 []], .build (env 100), .arrive 0 [ev 3 []]]

private theorem ops_regular : Regular full [mbs, mbs] ((List.range 2).map fun n => arrived n ops) :=
  ⟨by decide, by decide, by decide, fun h => by cases h⟩

private theorem ops_expected : expected full [mbs, mbs] ((List.range 2).map fun n => arrived n ops) = [ev 2 [sub 4 1, sub 8 2], ev 3 []] := by decide

private theorem env_good (n : Nat) (h : 56 ≤ n) : Good [ev 2 [sub 4 1, sub 8 2], ev 3 []] (env n) := by
  refine ⟨fun _ => rfl, fun cap hc => ?_, by decide⟩
  injection hc with hc
  subst hc
  refine ⟨by omega, fun e he => ?_⟩
  have : ∀ e ∈ [ev 2 [sub 4 1, sub 8 2], ev 3 []], e.room ≤ 56 := by decide
  exact Nat.le_trans (this e he) h

/-- Hypotheses of `C36_exact_partial` and `C36_progress_partial`. -/
example : Plain full [mbs, mbs] ∧ Regular full [mbs, mbs] ((List.range 2).map fun n => arrived n ops) ∧
    (∀ o ∈ ops, ∀ e ∈ o.envs, Good (expected full [mbs, mbs] ((List.range 2).map fun n => arrived n ops)) e) ∧
    Within full ((List.range 2).map fun n => arrived n ops) ∧ Free (env 100) := by
  refine ⟨⟨rfl, by decide⟩, ops_regular, fun o ho e he => ?_, Or.inl rfl, rfl, rfl⟩
  rw [ops_expected]
  have : e = env 100 := by
    simp only [ops, List.mem_cons, List.not_mem_nil, or_false] at ho
    rcases ho with rfl | rfl | rfl | rfl
    · cases he
    · cases he
    · exact List.mem_singleton.1 he
    · cases he
  rw [this]
  exact env_good 100 (by decide)

/-- Hypotheses of `C36_merged`, `C36_number` and `C36_complete`: after two more calls the event with number 2 is there. -/
example : (run full (ops ++ [.build (env 100), .build (env 100)]) (init [mbs, mbs])).map outputs = some [ev 2 [sub 4 1, sub 8 2], ev 3 []] := by decide +kernel

example : Merges full [(mbs, some (ev 2 [sub 4 1])), (mbs, some (ev 2 [sub 8 2]))] (ev 2 [sub 4 1, sub 8 2]) := by
  refine ⟨by decide, ⟨(mbs, ev 2 [sub 4 1]), by decide, rfl, rfl, fun _ => by decide⟩, Or.inr ⟨⟨2, fun q hq _ => ?_⟩, fun _ => by decide, fun h => by cases h⟩⟩
  have hq : q ∈ [(mbs, ev 2 [sub 4 1]), (mbs, ev 2 [sub 8 2])] := hq
  simp only [List.mem_cons, List.not_mem_nil, or_false] at hq
  rcases hq with rfl | rfl
  · exact ⟨fun h => absurd h.2 (by decide), Or.inl ⟨rfl, by decide⟩⟩
  · exact ⟨fun h => absurd h.2 (by decide), Or.inl ⟨rfl, by decide⟩⟩

/-- Hypothesis of `C36_inside_partial`. -/
example : ∀ n b, Op.arrive n b ∈ ops → ∀ k, [mbs, mbs][n]? = some k → ∀ e ∈ b, k.realNum = true ∨ k.noNum = true ∨ e.subs ≠ [] := by
  intro n b _ k hk e _
  left
  match n, hk with
  | 0, hk => injection hk with hk; rw [← hk]; rfl
  | 1, hk => injection hk with hk; rw [← hk]; rfl

/-- A special event passes alone; the other input waits. -/
example : (run part [.arrive 0 [⟨0x000e0000, 5, [sub 4 1]⟩], .arrive 1 [ev 2 [sub 8 2]], .build (env 100)] (init [mbs, mbs])).map outputs = some [⟨0x000e0000, 5, [sub 4 1]⟩] := by
  decide +kernel

/-- Two events in a row are too large for the buffers of the pool: the module keeps an empty output buffer, and no call does anything any more,
whatever the surrounding does. The third event, for which there is room, never comes out. -/
theorem C36_stuck_counterexample : ∃ s, run full [.arrive 0 [ev 1 [sub 100 1], ev 2 [sub 100 1], ev 3 []], .build (env 40)] (init [mbs]) = some s ∧
    outputs s = [] ∧ ∀ e : Env, e.connected 0 = true → ∃ s', buildEvent full e s = some (s', false) ∧ outputs s' = [] ∧ s'.out = s.out ∧ s'.inps.map pending = s.inps.map pending := by
  have h : run full [.arrive 0 [ev 1 [sub 100 1], ev 2 [sub 100 1], ev 3 []], .build (env 40)] (init [mbs]) =
      some ⟨[⟨mbs, some ⟨ev 2 [sub 100 1], 2, false⟩, [ev 3 []], []⟩], some (40, []), false, [], 0⟩ := by
    decide +kernel
  refine ⟨_, h, rfl, fun e he => ⟨⟨[⟨mbs, some ⟨ev 2 [sub 100 1], 2, false⟩, [ev 3 []], []⟩], some (40, []), false, [], 0⟩, ?_, rfl, rfl, rfl⟩⟩
  simp [buildEvent, anyInp, collect, mbs, full, ev, he, assemble, numbered, minmax, numbers, selection, skips, skipped, produce, makeRoom, flushBuffer, place, bytesOf, subsSize,
    sub, Sub.room, ICfg.opt]

/-- An input without numbers comes first and no input is an MBS one: the event gets the number of that input, not the number of the others. -/
theorem C36_header_counterexample :
    (run full [.arrive 0 [ev 77 [sub 4 1]], .arrive 1 [ev 3 [sub 4 2]], .build (env 100)] (init [slow, { mbs with realMbs := false }])).map outputs =
      some [ev 77 [sub 4 1, sub 4 2]] := by decide +kernel

/-- An event without subevents at an input that has its numbers in a subevent: memory behind the event is read. -/
theorem C36_outside_counterexample : run full [.arrive 0 [ev 1 []], .build (env 100)] (init [src]) = none := by decide +kernel

/-- An event that does not have the subevent with the number is lost without a trace, also in the mode for incomplete events. -/
theorem C36_lost_counterexample : (run part [.arrive 0 [ev 1 [sub 4 8]], .arrive 0 [ev 2 [sub 4 7]], .build (env 100)] (init [src])).map outputs = some [ev 2 [sub 4 7]] := by
  decide +kernel

/-- When the numbers overflow, the largest of the current ones is built first: in the mode for incomplete events 0xffffffff comes before 0xfffffffe. -/
theorem C36_order_counterexample :
    (run part [.arrive 0 [ev 0xfffffffe [], ev 1 []], .arrive 1 [ev 0xffffffff [], ev 1 []], .arrive 2 [ev 0 []], .build (env 100), .build (env 100)] (init [mbs, mbs, mbs])).map
      (fun s => (outputs s).map Ev.number) = some [0xffffffff, 0xfffffffe] := by decide +kernel

end Tests

end Verif.MbsComb
