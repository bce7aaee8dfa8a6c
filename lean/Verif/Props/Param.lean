import Verif.ParamLemmas
import Mathlib.Tactic.Ring
import Mathlib.Data.List.Chain

/-!
# C74: rates, averages and events of parameters
-/

namespace Verif.Param

open Spec

/-! ### Statistics -/

/-- **C74**: an asynchronous rate or average reports exactly its windows: after `SetRatemeter(false, i)` or
`SetAverage(false, i)` every report is the rate or the average of one window, in order. -/
theorem C74_async (p : Par) (k : Kind) (hk : k ≠ .none) (i : Rat) (ops : List Op) (hu : ∀ op ∈ ops, Uses op) :
    reported (run p (.statistic k false i :: ops)).out =
      reported p.out ++ (asyncWindows i ⟨[], 0⟩ ops).1.map (fun w => some (w.report k)) := by
  have := async_windows (p := p.setKind k false i) hk rfl ⟨[], 0⟩ rfl rfl (by simp [Par.setKind]) ops hu
  refine this.1.trans ?_
  show reported (p.out ++ [Out.configured]) ++ _ = _
  rw [reported_append]
  simp [reported, Par.setKind]

example : ∃ (ops : List Op), (∀ op ∈ ops, Uses op) ∧
    reported (run {} (.statistic .rate false 1 :: ops)).out = [some 5, some 2] ∧
    reported (run {} (.statistic .average false 1 :: ops)).out = [some (5 / 2), some 4] := by
  refine ⟨[.set 0 (some 2), .timeout 1 (1 / 2), .set 1 (some 3), .timeout 2 (1 / 2), .set 3 (some 4), .timeout 4 2], ?_, ?_, ?_⟩
  · intro op h; simp at h; rcases h with h | h | h | h | h | h <;> subst h <;> trivial
  · rw [C74_async _ _ (by decide) _ _ (by intro op h; simp at h; rcases h with h | h | h | h | h | h <;> subst h <;> trivial)]
    norm_num [asyncWindows, Window.full, Window.report, reported]
  · rw [C74_async _ _ (by decide) _ _ (by intro op h; simp at h; rcases h with h | h | h | h | h | h <;> subst h <;> trivial)]
    norm_num [asyncWindows, Window.full, Window.report, reported]
    decide

/-- **C74**: the windows of an asynchronous statistic cut the history: every value set and all of the time belongs to
exactly one window or to the rest, no window is shorter than the interval, and nothing of the rest is lost. -/
theorem C74_async_windows (p : Par) (k : Kind) (hk : k ≠ .none) (i : Rat) (ops : List Op)
    (hu : ∀ op ∈ ops, Uses op) :
    let r := asyncWindows i ⟨[], 0⟩ ops
    (r.1.map Window.vals).flatten ++ r.2.vals = values ops ∧
    (r.1.map Window.dur).sum + r.2.dur = time ops ∧ (∀ w ∈ r.1, i ≤ w.dur) ∧
    (run p (.statistic k false i :: ops)).valueSum = r.2.vals.sum ∧
    (run p (.statistic k false i :: ops)).timeSum = r.2.dur := by
  have h := asyncWindows_cut i ⟨[], 0⟩ ops
  have h2 := async_windows (p := p.setKind k false i) hk rfl ⟨[], 0⟩ rfl rfl (by simp [Par.setKind]) ops hu
  dsimp only at h h2 ⊢
  refine ⟨h.1, ?_, fun w hw => (h.2.2 w hw).1, h2.2.1, h2.2.2.1⟩
  rw [h.2.1]; simp

/-- **C74**: nothing is lost or counted twice by an asynchronous rate: the reports times their durations and the rest
give the sum of all values set. -/
theorem C74_async_conserves (p : Par) (i : Rat) (ops : List Op) (hu : ∀ op ∈ ops, Uses op) :
    ∃ durs : List Rat, ∃ reps : List Rat,
      reported (run p (.statistic .rate false i :: ops)).out = reported p.out ++ reps.map some ∧
      reps.length = durs.length ∧ (∀ d ∈ durs, i ≤ d) ∧
      (List.zipWith (· * ·) reps durs).sum + (run p (.statistic .rate false i :: ops)).valueSum = (values ops).sum ∧
      durs.sum + (run p (.statistic .rate false i :: ops)).timeSum = time ops := by
  have h := asyncWindows_cut i ⟨[], 0⟩ ops
  have hw := C74_async_windows p .rate (by decide) i ops hu
  dsimp only at h hw
  refine ⟨(asyncWindows i ⟨[], 0⟩ ops).1.map Window.dur, (asyncWindows i ⟨[], 0⟩ ops).1.map (·.report .rate), ?_, ?_, ?_, ?_, ?_⟩
  · rw [C74_async p .rate (by decide) i ops hu, List.map_map]; rfl
  · simp
  · intro d hd
    obtain ⟨w, hw', rfl⟩ := List.mem_map.1 hd
    exact (h.2.2 w hw').1
  · rw [List.zipWith_map, List.zipWith_self, rates_sum h.2.2, hw.2.2.2.1, ← List.sum_append, hw.1]
  · rw [hw.2.2.2.2]; exact hw.2.1

/-- **C74**: a synchronous rate or average, used after its configuration, reports exactly its windows. -/
theorem C74_sync (p : Par) (k : Kind) (hk : k ≠ .none) (i : Rat) (ops : List Op) (hu : ∀ op ∈ ops, Feeds op) :
    reported (run p (.statistic k true i :: ops)).out =
      reported p.out ++ (syncWindows i p.last [] ops).1.map (fun w => some (w.report k)) := by
  have := sync_windows (p := p.setKind k true i) hk rfl [] rfl (by simp [Par.setKind]) ops hu
  refine this.1.trans ?_
  show reported (p.out ++ [Out.configured]) ++ _ = _
  rw [reported_append]
  simp [reported, Par.setKind]

theorem syncStart_none (i t x : Rat) (ops : List Op) (vals : List Rat) :
    syncWindows i none vals (.set t (some x) :: ops) = syncWindows i (some t) (vals ++ [x]) ops := by
  dsimp only [syncWindows, Option.getD]
  rw [if_neg]
  intro h
  have := h.2
  simp only [sub_self] at this
  exact absurd this (by norm_num)

/-- **C74**: a synchronous rate started with its first value at time `t`: every value set belongs to exactly one report
or to the rest, the durations of the reports follow each other without gap from `t` on, none is shorter than the
interval, and the reports times the durations and the rest give the sum of all values set. -/
theorem C74_sync_conserves (p : Par) (hl : p.last = none) (i t x : Rat) (ops : List Op) (hu : ∀ op ∈ ops, Feeds op) :
    ∃ durs : List Rat, ∃ reps : List Rat,
      reported (run p (.statistic .rate true i :: .set t (some x) :: ops)).out = reported p.out ++ reps.map some ∧
      reps.length = durs.length ∧ (∀ d ∈ durs, i ≤ d) ∧
      (List.zipWith (· * ·) reps durs).sum +
        (run p (.statistic .rate true i :: .set t (some x) :: ops)).valueSum = x + (values ops).sum ∧
      syncStart i (some t) ops = some (t + durs.sum) := by
  have hu' : ∀ op ∈ Op.set t (some x) :: ops, Feeds op := by
    intro op h
    rcases List.mem_cons.1 h with e | e
    · rw [e]; trivial
    · exact hu op e
  have h := syncWindows_cut i t [x] ops
  have h1 := C74_sync p .rate (by decide) i _ hu'
  have h2 := sync_windows (p := p.setKind .rate true i) (by simp [Par.setKind]) rfl [] rfl (by simp [Par.setKind]) _ hu'
  have e : (p.setKind .rate true i).last = none := hl
  rw [hl, syncStart_none] at h1
  dsimp only at h2 h
  rw [e, show (p.setKind .rate true i).interval = i from rfl, syncStart_none] at h2
  simp only [List.nil_append] at h1 h2
  refine ⟨(syncWindows i (some t) [x] ops).1.map Window.dur, (syncWindows i (some t) [x] ops).1.map (·.report .rate), ?_, ?_, ?_, ?_, ?_⟩
  · rw [h1, List.map_map]; rfl
  · simp
  · intro d hd
    obtain ⟨w, hw', rfl⟩ := List.mem_map.1 hd
    exact (h.2.2 w hw').1.1
  · have hv : (run p (.statistic .rate true i :: .set t (some x) :: ops)).valueSum =
        (syncWindows i (some t) [x] ops).2.sum := h2.2.1
    rw [List.zipWith_map, List.zipWith_self, rates_sum (fun w hw => (h.2.2 w hw).1), hv, ← List.sum_append, h.1]
    simp
  · exact h.2.1

example : reported (run {} (.statistic .rate true 1 :: .set 0 (some 3) :: [.set 1 (some 4), .set (3 / 2) (some 1), .set 2 (some 5)])).out
    = [some 7, some 6] := by
  rw [C74_sync _ _ (by decide) _ _ (by intro op h; simp at h; rcases h with h | h | h | h <;> subst h <;> trivial)]
  norm_num [syncWindows, Window.full, Window.report, reported]

/-- **C74**: an average which was calculated from values lies between the smallest and the largest of them; a
synchronous average is always calculated from values. -/
theorem C74_average (p : Par) (i lo hi : Rat) (hl : p.last = none) (t x : Rat) (ops : List Op)
    (hu : ∀ op ∈ ops, Feeds op) (hx : lo ≤ x ∧ x ≤ hi) (hb : ∀ y ∈ values ops, lo ≤ y ∧ y ≤ hi) :
    ∃ reps : List Rat,
      reported (run p (.statistic .average true i :: .set t (some x) :: ops)).out = reported p.out ++ reps.map some ∧
      ∀ r ∈ reps, lo ≤ r ∧ r ≤ hi := by
  have hu' : ∀ op ∈ Op.set t (some x) :: ops, Feeds op := by
    intro op h
    rcases List.mem_cons.1 h with e | e
    · rw [e]; trivial
    · exact hu op e
  have h := syncWindows_cut i t [x] ops
  have h1 := C74_sync p .average (by decide) i _ hu'
  rw [hl, syncStart_none] at h1
  simp only [List.nil_append] at h1
  dsimp only at h
  refine ⟨(syncWindows i (some t) [x] ops).1.map (·.report .average), ?_, ?_⟩
  · rw [h1, List.map_map]; rfl
  · intro r hr
    obtain ⟨w, hw, rfl⟩ := List.mem_map.1 hr
    refine average_bounds (h.2.2 w hw).2 ?_
    intro y hy
    have : y ∈ [x] ++ values ops := by
      rw [← h.1]
      refine List.mem_append_left _ ?_
      exact List.mem_flatten.2 ⟨w.vals, List.mem_map.2 ⟨w, hw, rfl⟩, hy⟩
    rcases List.mem_append.1 this with e | e
    · rw [List.mem_singleton.1 e]; exact hx
    · exact hb y e

/-- **C74**: the same for an asynchronous average, except for the reports of windows without values. -/
theorem C74_average_async_partial (p : Par) (i lo hi : Rat) (ops : List Op) (hu : ∀ op ∈ ops, Uses op)
    (hb : ∀ y ∈ values ops, lo ≤ y ∧ y ≤ hi) :
    ∃ reps : List Rat,
      reported (run p (.statistic .average false i :: ops)).out = reported p.out ++ reps.map some ∧
      ∀ r ∈ reps, (lo ≤ r ∧ r ≤ hi) ∨ r = 0 := by
  have h := asyncWindows_cut i ⟨[], 0⟩ ops
  have h1 := C74_async p .average (by decide) i ops hu
  dsimp only at h
  refine ⟨(asyncWindows i ⟨[], 0⟩ ops).1.map (·.report .average), ?_, ?_⟩
  · rw [h1, List.map_map]; rfl
  · intro r hr
    obtain ⟨w, hw, rfl⟩ := List.mem_map.1 hr
    by_cases hne : w.vals = []
    · right; simp [Window.report, hne]
    · left
      refine average_bounds hne ?_
      intro y hy
      have : y ∈ [] ++ values ops := by
        rw [← h.1]
        refine List.mem_append_left _ ?_
        exact List.mem_flatten.2 ⟨w.vals, List.mem_map.2 ⟨w, hw, rfl⟩, hy⟩
      exact hb y this

/-- **C74** is violated: an asynchronous average without new values shows 0, although all values were 7. -/
theorem C74_empty_average_counterexample :
    ∃ ops : List Op, (∀ op ∈ ops, Uses op) ∧ values ops = [7] ∧
      reported (run {} (.statistic .average false 1 :: ops)).out = [some 7, some 0] := by
  refine ⟨[.set 0 (some 7), .timeout 1 1, .timeout 2 1], ?_, rfl, ?_⟩
  · intro op h; simp at h; rcases h with h | h | h <;> subst h <;> trivial
  · rw [C74_async _ _ (by decide) _ _ (by intro op h; simp at h; rcases h with h | h | h <;> subst h <;> trivial)]
    norm_num [asyncWindows, Window.full, Window.report, reported]

/-- **C74** is violated: the first report of a synchronous rate counts one value too many; for any interval `i ≥ 1 µs`
and one value 1 in every interval, the first report is twice the rate. -/
theorem C74_first_rate_counterexample (p : Par) (hl : p.last = none) (i t : Rat) (hi : 1 / 1000000 ≤ i) :
    reported (run p [.statistic .rate true i, .set t (some 1), .set (t + i) (some 1), .set (t + i + i) (some 1)]).out =
      reported p.out ++ [some (2 / i), some (1 / i)] := by
  rw [C74_sync _ _ (by decide) _ _ (by intro op h; simp at h; rcases h with h | h | h <;> subst h <;> trivial), hl,
    syncStart_none]
  have e1 : t + i - t = i := by ring
  have e2 : t + i + i - (t + i) = i := by ring
  dsimp only [syncWindows, Option.getD]
  rw [if_pos (show Window.full ⟨_, t + i - t⟩ i by rw [e1]; exact ⟨le_refl i, hi⟩),
    if_pos (show Window.full ⟨_, t + i + i - (t + i)⟩ i by rw [e2]; exact ⟨le_refl i, hi⟩)]
  norm_num [Window.report]

/-- **C74** is violated: a synchronous rate configured on a parameter which already had a value is diluted by the time
before: the time of the first window begins with the last change before. -/
theorem C74_reconfigured_counterexample :
    reported (run {} [.set 0 (some 0), .statistic .rate true 1, .set 100 (some 50)]).out = [some 0, some (1 / 2)] := by
  have := C74_sync (run {} [.set 0 (some 0)]) .rate (by decide) 1 [.set 100 (some 50)]
    (by intro op h; simp at h; subst h; trivial)
  refine Eq.trans ?_ (this.trans ?_)
  · rfl
  · have e : (run {} [.set 0 (some 0)]).last = some 0 := rfl
    have e' : reported (run {} [.set 0 (some 0)]).out = [some 0] := rfl
    rw [e, e']
    norm_num [syncWindows, Window.full, Window.report]

/-- **C74** is violated: an empty value set to a synchronous rate moves the start of the window, the values before are
kept: 101 counts in 100 s are shown as 101/s. -/
theorem C74_null_counterexample :
    reported (run {} [.statistic .rate true 1, .set 0 (some 100), .set (1 / 2) (some 0), .set 99 none, .set 100 (some 1)]).out =
      [none, some 101] := by
  have c0 : core (run {} [.statistic .rate true 1, .set 0 (some 100)]) =
      ⟨.rate, false, 1, some 0, 100, 0, 1, none, [], []⟩ := by
    refine (core_set_sync (p := run {} [.statistic .rate true 1]) (by decide) rfl 0 100).trans ?_
    rw [if_neg (by norm_num [run, step, Par.setKind])]
    norm_num [core, run, step, Par.setKind, reported, times]
  generalize hp : run {} [.statistic .rate true 1, .set 0 (some 100)] = p at c0
  have c1 : core (p.set (1 / 2) (some 0)).2 = ⟨.rate, false, 1, some 0, 100, 1 / 2, 2, none, [], []⟩ := by
    cases p
    simp only [core, Core.mk.injEq] at c0
    obtain ⟨rfl, rfl, rfl, rfl, rfl, rfl, rfl, rfl, h8, h9⟩ := c0
    rw [core_set_sync (by simp) rfl, if_neg (by norm_num)]
    norm_num [core, h8, h9]
  generalize hq : (p.set (1 / 2) (some 0)).2 = q at c1
  have c2 : core (q.set 99 none).2 = ⟨.rate, false, 1, some 99, 100, 1 / 2, 2, none, [none], [99]⟩ := by
    rw [set_null, Par.setPlain]
    cases q
    simp only [core, Core.mk.injEq] at c1
    obtain ⟨rfl, rfl, rfl, rfl, rfl, rfl, rfl, rfl, h8, h9⟩ := c1
    rw [if_pos (by norm_num [Par.fires]), core_fire, core_inform]
    norm_num [core, h8, h9]
  generalize hr : (q.set 99 none).2 = r at c2
  have c3 : core (r.set 100 (some 1)).2 = ⟨.rate, false, 1, some 100, 0, 0, 0, some 101, [none, some 101], [99, 100]⟩ := by
    cases r
    simp only [core, Core.mk.injEq] at c2
    obtain ⟨rfl, rfl, rfl, rfl, rfl, rfl, rfl, rfl, h8, h9⟩ := c2
    rw [core_set_sync (by simp) rfl, if_pos (by norm_num)]
    norm_num [core, h8, h9, Par.calc, Par.clock, Par.add]
  have hrun : run {} [.statistic .rate true 1, .set 0 (some 100), .set (1 / 2) (some 0), .set 99 none, .set 100 (some 1)]
      = (r.set 100 (some 1)).2 := by
    rw [← hr, ← hq, ← hp]; rfl
  rw [hrun]
  exact congrArg Core.rep c3

/-- **C74** is violated: for a synchronous statistic `SetValue` gives false whenever the value is not reported at once,
although the value is taken: the caller cannot tell it from a refusal. -/
theorem C74_result_counterexample (p : Par) (k : Kind) (hk : k ≠ .none) (hl : p.last = none) (i t x : Rat) :
    ((p.setKind k true i).set t (some x)).1 = false ∧
    ((p.setKind k true i).set t (some x)).2.valueSum = x := by
  have hk' : (p.setKind k true i).kind ≠ .none := hk
  have hd : ¬ ((p.setKind k true i).interval ≤ t - (p.setKind k true i).last.getD t ∧
      1 / 1000000 ≤ t - (p.setKind k true i).last.getD t) := by
    have : (p.setKind k true i).last.getD t = t := by
      show p.last.getD t = t
      rw [hl]; rfl
    rw [this]
    intro h
    have := h.2
    simp only [sub_self] at this
    exact absurd this (by norm_num)
  constructor
  · rw [set_sync_result hk' rfl, decide_eq_false hd]
  · have := core_set_sync hk' rfl t x
    rw [if_neg hd] at this
    refine (congrArg Core.valueSum this).trans ?_
    show (0 : Rat) + x = x
    simp

/-! ### Plain parameters -/

/-- What holds for a plain synchronous parameter. -/
structure Plain (i : Rat) (v : Option Rat) (p : Par) : Prop where
  kind : p.kind = .none
  sync : p.async = false
  interval : p.interval = i
  value : p.value = v
  last : p.last = (times p.out).getLast?
  apart : 0 < i → (times p.out).IsChain (fun a b => a + i < b)

theorem plain_of_core {i : Rat} {v : Option Rat} {p q : Par} (h : Plain i v p) (e : core q = core p) : Plain i v q := by
  have e1 : q.kind = p.kind := congrArg Core.kind e
  have e2 : q.async = p.async := congrArg Core.async e
  have e3 : q.interval = p.interval := congrArg Core.interval e
  have e4 : q.value = p.value := congrArg Core.value e
  have e5 : q.last = p.last := congrArg Core.last e
  have e6 : times q.out = times p.out := congrArg Core.tms e
  exact ⟨e1.trans h.kind, e2.trans h.sync, e3.trans h.interval, e4.trans h.value, by rw [e5, e6, h.last],
    by rw [e6]; exact h.apart⟩

theorem plain_step {i : Rat} {v : Option Rat} {p : Par} (h : Plain i v p) {op : Op} (hu : Uses op) :
    Plain i (lastSet v [op]) (step p op) := by
  cases op with
  | set now x =>
    have hc := core_plain h.kind now x
    have hf := fires_iff h.sync now
    by_cases hfire : p.fires now = true
    · rw [if_pos hfire] at hc
      have e1 : (p.set now x).2.kind = p.kind := congrArg Core.kind hc
      have e2 : (p.set now x).2.async = p.async := congrArg Core.async hc
      have e3 : (p.set now x).2.interval = p.interval := congrArg Core.interval hc
      have e4 : (p.set now x).2.value = x := congrArg Core.value hc
      have e5 : (p.set now x).2.last = some now := congrArg Core.last hc
      have e6 : times (p.set now x).2.out = times p.out ++ [now] := congrArg Core.tms hc
      refine ⟨e1.trans h.kind, e2.trans h.sync, e3.trans h.interval, e4, ?_, ?_⟩
      · show (p.set now x).2.last = _
        rw [e5]
        show _ = (times (p.set now x).2.out).getLast?
        rw [e6]; simp
      · intro hi
        show (times (p.set now x).2.out).IsChain _
        rw [e6, List.isChain_append]
        refine ⟨h.apart hi, List.IsChain.singleton _, ?_⟩
        intro a ha b hb
        simp only [List.head?_cons, Option.mem_def, Option.some.injEq] at hb
        subst hb
        rw [Option.mem_def, ← h.last] at ha
        rcases hf.1 hfire with e | e | ⟨l, e, e'⟩
        · rw [e] at ha; cases ha
        · rw [h.interval] at e; linarith
        · rw [e] at ha
          cases ha
          rw [h.interval] at e'; exact e'
    · rw [if_neg hfire] at hc
      have e1 : (p.set now x).2.kind = p.kind := congrArg Core.kind hc
      have e2 : (p.set now x).2.async = p.async := congrArg Core.async hc
      have e3 : (p.set now x).2.interval = p.interval := congrArg Core.interval hc
      have e4 : (p.set now x).2.value = x := congrArg Core.value hc
      have e5 : (p.set now x).2.last = p.last := congrArg Core.last hc
      have e6 : times (p.set now x).2.out = times p.out := congrArg Core.tms hc
      refine ⟨e1.trans h.kind, e2.trans h.sync, e3.trans h.interval, e4, ?_, ?_⟩
      · show (p.set now x).2.last = (times (p.set now x).2.out).getLast?
        rw [e5, e6, h.last]
      · show 0 < i → (times (p.set now x).2.out).IsChain _
        rw [e6]; exact h.apart
  | timeout now d =>
    refine plain_of_core h ?_
    show core (p.timeout now d) = _
    rw [timeout_sync h.sync]
  | attr x => exact plain_of_core h (core_attr p x)
  | confirm => exact plain_of_core h rfl
  | monitor on => exact plain_of_core h rfl
  | statistic => exact hu.elim
  | disable => exact hu.elim
  | synchron => exact hu.elim

theorem plain_run {i : Rat} {v : Option Rat} {p : Par} (h : Plain i v p) (ops : List Op) (hu : ∀ op ∈ ops, Uses op) :
    Plain i (lastSet v ops) (run p ops) := by
  induction ops generalizing p v with
  | nil => exact h
  | cons op ops ih =>
    have := ih (plain_step h (hu op List.mem_cons_self)) (fun o ho => hu o (List.mem_cons_of_mem _ ho))
    have e : lastSet (lastSet v [op]) ops = lastSet v (op :: ops) := by
      cases op <;> rfl
    rw [e] at this
    exact this

/-- **C74**: the value of a plain parameter is always the last one set; its events are more than the interval apart;
a value set more than the interval after the last event (or the first one) is reported at once, with this value;
other values are not reported. -/
theorem C74_plain (p : Par) (hk : p.kind = .none) (ha : p.async = false) (hl : p.last = none)
    (ht : times p.out = []) (ops : List Op) (hu : ∀ op ∈ ops, Uses op) :
    (run p ops).value = lastSet p.value ops ∧
    (0 < p.interval → (times (run p ops).out).IsChain (fun a b => a + p.interval < b)) ∧
    (∀ now x, ((run p ops).set now x).1 = true ∧ ((run p ops).set now x).2.value = x ∧
      ((∀ t, (times (run p ops).out).getLast? = some t → p.interval ≤ 0 ∨ t + p.interval < now) →
        reported (step (run p ops) (.set now x)).out = reported (run p ops).out ++ [x]) ∧
      ((∃ t, (times (run p ops).out).getLast? = some t ∧ 0 < p.interval ∧ now ≤ t + p.interval) →
        reported (step (run p ops) (.set now x)).out = reported (run p ops).out)) := by
  have h := plain_run (p := p) (i := p.interval) (v := p.value) ⟨hk, ha, rfl, rfl, by rw [hl, ht]; rfl, by
    intro _; rw [ht]; exact List.IsChain.nil⟩ ops hu
  refine ⟨h.value, h.apart, fun now x => ?_⟩
  have hc := core_plain h.kind now x
  have hf := fires_iff h.sync now
  rw [h.last, h.interval] at hf
  have hset : (run p ops).set now x = (run p ops).setPlain now x := by unfold Par.set; rw [h.kind]
  refine ⟨?_, ?_, ?_, ?_⟩
  · rw [hset, Par.setPlain]; split <;> rfl
  · refine (congrArg Core.value hc).trans ?_
    split <;> rfl
  · intro hcond
    have : (run p ops).fires now = true := by
      refine hf.2 ?_
      cases e : (times (run p ops).out).getLast? with
      | none => exact Or.inl rfl
      | some t =>
        rcases hcond t e with c | c
        · exact Or.inr (Or.inl c)
        · exact Or.inr (Or.inr ⟨t, rfl, c⟩)
    rw [if_pos this] at hc
    exact congrArg Core.rep hc
  · rintro ⟨t, e, c, d⟩
    have : ¬ (run p ops).fires now = true := by
      intro hh
      rcases hf.1 hh with c' | c' | ⟨l, c', d'⟩
      · rw [e] at c'; cases c'
      · exact absurd c (not_lt.2 c')
      · rw [e] at c'; cases c'; exact absurd d' (not_lt.2 d)
    rw [if_neg this] at hc
    exact congrArg Core.rep hc

example : reported (run {} [.set 0 (some 1), .set 2 (some 5), .set 3 (some 6)]).out = [some 1, some 5] ∧
    (run {} [.set 0 (some 1), .set 2 (some 5), .set 3 (some 6)]).value = some 6 := by
  constructor <;> decide +kernel

/-- **C74**: with interval 0 every value set to a plain parameter is reported, in order. -/
theorem C74_every (p : Par) (hk : p.kind = .none) (ha : p.async = false) (hi : p.interval ≤ 0) (ops : List Op)
    (hu : ∀ op ∈ ops, Uses op) :
    reported (run p ops).out = reported p.out ++ ops.filterMap (fun op => match op with
      | .set _ x => some x
      | _ => none) := by
  induction ops generalizing p with
  | nil => simp [run]
  | cons op ops ih =>
    have hu' : ∀ op ∈ ops, Uses op := fun o ho => hu o (List.mem_cons_of_mem _ ho)
    have key : ∀ q : Par, core q = core p → reported (run q ops).out = reported p.out ++ ops.filterMap (fun op => match op with
      | .set _ x => some x
      | _ => none) := by
      intro q e
      have e1 : q.kind = p.kind := congrArg Core.kind e
      have e2 : q.async = p.async := congrArg Core.async e
      have e3 : q.interval = p.interval := congrArg Core.interval e
      have e4 : reported q.out = reported p.out := congrArg Core.rep e
      rw [ih q (e1.trans hk) (e2.trans ha) (by rw [e3]; exact hi) hu', e4]
    cases op with
    | set now x =>
      have hc := core_plain hk now x
      rw [if_pos ((fires_iff ha now).2 (Or.inr (Or.inl hi)))] at hc
      have e1 : (p.set now x).2.kind = p.kind := congrArg Core.kind hc
      have e2 : (p.set now x).2.async = p.async := congrArg Core.async hc
      have e3 : (p.set now x).2.interval = p.interval := congrArg Core.interval hc
      have e4 : reported (p.set now x).2.out = reported p.out ++ [x] := congrArg Core.rep hc
      refine (ih (p.set now x).2 (e1.trans hk) (e2.trans ha) (by rw [e3]; exact hi) hu').trans ?_
      rw [e4]; simp
    | timeout now d =>
      refine key (p.timeout now d) ?_
      rw [timeout_sync ha]
    | attr x => exact key _ (core_attr p x)
    | confirm => exact key p.confirm rfl
    | monitor on => exact key { p with monitored := on } rfl
    | statistic => exact (hu _ List.mem_cons_self).elim
    | disable => exact (hu _ List.mem_cons_self).elim
    | synchron => exact (hu _ List.mem_cons_self).elim

/-- **C74** is violated: a plain parameter which was made asynchronous before its first value never reports anything,
whatever is set and however long one waits. -/
theorem C74_silent_counterexample (p : Par) (hk : p.kind = .none) (hl : p.last = none) (i : Rat) (ops : List Op)
    (hu : ∀ op ∈ ops, Uses op) :
    reported (run p (.synchron false i :: ops)).out = reported p.out := by
  have key : ∀ (ops : List Op) (q : Par), (∀ op ∈ ops, Uses op) → q.kind = .none → q.async = true → q.last = none →
      reported (run q ops).out = reported q.out := by
    intro ops
    induction ops with
    | nil => intros; rfl
    | cons op ops ih =>
      intro q hu hk ha hl
      have hu' : ∀ op ∈ ops, Uses op := fun o ho => hu o (List.mem_cons_of_mem _ ho)
      have same : ∀ c : Core, core (step q op) = c → c.kind = .none → c.async = true → c.last = none →
          c.rep = reported q.out → reported (run (step q op) ops).out = reported q.out := by
        intro c e h1 h2 h3 h4
        subst e
        rw [ih (step q op) hu' h1 h2 h3]; exact h4
      cases op with
      | set now x =>
        have : q.set now x = q.setPlain now x := by unfold Par.set; rw [hk]
        have hc : core (step q (.set now x)) = { core q with value := x } := by
          show core (q.set now x).2 = _
          rw [this]; exact core_null_async ha now x
        exact same _ hc hk ha hl rfl
      | timeout now d =>
        have hc : core (step q (.timeout now d)) = { core q with timeSum := q.timeSum + d } := by
          show core (q.timeout now d) = _
          unfold Par.timeout
          rw [if_neg (by simp [ha])]
          dsimp only
          rw [if_neg (by simp [hk]), if_neg (by simp [hl])]
          rfl
        exact same _ hc hk ha hl rfl
      | attr x => exact same _ (core_attr q x) hk ha hl rfl
      | confirm => exact same _ rfl hk ha hl rfl
      | monitor on => exact same _ rfl hk ha hl rfl
      | statistic => exact (hu _ List.mem_cons_self).elim
      | disable => exact (hu _ List.mem_cons_self).elim
      | synchron => exact (hu _ List.mem_cons_self).elim
  refine (key ops (p.synchron false i) hu hk rfl hl).trans ?_
  show reported (p.out ++ [Out.configured]) = _
  rw [reported_append]; simp [reported]

example : ∃ p : Par, p.kind = .none ∧ p.last = none ∧ p.async = false ∧ times p.out = [] ∧ 0 < p.interval :=
  ⟨{}, rfl, rfl, rfl, rfl, by norm_num⟩

/-- **C74** is violated: the last value set within the interval is never reported if no other follows. -/
theorem C74_last_lost_counterexample (p : Par) (hk : p.kind = .none) (ha : p.async = false) (hl : p.last = none)
    (ht : times p.out = []) (hi : 0 < p.interval) (x y now t : Rat) (hn : now ≤ t + p.interval) (waits : List (Rat × Rat)) :
    reported (run p ([.set t (some x), .set now (some y)] ++ waits.map (fun w => .timeout w.1 w.2))).out =
      reported p.out ++ [some x] := by
  have h0 := C74_plain p hk ha hl ht [] (by simp)
  have hx := (h0.2.2 t (some x)).2.2.1 (by intro s hs; rw [show run p [] = p from rfl, ht] at hs; cases hs)
  have hP := plain_run (p := p) (i := p.interval) (v := p.value) ⟨hk, ha, rfl, rfl, by rw [hl, ht]; rfl, by
    intro _; rw [ht]; exact List.IsChain.nil⟩ [.set t (some x)] (by intro op h; simp at h; subst h; trivial)
  have h1 := C74_plain p hk ha hl ht [.set t (some x)] (by intro op h; simp at h; subst h; trivial)
  have hts : times (run p [.set t (some x)]).out = [t] := by
    have hc := core_plain hk t (some x)
    rw [if_pos ((fires_iff ha t).2 (Or.inl hl))] at hc
    refine (congrArg Core.tms hc).trans ?_
    show times p.out ++ [t] = [t]
    rw [ht]; rfl
  have hy := (h1.2.2 now (some y)).2.2.2 ⟨t, by rw [hts]; rfl, hi, hn⟩
  rw [run_append]
  have hs : (run p [.set t (some x), .set now (some y)]).async = false :=
    (plain_step hP (op := .set now (some y)) trivial).sync
  have hw : ∀ (ws : List (Rat × Rat)) (q : Par), q.async = false → run q (ws.map (fun w => .timeout w.1 w.2)) = q := by
    intro ws
    induction ws with
    | nil => intros; rfl
    | cons w ws ih =>
      intro q hq
      show run (q.timeout w.1 w.2) _ = q
      rw [timeout_sync hq]; exact ih q hq
  rw [hw _ _ hs]
  exact hy.trans hx

/-! ### The worker -/

/-- Number of confirmations. -/
def confirms : List Op → Nat
  | [] => 0
  | .confirm :: ops => 1 + confirms ops
  | _ :: ops => confirms ops

theorem timeout_tells (p : Par) (now d : Rat) (hk : p.kind ≠ .none) :
    (p.timeout now d).kind = p.kind ∧ (p.timeout now d).async = p.async ∧
    (tellings (p.timeout now d).out).length + (if (p.timeout now d).waitWorker then 0 else 1) ≤
      (tellings p.out).length + (if p.waitWorker then 0 else 1) := by
  unfold Par.timeout
  by_cases ha : p.async = false
  · rw [if_pos ha]; exact ⟨rfl, rfl, le_refl _⟩
  · rw [if_neg ha]
    dsimp only
    rw [if_pos hk]
    split
    · refine ⟨?_, ?_, ?_⟩
      · exact ((inform_facts _ _ _ _).1)
      · exact ((inform_facts _ _ _ _).2.1)
      · cases hw : p.waitWorker <;> cases hm : p.monitored <;> cases hr : p.recorded <;> cases hwk : p.worker <;>
          simp [Par.fire, Par.inform, Par.clear, Par.watched, hw, hm, hr, hwk, tellings_append, tellings]
    · exact ⟨rfl, rfl, le_refl _⟩

/-- **C74**: while only values and timeouts come to an asynchronous statistic, its worker is informed again only after
it has confirmed. -/
theorem C74_worker_partial (p : Par) (hk : p.kind ≠ .none) (ha : p.async = true) (ops : List Op)
    (hu : ∀ op ∈ ops, match op with
      | .set _ (some _) => True
      | .timeout .. => True
      | .confirm => True
      | .monitor _ => True
      | _ => False) :
    (tellings (run p ops).out).length + (if (run p ops).waitWorker then 0 else 1) ≤
      (tellings p.out).length + confirms ops + (if p.waitWorker then 0 else 1) := by
  induction ops generalizing p with
  | nil => exact le_refl _
  | cons op ops ih =>
    have hu' := fun o ho => hu o (List.mem_cons_of_mem _ ho)
    have h0 := hu op List.mem_cons_self
    cases op with
    | set now x =>
      cases x with
      | none => exact h0.elim
      | some x =>
        have e : (p.set now (some x)).2 = p.add x := by
          rw [set_stat hk, Par.setStat]
          have : (p.add x).async = true := ha
          simp only [this, if_true]
        have := ih (p.add x) hk ha hu'
        show (tellings (run (p.set now (some x)).2 ops).out).length +
          (if (run (p.set now (some x)).2 ops).waitWorker then 0 else 1) ≤ _
        rw [e]
        exact this
    | timeout now d =>
      have ht := timeout_tells p now d hk
      have := ih (p.timeout now d) (by rw [ht.1]; exact hk) (by rw [ht.2.1]; exact ha) hu'
      have h3 := ht.2.2
      show (tellings (run (p.timeout now d) ops).out).length + (if (run (p.timeout now d) ops).waitWorker then 0 else 1) ≤
        (tellings p.out).length + confirms ops + _
      omega
    | confirm =>
      have := ih p.confirm hk ha hu'
      have e1 : p.confirm.waitWorker = false := rfl
      have e2 : p.confirm.out = p.out := rfl
      rw [e1, e2] at this
      show (tellings (run p.confirm ops).out).length + (if (run p.confirm ops).waitWorker then 0 else 1) ≤
        (tellings p.out).length + (1 + confirms ops) + _
      simp only [Bool.false_eq_true, if_false] at this
      omega
    | monitor on => exact ih { p with monitored := on } hk ha hu'
    | attr x => exact h0.elim
    | statistic => exact h0.elim
    | disable => exact h0.elim
    | synchron => exact h0.elim

example : ∃ p : Par, p.kind ≠ .none ∧ p.async = true ∧
    tellings (run p [.set 0 (some 1), .timeout 1 1, .timeout 2 1, .confirm, .timeout 3 1]).out = [some 1, some 0] :=
  ⟨{ kind := .rate, async := true, monitored := true }, by simp, rfl, by decide +kernel⟩

/-- **C74**: what the worker of a parameter gets from one call: nothing if the parameter is neither monitored nor
recorded; otherwise exactly one message for each value or attribute, except for values of an asynchronous statistic; it
shows the reported value, or nothing if nothing is reported.  Without worker nothing is sent and nothing is waited for. -/
theorem C74_told (p : Par) (now : Rat) (x : Option Rat) (a : String) :
    (p.watched = false → tellings (p.set now x).2.out = tellings p.out ∧ tellings (p.setAttr a).out = tellings p.out ∧
      (p.set now x).2.waitWorker = p.waitWorker ∧ (p.setAttr a).waitWorker = p.waitWorker) ∧
    (p.watched = true → p.worker = false → tellings (p.set now x).2.out = tellings p.out ∧
      tellings (p.setAttr a).out = tellings p.out ∧ (p.setAttr a).waitWorker = false) ∧
    (p.watched = true → p.worker = true → tellings (p.setAttr a).out = tellings p.out ++ [none] ∧
      (p.setAttr a).waitWorker = p.waitWorker) ∧
    (p.watched = true → p.worker = true → (p.kind = .none ∨ x = none ∨ p.async = false) →
      tellings (p.set now x).2.out = tellings p.out ++
        [if reported (p.set now x).2.out = reported p.out then none else (p.set now x).2.value]) := by
  have hI : ∀ (q : Par) (w r : Bool) (v : Option Rat), q.watched = false → w = false →
      tellings (q.inform w r v).out = tellings q.out ∧ (q.inform w r v).waitWorker = q.waitWorker := by
    intro q w r v h hw
    unfold Par.inform
    rw [h, hw]
    simp
  have hN : ∀ (q : Par) (r : Bool) (v : Option Rat), q.worker = false →
      tellings (q.inform true r v).out = tellings q.out ∧ (q.inform true r v).waitWorker = false := by
    intro q r v h
    unfold Par.inform
    cases q.watched <;> cases r <;> cases q.waitWorker <;> simp [h]
  have hT : ∀ (q : Par) (r : Bool) (v : Option Rat), q.worker = true →
      tellings (q.inform true r v).out = tellings q.out ++ [v] := by
    intro q r v h
    unfold Par.inform
    cases q.watched <;> cases r <;> cases q.waitWorker <;> simp [h, tellings_append, tellings]
  have hW : ∀ (q : Par) (v : Option Rat), q.worker = true → (q.inform true false v).waitWorker = q.waitWorker := by
    intro q v h
    unfold Par.inform
    cases q.watched <;> cases hq : q.waitWorker <;> simp [h, hq]
  have hF : ∀ (q : Par) (v : Option Rat), tellings (q.fire now v).out = tellings q.out ∧
      (q.fire now v).waitWorker = q.waitWorker ∧ (q.fire now v).value = q.value := by
    intro q v
    exact ⟨by simp [Par.fire, tellings_append, tellings], rfl, rfl⟩
  have hset : p.set now x = p.setPlain now x ∨ ∃ y, x = some y ∧ p.kind ≠ .none ∧ p.set now x = p.setStat now y := by
    cases hk : p.kind
    · left; unfold Par.set; rw [hk]
    · cases x with
      | none => left; exact set_null p now
      | some y => right; exact ⟨y, rfl, by simp, set_stat (by rw [hk]; simp) now y⟩
    · cases x with
      | none => left; exact set_null p now
      | some y => right; exact ⟨y, rfl, by simp, set_stat (by rw [hk]; simp) now y⟩
  refine ⟨?_, ?_, ?_, ?_⟩
  · intro hw
    have hA := hI { p with attr := some a, attrModified := true } p.watched false none hw hw
    refine ⟨?_, hA.1, ?_, hA.2⟩
    · rcases hset with e | ⟨y, -, -, e⟩
      · rw [e, Par.setPlain]
        split
        · exact ((hF _ _).1).trans (hI ({ p with value := x, last := some now } : Par) _ _ _ hw hw).1
        · exact (hI { p with value := x } _ _ _ hw hw).1
      · rw [e, Par.setStat]
        dsimp only
        split
        · rfl
        · split
          · exact ((hF _ _).1).trans (hI ({ ((p.add y).clock now).clear with last := some now, value := some ((p.add y).clock now).calc } : Par) _ _ _ hw hw).1
          · exact (hI ((p.add y).clock now) _ _ _ hw hw).1
    · rcases hset with e | ⟨y, -, -, e⟩
      · rw [e, Par.setPlain]
        split
        · exact ((hF _ _).2.1).trans (hI ({ p with value := x, last := some now } : Par) _ _ _ hw hw).2
        · exact (hI { p with value := x } _ _ _ hw hw).2
      · rw [e, Par.setStat]
        dsimp only
        split
        · rfl
        · split
          · exact ((hF _ _).2.1).trans (hI ({ ((p.add y).clock now).clear with last := some now, value := some ((p.add y).clock now).calc } : Par) _ _ _ hw hw).2
          · exact (hI ((p.add y).clock now) _ _ _ hw hw).2
  · intro hw hk
    have hA := hN { p with attr := some a, attrModified := true } false none hk
    refine ⟨?_, ?_, ?_⟩
    · rcases hset with e | ⟨y, -, -, e⟩
      · rw [e, Par.setPlain]
        split
        · rw [hw]; exact ((hF _ _).1).trans (hN ({ p with value := x, last := some now } : Par) _ _ hk).1
        · rw [hw]; exact (hN { p with value := x } _ _ hk).1
      · rw [e, Par.setStat]
        dsimp only
        have hw' : ((p.add y).clock now).watched = true := hw
        split
        · rfl
        · rw [hw']
          split
          · exact ((hF _ _).1).trans (hN ({ ((p.add y).clock now).clear with last := some now, value := some ((p.add y).clock now).calc } : Par) _ _ hk).1
          · exact (hN ((p.add y).clock now) _ _ hk).1
    · rw [Par.setAttr, hw]; exact hA.1
    · rw [Par.setAttr, hw]; exact hA.2
  · intro hw hk
    rw [Par.setAttr, hw]
    exact ⟨hT { p with attr := some a, attrModified := true } false none hk,
      hW { p with attr := some a, attrModified := true } none hk⟩
  · intro hw hk hno
    have hrep : ∀ (q : Par) (r : Bool) (v u : Option Rat), reported q.out = reported p.out →
        ¬ reported ((q.inform true r v).fire now u).out = reported p.out := by
      intro q r v u hq
      simp only [Par.fire, reported_append, (inform_facts q true r v).2.2.2.2.2.2.2.2.1, hq, reported]
      simp
    rcases hset with e | ⟨y, hy, hkind, e⟩
    · rw [e, Par.setPlain]
      split
      · rw [hw, if_neg (hrep { p with value := x, last := some now } _ _ _ rfl)]
        rw [(hF _ _).1, (hF _ _).2.2, hT { p with value := x, last := some now } _ _ hk]
        rw [(inform_facts _ _ _ _).2.2.2.2.2.2.2.1]
      · rw [hw, if_pos ((inform_facts _ _ _ _).2.2.2.2.2.2.2.2.1)]
        exact hT { p with value := x } _ _ hk
    · have ha : p.async = false := by
        rcases hno with h | h | h
        · exact absurd h hkind
        · rw [hy] at h; cases h
        · exact h
      rw [e, Par.setStat]
      have ha' : (p.add y).async = false := ha
      have hw' : ((p.add y).clock now).watched = true := hw
      simp only [ha', Bool.false_eq_true, if_false, hw']
      split
      · rename_i hdue
        generalize hq : ((({ ((p.add y).clock now).clear with last := some now, value := some ((p.add y).clock now).calc }) : Par)) = q
        have hq1 : reported q.out = reported p.out := by rw [← hq]; rfl
        have hq2 : tellings q.out = tellings p.out := by rw [← hq]; rfl
        have hq3 : q.worker = true := by rw [← hq]; exact hk
        have hq4 : q.value = some ((p.add y).clock now).calc := by rw [← hq]
        dsimp only
        rw [if_neg (hrep q _ _ _ hq1), (hF _ _).1, (hF _ _).2.2, hT q _ _ hq3, hq2,
          (inform_facts _ _ _ _).2.2.2.2.2.2.2.1, hq4]
      · dsimp only
        rw [if_pos (show reported (((p.add y).clock now).inform true false none).out = reported p.out from
          (inform_facts ((p.add y).clock now) true false none).2.2.2.2.2.2.2.2.1)]
        exact hT ((p.add y).clock now) _ _ hk

/-- **C74**: `DisableRatemeter` and `DisableAverage` give a plain synchronous parameter, `SetSynchron` an interval which
is not negative; neither changes the value. -/
theorem C74_settings (p : Par) (on : Bool) (i : Rat) :
    p.disable.kind = .none ∧ p.disable.async = false ∧ p.disable.value = p.value ∧ p.disable.interval = p.interval ∧
    (p.synchron on i).async = !on ∧ (p.synchron on i).interval = max i 0 ∧ (p.synchron on i).kind = p.kind ∧
    (p.synchron on i).value = p.value := by
  refine ⟨rfl, rfl, rfl, rfl, rfl, ?_, rfl, rfl⟩
  show (if i > 0 then i else 0) = _
  split
  · rename_i h; rw [max_eq_left (le_of_lt h)]
  · rename_i h; rw [max_eq_right (not_lt.1 h)]

/-- **C74** is violated: `fWaitWorker` does not hold back anything in `SetField`: the worker of a monitored parameter is
informed for each value, without its confirmation, also when nothing is reported (then with an empty text). -/
theorem C74_worker_counterexample :
    tellings (run {} [.monitor true, .set 0 (some 1), .set (1 / 2) (some 2), .set (3 / 4) (some 3), .attr "ns"]).out =
      [some 1, none, none, none] ∧
    reported (run {} [.monitor true, .set 0 (some 1), .set (1 / 2) (some 2), .set (3 / 4) (some 3), .attr "ns"]).out =
      [some 1] := by
  constructor <;> decide +kernel

end Verif.Param
