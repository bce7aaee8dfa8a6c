import Verif.Spec.Param
import Mathlib.Algebra.Order.Field.Rat
import Mathlib.Tactic.Linarith
import Mathlib.Tactic.FieldSimp

namespace Verif.Param

open Spec

/-! ### Outputs -/

theorem reported_append (a b : List Out) : reported (a ++ b) = reported a ++ reported b := by
  induction a with
  | nil => rfl
  | cons o os ih => cases o <;> simp [reported, ih]

theorem times_append (a b : List Out) : times (a ++ b) = times a ++ times b := by
  induction a with
  | nil => rfl
  | cons o os ih => cases o <;> simp [times, ih]

theorem tellings_append (a b : List Out) : tellings (a ++ b) = tellings a ++ tellings b := by
  induction a with
  | nil => rfl
  | cons o os ih => cases o <;> simp [tellings, ih]

theorem run_append (p : Par) (a b : List Op) : run p (a ++ b) = run (run p a) b := by simp [run]

/-! ### Informing the worker changes only `waitWorker` and `out` -/

theorem inform_facts (p : Par) (a r : Bool) (v : Option Rat) :
    (p.inform a r v).kind = p.kind ∧ (p.inform a r v).async = p.async ∧ (p.inform a r v).interval = p.interval ∧
    (p.inform a r v).last = p.last ∧ (p.inform a r v).valueSum = p.valueSum ∧ (p.inform a r v).timeSum = p.timeSum ∧
    (p.inform a r v).numSum = p.numSum ∧ (p.inform a r v).value = p.value ∧
    reported (p.inform a r v).out = reported p.out ∧ times (p.inform a r v).out = times p.out ∧
    (p.inform a r v).monitored = p.monitored ∧ (p.inform a r v).recorded = p.recorded ∧
    (p.inform a r v).worker = p.worker := by
  unfold Par.inform
  dsimp only
  split <;> split <;> (try split) <;>
    simp_all [reported_append, times_append, reported, times]

/-- The part of the state which the statistics use. -/
structure Core where
  kind : Kind
  async : Bool
  interval : Rat
  last : Option Rat
  valueSum : Rat
  timeSum : Rat
  numSum : Rat
  value : Option Rat
  rep : List (Option Rat)
  tms : List Rat

def core (p : Par) : Core :=
  ⟨p.kind, p.async, p.interval, p.last, p.valueSum, p.timeSum, p.numSum, p.value, reported p.out, times p.out⟩

theorem core_inform (p : Par) (a r : Bool) (v : Option Rat) : core (p.inform a r v) = core p := by
  obtain ⟨h1, h2, h3, h4, h5, h6, h7, h8, h9, h10, -⟩ := inform_facts p a r v
  simp only [core, h1, h2, h3, h4, h5, h6, h7, h8, h9, h10]

theorem core_fire (p : Par) (now : Rat) (v : Option Rat) :
    core (p.fire now v) = { core p with rep := (core p).rep ++ [v], tms := (core p).tms ++ [now] } := by
  simp [core, Par.fire, reported_append, times_append, reported, times]

/-! ### One call, seen by the statistics -/

theorem due_iff (p : Par) : p.due = true ↔ p.interval ≤ p.timeSum ∧ 1 / 1000000 ≤ p.timeSum := by
  simp only [Par.due, Bool.not_eq_true', Bool.or_eq_false_iff, decide_eq_false_iff_not, not_lt]

theorem core_attr (p : Par) (x : String) : core (p.setAttr x) = core p := by
  rw [Par.setAttr, core_inform]; rfl

theorem core_other (p : Par) {op : Op} (hu : Uses op) (h1 : ∀ n x, op ≠ .set n x) (h2 : ∀ n d, op ≠ .timeout n d) :
    core (step p op) = core p := by
  cases op with
  | set n x => exact absurd rfl (h1 n x)
  | timeout n d => exact absurd rfl (h2 n d)
  | attr x => exact core_attr p x
  | confirm => rfl
  | monitor on => rfl
  | statistic => exact hu.elim
  | disable => exact hu.elim
  | synchron => exact hu.elim

theorem set_stat {p : Par} (hk : p.kind ≠ .none) (now x : Rat) : p.set now (some x) = p.setStat now x := by
  unfold Par.set
  cases h : p.kind
  · exact absurd h hk
  · rfl
  · rfl

theorem set_null (p : Par) (now : Rat) : p.set now none = p.setPlain now none := by
  unfold Par.set
  cases p.kind <;> rfl

/-- A value of an asynchronous statistic. -/
theorem core_set_async {p : Par} (hk : p.kind ≠ .none) (ha : p.async = true) (now x : Rat) :
    core (p.set now (some x)).2 = { core p with valueSum := p.valueSum + x, numSum := p.numSum + 1 } := by
  rw [set_stat hk, Par.setStat]
  have : (p.add x).async = true := ha
  simp only [this, if_true]
  rfl

theorem core_null_async {p : Par} (ha : p.async = true) (now : Rat) (x : Option Rat) :
    core (p.setPlain now x).2 = { core p with value := x } := by
  have : p.fires now = false := by simp [Par.fires, ha]
  rw [Par.setPlain, this]
  simp only [Bool.false_eq_true, if_false]
  rw [core_inform]; rfl

/-- A timeout of an asynchronous statistic. -/
theorem core_timeout_async {p : Par} (hk : p.kind ≠ .none) (ha : p.async = true) (now d : Rat) :
    core (p.timeout now d) =
      if p.interval ≤ p.timeSum + d ∧ 1 / 1000000 ≤ p.timeSum + d then
        let v := some ({ p with timeSum := p.timeSum + d } : Par).calc
        { core p with valueSum := 0, timeSum := 0, numSum := 0, last := some now, value := v,
                      rep := (core p).rep ++ [v], tms := (core p).tms ++ [now] }
      else { core p with timeSum := p.timeSum + d } := by
  unfold Par.timeout
  rw [if_neg (by simp [ha])]
  dsimp only
  rw [if_pos hk]
  by_cases hd : p.interval ≤ p.timeSum + d ∧ 1 / 1000000 ≤ p.timeSum + d
  · rw [if_pos hd, if_pos ((due_iff { p with timeSum := p.timeSum + d }).2 hd), core_fire, core_inform]
    rfl
  · rw [if_neg hd, if_neg (fun e => hd ((due_iff { p with timeSum := p.timeSum + d }).1 e))]
    rfl

/-- A value of a synchronous statistic. -/
theorem core_set_sync {p : Par} (hk : p.kind ≠ .none) (ha : p.async = false) (now x : Rat) :
    core (p.set now (some x)).2 =
      if p.interval ≤ now - p.last.getD now ∧ 1 / 1000000 ≤ now - p.last.getD now then
        let v := some ((p.add x).clock now).calc
        { core p with valueSum := 0, timeSum := 0, numSum := 0, last := some now, value := v,
                      rep := (core p).rep ++ [v], tms := (core p).tms ++ [now] }
      else { core p with valueSum := p.valueSum + x, numSum := p.numSum + 1, last := some (p.last.getD now),
                         timeSum := now - p.last.getD now } := by
  rw [set_stat hk, Par.setStat]
  have h : (p.add x).async = false := ha
  simp only [h, Bool.false_eq_true, if_false]
  by_cases hd : p.interval ≤ now - p.last.getD now ∧ 1 / 1000000 ≤ now - p.last.getD now
  · rw [if_pos hd, if_pos ((due_iff ((p.add x).clock now)).2 hd), core_fire, core_inform]
    rfl
  · rw [if_neg hd, if_neg (fun e => hd ((due_iff ((p.add x).clock now)).1 e)), core_inform]
    rfl

/-- The result of the call for a synchronous statistic. -/
theorem set_sync_result {p : Par} (hk : p.kind ≠ .none) (ha : p.async = false) (now x : Rat) :
    (p.set now (some x)).1 = decide (p.interval ≤ now - p.last.getD now ∧ 1 / 1000000 ≤ now - p.last.getD now) := by
  rw [set_stat hk, Par.setStat]
  have h : (p.add x).async = false := ha
  simp only [h, Bool.false_eq_true, if_false]
  by_cases hd : p.interval ≤ now - p.last.getD now ∧ 1 / 1000000 ≤ now - p.last.getD now
  · rw [if_pos ((due_iff ((p.add x).clock now)).2 hd), decide_eq_true hd]
  · rw [if_neg (fun e => hd ((due_iff ((p.add x).clock now)).1 e)), decide_eq_false hd]

theorem timeout_sync {p : Par} (ha : p.async = false) (now d : Rat) : p.timeout now d = p := by
  unfold Par.timeout; rw [if_pos ha]

/-- The calculated value. -/
theorem calc_report {p : Par} {w : Window} (hv : p.valueSum = w.vals.sum) (ht : p.timeSum = w.dur)
    (hn : p.numSum = w.vals.length) : p.calc = w.report p.kind := by
  unfold Par.calc Window.report
  cases hk : p.kind
  · simp
  · simp [hv, ht]
  · rcases w with ⟨vals, dur⟩
    cases vals with
    | nil => simp at hn; simp [hn]
    | cons x xs =>
      have : p.numSum > 0 := by
        rw [hn]; exact_mod_cast Nat.succ_pos _
      rw [if_neg (by decide), if_pos ⟨rfl, this⟩]
      simp [hv, hn]

/-! ### Windows -/

theorem async_windows {p : Par} (hk : p.kind ≠ .none) (ha : p.async = true) (w : Window)
    (hv : p.valueSum = w.vals.sum) (ht : p.timeSum = w.dur) (hn : p.numSum = w.vals.length) (ops : List Op)
    (hu : ∀ op ∈ ops, Uses op) :
    let r := asyncWindows p.interval w ops
    reported (run p ops).out = reported p.out ++ r.1.map (fun w => some (w.report p.kind)) ∧
    (run p ops).valueSum = r.2.vals.sum ∧ (run p ops).timeSum = r.2.dur ∧ (run p ops).numSum = r.2.vals.length ∧
    (run p ops).kind = p.kind ∧ (run p ops).async = true ∧ (run p ops).interval = p.interval := by
  induction ops generalizing p w with
  | nil => simp [asyncWindows, run, hv, ht, hn, ha]
  | cons op ops ih =>
    have hu' : ∀ op ∈ ops, Uses op := fun o ho => hu o (List.mem_cons_of_mem _ ho)
    have key : ∀ (q : Par) (c : Core), core q = c → q = step p op → c.kind = p.kind → c.async = true →
        c.interval = p.interval → ∀ w' : Window, c.valueSum = w'.vals.sum → c.timeSum = w'.dur →
        c.numSum = w'.vals.length →
        let r := asyncWindows p.interval w' ops
        reported (run p (op :: ops)).out = c.rep ++ r.1.map (fun w => some (w.report p.kind)) ∧
        (run p (op :: ops)).valueSum = r.2.vals.sum ∧ (run p (op :: ops)).timeSum = r.2.dur ∧
        (run p (op :: ops)).numSum = r.2.vals.length ∧ (run p (op :: ops)).kind = p.kind ∧
        (run p (op :: ops)).async = true ∧ (run p (op :: ops)).interval = p.interval := by
      intro q c hc hq h1 h2 h3 w' h4 h5 h6
      subst hc
      have h1' : q.kind = p.kind := h1
      have h3' : q.interval = p.interval := h3
      have := ih (p := q) (by rw [h1']; exact hk) h2 w' h4 h5 h6 hu'
      rw [h1', h3'] at this
      have hr : run p (op :: ops) = run q ops := by rw [hq]; rfl
      rw [hr]
      exact this
    cases op with
    | set now x =>
      cases x with
      | none =>
        have hc : core (step p (.set now none)) = { core p with value := none } := by
          show core (p.set now none).2 = _
          rw [set_null]; exact core_null_async ha now none
        exact key _ _ hc rfl rfl ha rfl w hv ht hn
      | some x =>
        have hc := core_set_async hk ha now x
        refine key _ _ hc rfl rfl ha rfl ⟨w.vals ++ [x], w.dur⟩ ?_ ht ?_
        · simp [hv]
        · simp [hn]
    | timeout now d =>
      have hc := core_timeout_async hk ha now d
      dsimp only [asyncWindows]
      by_cases hd : p.interval ≤ p.timeSum + d ∧ 1 / 1000000 ≤ p.timeSum + d
      · rw [if_pos hd] at hc
        rw [if_pos (show Window.full ⟨w.vals, w.dur + d⟩ p.interval by rw [ht] at hd; exact hd)]
        have := key _ _ hc rfl rfl ha rfl ⟨[], 0⟩ rfl rfl (by simp)
        dsimp only at this ⊢
        rw [this.1]
        refine ⟨?_, this.2⟩
        rw [calc_report (p := { p with timeSum := p.timeSum + d }) (w := ⟨w.vals, w.dur + d⟩) hv (by simp [ht]) hn]
        simp [core]
      · rw [if_neg hd] at hc
        rw [if_neg (show ¬ Window.full ⟨w.vals, w.dur + d⟩ p.interval by rw [ht] at hd; exact hd)]
        exact key _ _ hc rfl rfl ha rfl ⟨w.vals, w.dur + d⟩ hv (by simp [ht]) hn
    | attr x => exact key _ _ (core_attr p x) rfl rfl ha rfl w hv ht hn
    | confirm => exact key (step p _) (core p) rfl rfl rfl ha rfl w hv ht hn
    | monitor on => exact key (step p _) (core p) rfl rfl rfl ha rfl w hv ht hn
    | statistic => exact (hu _ List.mem_cons_self).elim
    | disable => exact (hu _ List.mem_cons_self).elim
    | synchron => exact (hu _ List.mem_cons_self).elim

theorem sync_windows {p : Par} (hk : p.kind ≠ .none) (ha : p.async = false) (vals : List Rat)
    (hv : p.valueSum = vals.sum) (hn : p.numSum = vals.length) (ops : List Op)
    (hu : ∀ op ∈ ops, Feeds op) :
    let r := syncWindows p.interval p.last vals ops
    reported (run p ops).out = reported p.out ++ r.1.map (fun w => some (w.report p.kind)) ∧
    (run p ops).valueSum = r.2.sum ∧ (run p ops).numSum = r.2.length ∧
    (run p ops).kind = p.kind ∧ (run p ops).async = false ∧ (run p ops).interval = p.interval := by
  induction ops generalizing p vals with
  | nil => simp [syncWindows, run, hv, hn, ha]
  | cons op ops ih =>
    have hu' : ∀ op ∈ ops, Feeds op := fun o ho => hu o (List.mem_cons_of_mem _ ho)
    have key : ∀ (q : Par) (c : Core), core q = c → q = step p op → c.kind = p.kind → c.async = false →
        c.interval = p.interval → ∀ vals' : List Rat, c.valueSum = vals'.sum →
        c.numSum = vals'.length →
        let r := syncWindows p.interval c.last vals' ops
        reported (run p (op :: ops)).out = c.rep ++ r.1.map (fun w => some (w.report p.kind)) ∧
        (run p (op :: ops)).valueSum = r.2.sum ∧
        (run p (op :: ops)).numSum = r.2.length ∧ (run p (op :: ops)).kind = p.kind ∧
        (run p (op :: ops)).async = false ∧ (run p (op :: ops)).interval = p.interval := by
      intro q c hc hq h1 h2 h3 w' h4 h6
      subst hc
      have h1' : q.kind = p.kind := h1
      have h3' : q.interval = p.interval := h3
      have := ih (p := q) (by rw [h1']; exact hk) h2 w' h4 h6 hu'
      rw [h1', h3'] at this
      have hr : run p (op :: ops) = run q ops := by rw [hq]; rfl
      rw [hr]
      exact this
    cases op with
    | set now x =>
      cases x with
      | none => exact (hu _ List.mem_cons_self).elim
      | some x =>
        have hc := core_set_sync hk ha now x
        dsimp only [syncWindows]
        by_cases hd : p.interval ≤ now - p.last.getD now ∧ 1 / 1000000 ≤ now - p.last.getD now
        · rw [if_pos hd] at hc
          rw [if_pos (show Window.full ⟨vals ++ [x], now - p.last.getD now⟩ p.interval from hd)]
          have := key _ _ hc rfl rfl ha rfl [] rfl (by simp)
          dsimp only at this ⊢
          rw [this.1]
          refine ⟨?_, this.2⟩
          rw [calc_report (p := (p.add x).clock now) (w := ⟨vals ++ [x], now - p.last.getD now⟩)
            (by simp [Par.clock, Par.add, hv]) rfl (by simp [Par.clock, Par.add, hn])]
          simp [core, Par.clock, Par.add]
        · rw [if_neg hd] at hc
          rw [if_neg (show ¬ Window.full ⟨vals ++ [x], now - p.last.getD now⟩ p.interval from hd)]
          exact key _ _ hc rfl rfl ha rfl (vals ++ [x]) (by simp [hv]) (by simp [hn])
    | timeout now d =>
      have hc : core (step p (.timeout now d)) = core p := by
        show core (p.timeout now d) = _
        rw [timeout_sync ha]
      exact key _ _ hc rfl rfl ha rfl vals hv hn
    | attr x => exact key _ _ (core_attr p x) rfl rfl ha rfl vals hv hn
    | confirm => exact key (step p _) (core p) rfl rfl rfl ha rfl vals hv hn
    | monitor on => exact key (step p _) (core p) rfl rfl rfl ha rfl vals hv hn
    | statistic => exact (hu _ List.mem_cons_self).elim
    | disable => exact (hu _ List.mem_cons_self).elim
    | synchron => exact (hu _ List.mem_cons_self).elim

/-! ### The windows cut the history -/

theorem asyncWindows_cut (i : Rat) (w : Window) (ops : List Op) :
    let r := asyncWindows i w ops
    (r.1.map Window.vals).flatten ++ r.2.vals = w.vals ++ values ops ∧
    (r.1.map Window.dur).sum + r.2.dur = w.dur + time ops ∧
    ∀ x ∈ r.1, x.full i := by
  induction ops generalizing w with
  | nil => simp [asyncWindows, values, time]
  | cons op ops ih =>
    cases op with
    | set now x =>
      cases x with
      | none => exact ih w
      | some x =>
        have := ih ⟨w.vals ++ [x], w.dur⟩
        simpa [asyncWindows, values, time] using this
    | timeout now d =>
      dsimp only [asyncWindows, values, time]
      split
      · rename_i hf
        have := ih ⟨[], 0⟩
        dsimp only at this ⊢
        obtain ⟨h1, h2, h3⟩ := this
        refine ⟨?_, ?_, ?_⟩
        · simp only [List.map_cons, List.flatten_cons, List.append_assoc]
          rw [h1]; rfl
        · simp only [List.map_cons, List.sum_cons]
          linarith
        · intro x hx
          rcases List.mem_cons.1 hx with e | e
          · rw [e]; exact hf
          · exact h3 x e
      · have := ih ⟨w.vals, w.dur + d⟩
        dsimp only at this ⊢
        exact ⟨this.1, by linarith [this.2.1], this.2.2⟩
    | attr x => exact ih w
    | confirm => exact ih w
    | monitor on => exact ih w
    | statistic => exact ih w
    | disable => exact ih w
    | synchron => exact ih w

/-- The end of the last window, or the first value. -/
def syncStart (i : Rat) : Option Rat → List Op → Option Rat
  | s, [] => s
  | s, .set now (some _) :: ops =>
    if i ≤ now - s.getD now ∧ 1 / 1000000 ≤ now - s.getD now then syncStart i (some now) ops
    else syncStart i (some (s.getD now)) ops
  | s, _ :: ops => syncStart i s ops

theorem syncWindows_cut (i : Rat) (s : Rat) (vals : List Rat) (ops : List Op) :
    let r := syncWindows i (some s) vals ops
    (r.1.map Window.vals).flatten ++ r.2 = vals ++ values ops ∧
    syncStart i (some s) ops = some (s + (r.1.map Window.dur).sum) ∧
    ∀ x ∈ r.1, x.full i ∧ x.vals ≠ [] := by
  induction ops generalizing s vals with
  | nil => simp [syncWindows, values, syncStart]
  | cons op ops ih =>
    cases op with
    | set now x =>
      cases x with
      | none => exact ih s vals
      | some x =>
        dsimp only [syncWindows, values, syncStart, Option.getD]
        by_cases hf : i ≤ now - s ∧ 1 / 1000000 ≤ now - s
        · rw [if_pos (show Window.full ⟨vals ++ [x], now - s⟩ i from hf), if_pos hf]
          obtain ⟨h1, h2, h3⟩ := ih now []
          dsimp only
          refine ⟨?_, ?_, ?_⟩
          · simp only [List.map_cons, List.flatten_cons, List.append_assoc]
            rw [h1]; rfl
          · rw [h2]
            simp only [List.map_cons, List.sum_cons]
            congr 1
            linarith
          · intro y hy
            rcases List.mem_cons.1 hy with e | e
            · rw [e]; exact ⟨hf, by simp⟩
            · exact h3 y e
        · rw [if_neg (show ¬ Window.full ⟨vals ++ [x], now - s⟩ i from hf), if_neg hf]
          have := ih s (vals ++ [x])
          simpa using this
    | timeout now d => exact ih s vals
    | attr x => exact ih s vals
    | confirm => exact ih s vals
    | monitor on => exact ih s vals
    | statistic => exact ih s vals
    | disable => exact ih s vals
    | synchron => exact ih s vals

/-- Rate times duration gives the sum of the values. -/
theorem rate_mul_dur {w : Window} {i : Rat} (h : w.full i) : w.report .rate * w.dur = w.vals.sum := by
  have : w.dur ≠ 0 := by
    have := h.2
    intro e
    rw [e] at this
    exact absurd this (by norm_num)
  show w.vals.sum / w.dur * w.dur = _
  field_simp

theorem rates_sum {ws : List Window} {i : Rat} (h : ∀ w ∈ ws, w.full i) :
    (ws.map (fun w => w.report .rate * w.dur)).sum = (ws.map Window.vals).flatten.sum := by
  induction ws with
  | nil => rfl
  | cons w ws ih =>
    simp only [List.map_cons, List.sum_cons, List.flatten_cons, List.sum_append]
    rw [rate_mul_dur (h w List.mem_cons_self), ih (fun x hx => h x (List.mem_cons_of_mem _ hx))]

theorem sum_bounds {l : List Rat} {lo hi : Rat} (h : ∀ x ∈ l, lo ≤ x ∧ x ≤ hi) :
    lo * l.length ≤ l.sum ∧ l.sum ≤ hi * l.length := by
  induction l with
  | nil => simp
  | cons x xs ih =>
    have hx := h x List.mem_cons_self
    have := ih (fun y hy => h y (List.mem_cons_of_mem _ hy))
    simp only [List.sum_cons, List.length_cons, Nat.cast_add, Nat.cast_one]
    constructor <;> linarith [this.1, this.2]

theorem average_bounds {w : Window} {lo hi : Rat} (hne : w.vals ≠ []) (h : ∀ x ∈ w.vals, lo ≤ x ∧ x ≤ hi) :
    lo ≤ w.report .average ∧ w.report .average ≤ hi := by
  have hb := sum_bounds h
  have hl : (0 : Rat) < w.vals.length := by
    have : 0 < w.vals.length := List.length_pos_iff.2 hne
    exact_mod_cast this
  unfold Window.report
  dsimp only
  rw [if_neg hne]
  exact ⟨(le_div_iff₀ hl).2 hb.1, (div_le_iff₀ hl).2 hb.2⟩

/-! ### Plain parameters -/

theorem core_plain {p : Par} (hk : p.kind = .none) (now : Rat) (x : Option Rat) :
    core (p.set now x).2 = if p.fires now then
        { core p with value := x, last := some now, rep := (core p).rep ++ [x], tms := (core p).tms ++ [now] }
      else { core p with value := x } := by
  have : p.set now x = p.setPlain now x := by unfold Par.set; rw [hk]
  rw [this, Par.setPlain]
  cases p.fires now
  · simp only [Bool.false_eq_true, if_false]; rw [core_inform]; rfl
  · simp only [if_true]; rw [core_fire, core_inform]; rfl

theorem fires_iff {p : Par} (ha : p.async = false) (now : Rat) :
    p.fires now = true ↔ p.last = none ∨ p.interval ≤ 0 ∨ ∃ l, p.last = some l ∧ l + p.interval < now := by
  unfold Par.fires
  rw [ha]
  cases p.last <;> simp

end Verif.Param
