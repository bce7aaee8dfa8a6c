import Verif.Spec.Timer

namespace Verif.Timer

theorem ticks_append (l m : List Ev) : ticks (l ++ m) = ticks l ++ ticks m := by
  induction l with
  | nil => rfl
  | cons e l ih => cases e <;> simp [ticks, ih]

theorem started_append (l m : List Ev) : ∀ b, started b (l ++ m) = started (started b l) m := by
  induction l with
  | nil => intro b; rfl
  | cons e l ih => intro b; cases e <;> simp [started, ih]

theorem run_append (s : S) (a b : List Op) : run s (a ++ b) = run (run s a) b := by
  simp [run, List.foldl_append]

/-- Only time goes by in a quiet handler. -/
theorem quiet_inner (h : List Inner) (hq : ∀ i ∈ h, ∃ d, i = Inner.wait d) :
    ∀ s : S, ∃ e : Nat, h.foldl inner s = { s with now := s.now + e } := by
  induction h with
  | nil => intro s; exact ⟨0, by simp⟩
  | cons i h ih =>
    intro s
    obtain ⟨d, rfl⟩ := hq _ (List.mem_cons_self ..)
    obtain ⟨e, he⟩ := ih (fun j hj => hq j (List.mem_cons_of_mem _ hj)) (inner s (.wait d))
    refine ⟨d + e, ?_⟩
    rw [List.foldl_cons, he]
    simp [inner, Int.add_assoc]

/-- The last call, or the start. -/
def lastOf (t : Int) (l : List Int) : Int := l.getLast?.getD t

theorem lastOf_snoc (t x : Int) (l : List Int) : lastOf t (l ++ [x]) = x := by simp [lastOf]

/-- Started with the period `p` at `t`. -/
structure Base (t p : Int) (sy : Bool) (s : S) : Prop where
  period : s.period = p
  sync : s.sync = sy
  active : s.active = true
  running : s.running = true
  late : lastOf t (ticks s.log) ≤ s.now

/-- The request is not yet taken. -/
structure Wait (t p : Int) (s : S) : Prop where
  req : s.req = true
  mark : s.mark = t
  interv : s.interv = p
  prev : s.prev = none
  next : s.next = none
  inacc : s.inacc = 0
  none : ticks s.log = []

/-- Next call. -/
def dueOf (t p : Int) (sy : Bool) (l : List Int) : Int :=
  if sy then max (lastOf t l) (t + ((l.length : Int) + 1) * p) else lastOf t l + p

structure Go (t p : Int) (sy : Bool) (s : S) : Prop where
  req : s.req = false
  prev : s.prev = some (lastOf t (ticks s.log))
  next : s.next = some (dueOf t p sy (ticks s.log))
  inacc : sy = true → s.inacc = lastOf t (ticks s.log) - t - ((ticks s.log).length : Int) * p

theorem start_base (t p : Int) (sy : Bool) (hp : 0 < p) :
    Base t p sy (run (new t p sy) [.start]) ∧ Wait t p (run (new t p sy) [.start]) := by
  have e : run (new t p sy) [.start] =
      { new t p sy with running := true, active := true, log := [.start t], mark := t, interv := p, req := true } := by
    simp [run, step, start, new, hp, activate]
  rw [e]
  constructor
  · constructor <;> simp [new, ticks, lastOf]
  · constructor <;> simp [new, ticks]

theorem base_wait {t p : Int} {sy : Bool} {s : S} (hb : Base t p sy s) (d : Nat) :
    Base t p sy { s with now := s.now + d } :=
  ⟨hb.period, hb.sync, hb.active, hb.running, by have := hb.late; simp only; omega⟩

theorem event_wait {t p : Int} {sy : Bool} {s : S} (hp : 0 < p) (hb : Base t p sy s) (hw : Wait t p s) :
    Base t p sy (event s) ∧ Go t p sy (event s) := by
  have e : event s = { s with req := false, prev := some t, next := some (t + p) } := by
    simp [event, hw.req, hw.interv, hw.mark, hw.prev, hp, show ¬ p < 0 by omega]
  rw [e]
  refine ⟨⟨hb.period, hb.sync, hb.active, hb.running, hb.late⟩, ⟨rfl, ?_, ?_, ?_⟩⟩
  · simp [hw.none, lastOf]
  · simp only [hw.none, dueOf, lastOf, List.getLast?_nil, Option.getD_none, List.length_nil]
    cases sy <;> simp
    omega
  · intro _
    simp [hw.none, lastOf, hw.inacc]

theorem event_go {t p : Int} {sy : Bool} {s : S} (hg : Go t p sy s) : event s = s := by simp [event, hg.req]

/-- One check: a call exactly when it is due. -/
theorem check_go {t p : Int} {sy : Bool} {s : S} (hp : 0 < p) (hb : Base t p sy s) (hg : Go t p sy s) (h : List Inner)
    (hq : ∀ i ∈ h, ∃ d, i = Inner.wait d) :
    (s.now ≤ dueOf t p sy (ticks s.log) → check h s = s) ∧
    (dueOf t p sy (ticks s.log) < s.now → Base t p sy (check h s) ∧ Go t p sy (check h s) ∧
      ticks (check h s).log = ticks s.log ++ [s.now] ∧ s.now ≤ (check h s).now) := by
  constructor
  · intro hle
    simp [check, hg.next, hle]
  · intro hlt
    obtain ⟨e, he⟩ := quiet_inner h hq { s with counter := s.counter + 1, log := s.log ++ [.tick s.now s.running] }
    have hl : ticks (s.log ++ [.tick s.now s.running]) = ticks s.log ++ [s.now] := by simp [ticks_append, ticks]
    have hd : diffOf s = s.now - lastOf t (ticks s.log) := by simp [diffOf, hg.prev]
    have hc : check h s = setNext s.now (again (diffOf s)
        { s with now := s.now + e, counter := s.counter + 1, log := s.log ++ [.tick s.now s.running] }) := by
      have h0 : check h s = setNext s.now (process (diffOf s) h s) := by
        unfold check
        rw [hg.next]
        dsimp only
        rw [if_neg (by omega)]
      rw [h0]
      unfold process
      rw [if_neg (by simp [hb.active])]
      dsimp only
      rw [if_pos hb.running, he]
    rw [hc]
    unfold again
    cases sy with
    | false =>
      rw [if_pos (by simp [hb.sync])]
      unfold setNext
      dsimp only
      rw [if_pos (by rw [hb.period]; omega)]
      refine ⟨⟨hb.period, hb.sync, hb.active, hb.running, ?_⟩, ⟨hg.req, ?_, ?_, by simp⟩, hl, by dsimp only; omega⟩
      · rw [hl, lastOf_snoc]; dsimp only; omega
      · rw [hl, lastOf_snoc]
      · simp only [dueOf, hl, lastOf_snoc, hb.period]
        simp
    | true =>
      rw [if_neg (by simp [hb.sync])]
      have hi := hg.inacc rfl
      dsimp only
      have hn : s.inacc + (diffOf s - s.period) = s.now - t - (((ticks s.log).length : Int) + 1) * p := by
        rw [hi, hd, hb.period, Int.add_mul]
        omega
      rw [hn]
      unfold setNext
      dsimp only
      rw [if_pos (by split <;> omega)]
      refine ⟨⟨hb.period, hb.sync, hb.active, hb.running, ?_⟩, ⟨hg.req, ?_, ?_, ?_⟩, hl, by dsimp only; omega⟩
      · rw [hl, lastOf_snoc]; dsimp only; omega
      · rw [hl, lastOf_snoc]
      · simp only [dueOf, hl, lastOf_snoc, hb.period, List.length_append, List.length_singleton, if_true]
        congr 1
        rw [Int.natCast_add, show ((((ticks s.log).length : Int) + ((1 : Nat) : Int)) + 1) * p =
          (((ticks s.log).length : Int) + 1) * p + p by rw [Int.add_mul _ 1 p]; simp]
        split <;> omega
      · intro _
        simp only [hl, lastOf_snoc, List.length_append, List.length_singleton]
        simp

end Verif.Timer
