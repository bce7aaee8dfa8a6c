import Verif.Spec.Timeouts
import Mathlib.Data.List.Induction

namespace Verif.Timeouts

open Spec

theorem slot_snoc (i : Nat) (l : List Ev) (e : Ev) : slot i (l ++ [e]) = Spec.next i (slot i l) e := by
  unfold slot
  rw [List.foldl_append]; rfl

/-- A record fits to the expectation; `b`: its `ProcessTimeout` is running. -/
structure Rel (b : Bool) (r : Rec) (p : Slot) : Prop where
  due : p.due = if b then none else r.next
  since : p.since = r.prev
  busy : r.active = true → p.req = some (r.mark, r.interv)
  free : r.active = false → p.req = none
  ok : p.ok = true

/-- `x` is the slot whose `ProcessTimeout` is running. -/
def Sim (x : Option Nat) (s : S) : Prop :=
  ∀ i r, s.slots[i]? = some r → Rel (decide (x = some i)) r (slot i s.log)

def Evs (s : S) : Prop := ∀ (i : Nat) (r : Rec), s.slots[i]? = some r → r.active = true → i ∈ s.evs

/-- The next call of `CheckTimeouts` is not too late for any slot. -/
def Cover (s : S) : Prop :=
  ∀ (i : Nat) (r : Rec) (d : Nat), s.slots[i]? = some r → r.next = some d → ∃ x, s.nextT = some x ∧ x ≤ d

theorem get_set {l : List Rec} {i j : Nat} {a r : Rec} (h : (l.set i a)[j]? = some r) :
    (i = j ∧ r = a ∧ i < l.length) ∨ (i ≠ j ∧ l[j]? = some r) := by
  rw [List.getElem?_set] at h
  split at h
  · rename_i hij
    split at h
    · rename_i hl
      exact Or.inl ⟨hij, (Option.some.inj h).symm, hij ▸ hl⟩
    · exact absurd h (by simp)
  · rename_i hij
    exact Or.inr ⟨hij, h⟩

/-! ## Activation -/

theorem activate_sim {x : Option Nat} {i : Nat} {t : Option Nat} {s : S} (h : Sim x s) :
    Sim x (activate i t s) := by
  unfold activate
  split
  · exact h
  · rename_i r hr
    intro j q hq
    show Rel _ q (slot j (s.log ++ [Ev.act i s.clock t]))
    rw [slot_snoc]
    unfold Spec.next
    rcases get_set hq with ⟨rfl, rfl, _⟩ | ⟨hne, hq⟩
    · dsimp only
      rw [if_pos rfl]
      obtain ⟨a, b, c, d, e⟩ := h i r hr
      exact ⟨a, b, fun _ => rfl, fun hx => absurd hx (by simp), e⟩
    · dsimp only
      rw [if_neg hne]
      exact h j q hq

theorem activate_evs {i : Nat} {t : Option Nat} {s : S} (h : Evs s) : Evs (activate i t s) := by
  unfold activate
  split
  · exact h
  · rename_i r hr
    intro j q hq hact
    show j ∈ (if r.active then s.evs else s.evs ++ [i])
    rcases get_set hq with ⟨rfl, rfl, _⟩ | ⟨hne, hq⟩
    · split
      · rename_i hx; exact h i r hr hx
      · simp
    · have := h j q hq hact
      split
      · exact this
      · exact List.mem_append_left _ this

theorem activate_next {i : Nat} {t : Option Nat} {s : S} (j : Nat) :
    (activate i t s).slots[j]?.map Rec.next = s.slots[j]?.map Rec.next := by
  unfold activate
  split
  · rfl
  · rename_i r hr
    show (s.slots.set i _)[j]?.map Rec.next = _
    rw [List.getElem?_set]
    split
    · rename_i hij
      subst hij
      rw [hr]
      split
      · rfl
      · rename_i hl
        rw [List.getElem?_eq_none (by omega)] at hr
        exact absurd hr (by simp)
    · rfl

theorem activate_length {i : Nat} {t : Option Nat} {s : S} :
    (activate i t s).slots.length = s.slots.length := by
  unfold activate
  split
  · rfl
  · show (s.slots.set i _).length = _
    rw [List.length_set]

theorem activate_clock {i : Nat} {t : Option Nat} {s : S} : (activate i t s).clock = s.clock := by
  unfold activate; split <;> rfl

theorem activate_nextT {i : Nat} {t : Option Nat} {s : S} : (activate i t s).nextT = s.nextT := by
  unfold activate; split <;> rfl

theorem activate_log {i : Nat} {t : Option Nat} {s : S} : ∃ l, (activate i t s).log = s.log ++ l := by
  unfold activate
  split
  · exact ⟨[], by simp⟩
  · exact ⟨_, rfl⟩

/-- What `ProcessTimeout` may change when it does not run the event loop. -/
structure Keeps (x : Option Nat) (s s' : S) : Prop where
  sim : Sim x s'
  evs : Evs s'
  next : ∀ j : Nat, s'.slots[j]?.map Rec.next = s.slots[j]?.map Rec.next
  length : s'.slots.length = s.slots.length
  clock : s.clock ≤ s'.clock
  nextT : s'.nextT = s.nextT
  log : ∃ l, s'.log = s.log ++ l

theorem inner_keeps {x : Option Nat} (l : List Inner) : ∀ {s : S}, (∀ j, Inner.event j ∉ l) → Sim x s → Evs s →
    Keeps x s (l.foldl inner s) := by
  induction l with
  | nil => intro s _ h1 h2; exact ⟨h1, h2, fun _ => rfl, rfl, Nat.le_refl _, rfl, [], by simp⟩
  | cons a l ih =>
    intro s hf h1 h2
    have hf' : ∀ j, Inner.event j ∉ l := fun j hj => hf j (List.mem_cons_of_mem _ hj)
    rw [List.foldl_cons]
    cases a with
    | wait k =>
      have := ih (s := inner s (.wait k)) hf' h1 h2
      exact ⟨this.sim, this.evs, this.next, this.length, Nat.le_trans (Nat.le_add_right _ k) this.clock, this.nextT, this.log⟩
    | act i t =>
      have := ih (s := inner s (.act i t)) hf' (activate_sim h1) (activate_evs h2)
      refine ⟨this.sim, this.evs, fun j => (this.next j).trans (activate_next j), this.length.trans activate_length,
        Nat.le_trans (Nat.le_of_eq activate_clock.symm) this.clock, this.nextT.trans activate_nextT, ?_⟩
      obtain ⟨l1, e1⟩ := this.log
      obtain ⟨l2, e2⟩ := activate_log (i := i) (t := t) (s := s)
      exact ⟨l2 ++ l1, by rw [e1]; show (activate i t s).log ++ l1 = _; rw [e2, List.append_assoc]⟩
    | event j => exact absurd (by simp) (hf j)

/-! ## The check -/

theorem minTime_le (m : Option Nat) (d : Nat) :
    ∃ w, minTime m d = some w ∧ w ≤ d ∧ ∀ k, m = some k → w ≤ k := by
  unfold minTime
  split
  · exact ⟨d, rfl, Nat.le_refl _, fun _ h => absurd h (by simp)⟩
  · rename_i k
    split
    · rename_i h
      exact ⟨d, rfl, Nat.le_refl _, fun k' hk => by obtain rfl := Option.some.inj hk; omega⟩
    · rename_i h
      exact ⟨k, rfl, by omega, fun k' hk => by obtain rfl := Option.some.inj hk; exact Nat.le_refl _⟩

/-- What holds after `k` turns of the loop. -/
structure Turn (s0 : S) (k : Nat) (p : S × Option Nat) : Prop where
  sim : Sim none p.1
  evs : Evs p.1
  length : p.1.slots.length = s0.slots.length
  clock : s0.clock ≤ p.1.clock
  low : ∀ (j : Nat) (r : Rec) (d : Nat), j < k → p.1.slots[j]? = some r → r.next = some d →
    ∃ w, p.2 = some w ∧ s0.clock + w ≤ d
  high : ∀ j : Nat, k ≤ j → p.1.slots[j]?.map Rec.next = s0.slots[j]?.map Rec.next
  log : ∃ l, p.1.log = s0.log ++ l ∧ ∀ (j : Nat) (d : Nat), j < k → s0.slots[j]?.map Rec.next = some (some d) →
    d < s0.clock → ∃ diff, Ev.fire j s0.clock diff ∈ l

theorem turn_step {ans : Nat → Ans} (hf : Flat ans) {s0 : S} {k : Nat} {p : S × Option Nat}
    (h : Turn s0 k p) : Turn s0 (k + 1) (checkSlot ans s0.clock p k) := by
  obtain ⟨l0, hl0, hfire⟩ := h.log
  have hk := h.high k (Nat.le_refl k)
  unfold checkSlot
  split
  · rename_i hn
    refine ⟨h.sim, h.evs, h.length, h.clock, ?_, fun j hj => h.high j (by omega), l0, hl0, ?_⟩
    · intro j r d hj hr hd
      by_cases hjk : j = k
      · subst hjk; rw [hn] at hr; exact absurd hr (by simp)
      · exact h.low j r d (by omega) hr hd
    · intro j d hj hr hd
      by_cases hjk : j = k
      · subst hjk; rw [hn] at hk; rw [← hk] at hr; exact absurd hr (by simp)
      · exact hfire j d (by omega) hr hd
  rename_i r hr
  rw [hr] at hk
  split
  · rename_i hn
    rw [Option.map_some, hn] at hk
    refine ⟨h.sim, h.evs, h.length, h.clock, ?_, fun j hj => h.high j (by omega), l0, hl0, ?_⟩
    · intro j q d hj hq hd
      by_cases hjk : j = k
      · subst hjk; rw [hr] at hq; obtain rfl := Option.some.inj hq; rw [hn] at hd; exact absurd hd (by simp)
      · exact h.low j q d (by omega) hq hd
    · intro j d hj hq hd
      by_cases hjk : j = k
      · subst hjk; rw [← hk] at hq; exact absurd hq (by simp)
      · exact hfire j d (by omega) hq hd
  rename_i d0 hn
  rw [Option.map_some, hn] at hk
  split
  · rename_i hle
    obtain ⟨w, hw, hwd, hwm⟩ := minTime_le p.2 (d0 - s0.clock)
    refine ⟨h.sim, h.evs, h.length, h.clock, ?_, fun j hj => h.high j (by omega), l0, hl0, ?_⟩
    · intro j q d hj hq hd
      refine ⟨w, hw, ?_⟩
      by_cases hjk : j = k
      · subst hjk
        have hq : p.1.slots[j]? = some q := hq
        rw [hr] at hq; obtain rfl := Option.some.inj hq; rw [hn] at hd; obtain rfl := Option.some.inj hd; omega
      · obtain ⟨w', h1, h2⟩ := h.low j q d (by omega) hq hd
        have := hwm w' h1; omega
    · intro j d hj hq hd
      by_cases hjk : j = k
      · subst hjk; rw [← hk] at hq
        obtain rfl := Option.some.inj (Option.some.inj hq); omega
      · exact hfire j d (by omega) hq hd
  · rename_i hgt
    dsimp only
    generalize hdiff : lastDiff s0.clock r = diff
    -- the call begins
    have hsim1 : Sim (some k) (note p.1 (.fire k s0.clock diff)) := by
      intro j q hq
      show Rel _ q (slot j (p.1.log ++ [Ev.fire k s0.clock diff]))
      rw [slot_snoc]
      unfold Spec.next
      dsimp only
      have hq : p.1.slots[j]? = some q := hq
      have hrel := h.sim j q hq
      by_cases hjk : k = j
      · subst hjk
        rw [hr] at hq
        obtain rfl := Option.some.inj hq
        rw [if_pos rfl]
        obtain ⟨a, b, c, d, e⟩ := hrel
        refine ⟨by simp [fired], b, c, d, ?_⟩
        unfold fired
        dsimp only
        have hdue : (slot k p.1.log).due = some d0 := by rw [a, ← hn]; simp
        rw [hdue, e]
        dsimp only
        have hp : diff = passed (slot k p.1.log) s0.clock := by
          rw [← hdiff]; unfold passed lastDiff; rw [b]; cases r.prev <;> rfl
        rw [decide_eq_true hp, decide_eq_true (by omega : d0 < s0.clock)]
        rfl
      · rw [if_neg hjk]
        obtain ⟨a, b, c, d, e⟩ := hrel
        refine ⟨?_, b, c, d, e⟩
        rw [a]
        have : ¬ (some k : Option Nat) = some j := fun hx => hjk (Option.some.inj hx)
        simp [this]
    have hev1 : Evs (note p.1 (.fire k s0.clock diff)) := h.evs
    have K := inner_keeps (x := some k) (ans k).inner (hf k) hsim1 hev1
    generalize hs2 : (ans k).inner.foldl inner (note p.1 (.fire k s0.clock diff)) = s2 at K
    have hlen2 : s2.slots.length = s0.slots.length := K.length.trans h.length
    -- the call is finished
    have hget : ∀ (j : Nat) (q : Rec) (f : Rec → Rec), (s2.slots.modify k f)[j]? = some q →
        (k = j ∧ ∃ q0, s2.slots[j]? = some q0 ∧ q = f q0) ∨ (k ≠ j ∧ s2.slots[j]? = some q) := by
      intro j q f hq
      rw [List.getElem?_modify] at hq
      cases hx : s2.slots[j]? with
      | none => rw [hx] at hq; exact absurd hq (by simp)
      | some q0 =>
        rw [hx] at hq
        by_cases hkj : k = j
        · refine Or.inl ⟨hkj, q0, rfl, ?_⟩
          simp [hkj] at hq; exact hq.symm
        · refine Or.inr ⟨hkj, ?_⟩
          simp [hkj] at hq; rw [hq]
    obtain ⟨l2, hl2⟩ := K.log
    refine ⟨?_, ?_, ?_, ?_, ?_, ?_, ?_⟩
    · intro j q hq
      show Rel _ q (slot j (s2.log ++ [Ev.done k s0.clock (ans k).dist]))
      rw [slot_snoc]
      unfold Spec.next
      dsimp only
      rcases hget j q _ hq with ⟨rfl, q0, hq0, rfl⟩ | ⟨hkj, hq0⟩
      · rw [if_pos rfl]
        obtain ⟨a, b, c, d, e⟩ := K.sim k q0 hq0
        unfold finished rearm
        cases (ans k).dist with
        | some dd => exact ⟨by simp, rfl, c, d, e⟩
        | none => exact ⟨by dsimp only; rw [a]; simp, rfl, c, d, e⟩
      · rw [if_neg hkj]
        obtain ⟨a, b, c, d, e⟩ := K.sim j q hq0
        refine ⟨?_, b, c, d, e⟩
        rw [a]
        have : ¬ (some k : Option Nat) = some j := fun hx => hkj (Option.some.inj hx)
        simp [this]
    · intro j q hq hact
      rcases hget j q _ hq with ⟨rfl, q0, hq0, rfl⟩ | ⟨hkj, hq0⟩
      · refine K.evs k q0 hq0 ?_
        revert hact
        unfold rearm
        split <;> exact id
      · exact K.evs j q hq0 hact
    · show (s2.slots.modify k _).length = _
      rw [List.length_modify]; exact hlen2
    · exact Nat.le_trans h.clock K.clock
    · intro j q d hj hq hd
      rcases hget j q _ hq with ⟨rfl, q0, hq0, rfl⟩ | ⟨hkj, hq0⟩
      · revert hd
        unfold rearm rewait
        cases (ans k).dist with
        | some dd =>
          intro hd
          obtain rfl := Option.some.inj hd
          obtain ⟨w, hw, hwd, _⟩ := minTime_le p.2 dd
          exact ⟨w, hw, by omega⟩
        | none => intro hd; exact absurd hd (by simp)
      · have hq1 : p.1.slots[j]?.map Rec.next = some (some d) := by
          have := K.next j
          rw [hq0, Option.map_some, hd] at this
          exact this.symm
        obtain ⟨r1, hr1, hd1⟩ := Option.map_eq_some_iff.mp hq1
        obtain ⟨w', h1, h2⟩ := h.low j r1 d (by omega) hr1 hd1
        unfold rewait
        cases (ans k).dist with
        | some dd =>
          obtain ⟨w, hw, _, hwm⟩ := minTime_le p.2 dd
          exact ⟨w, hw, by have := hwm w' h1; omega⟩
        | none => exact ⟨w', h1, h2⟩
    · intro j hj
      show (s2.slots.modify k _)[j]?.map Rec.next = _
      rw [List.getElem?_modify]
      have hkj : ¬ k = j := by omega
      rw [show (fun a => if k = j then _ else a) = (id : Rec → Rec) by funext a; simp [hkj]]
      have h1 := K.next j
      have h2 := h.high j (by omega)
      rw [← h2]
      have h3 : (note p.1 (.fire k s0.clock diff)).slots[j]?.map Rec.next = p.1.slots[j]?.map Rec.next := rfl
      rw [← h3, ← h1]
      cases s2.slots[j]? <;> rfl
    · refine ⟨l0 ++ ([Ev.fire k s0.clock diff] ++ (l2 ++ [Ev.done k s0.clock (ans k).dist])), ?_, ?_⟩
      · show s2.log ++ _ = _
        rw [hl2]
        show ((p.1.log ++ [Ev.fire k s0.clock diff]) ++ l2) ++ _ = _
        rw [hl0]; simp
      · intro j d hj hq hd
        by_cases hjk : j = k
        · subst hjk; exact ⟨diff, by simp⟩
        · obtain ⟨df, hdf⟩ := hfire j d (by omega) hq hd
          exact ⟨df, List.mem_append_left _ hdf⟩

theorem turn_all {ans : Nat → Ans} (hf : Flat ans) {s0 : S} (h1 : Sim none s0) (h2 : Evs s0) (n : Nat) :
    Turn s0 n ((List.range n).foldl (checkSlot ans s0.clock) (s0, none)) := by
  induction n with
  | zero =>
    exact ⟨h1, h2, rfl, Nat.le_refl _, fun j _ _ hj => absurd hj (by omega), fun _ _ => rfl, [], by simp,
      fun j _ hj => absurd hj (by omega)⟩
  | succ n ih =>
    rw [List.range_succ, List.foldl_append]
    exact turn_step hf ih

/-- Invariant between operations. -/
structure Inv (s : S) : Prop where
  sim : Sim none s
  evs : Evs s
  cover : Cover s

/-- What a complete scan achieves. -/
structure Scanned (s : S) (p : S × Option Nat) : Prop where
  inv : Inv p.1
  wait : ∀ (i : Nat) (r : Rec) (d : Nat), p.1.slots[i]? = some r → r.next = some d → ∃ w, p.2 = some w ∧ s.clock + w ≤ d
  clock : s.clock ≤ p.1.clock
  length : p.1.slots.length = s.slots.length
  log : ∃ l, p.1.log = s.log ++ l ∧ ∀ (j : Nat) (r : Rec) (d : Nat), s.slots[j]? = some r → r.next = some d →
    d < s.clock → ∃ diff, Ev.fire j s.clock diff ∈ l

theorem scan_all {ans : Nat → Ans} (hf : Flat ans) {s : S} (h1 : Sim none s) (h2 : Evs s) :
    Scanned s (scan ans s) := by
  have T := turn_all hf h1 h2 s.slots.length
  unfold scan
  generalize (List.range s.slots.length).foldl (checkSlot ans s.clock) (s, none) = p at T
  have hlow : ∀ (i : Nat) (r : Rec) (d : Nat), p.1.slots[i]? = some r → r.next = some d →
      ∃ w, p.2 = some w ∧ s.clock + w ≤ d := by
    intro i r d hr hd
    refine T.low i r d ?_ hr hd
    rw [← T.length]
    obtain ⟨hi, _⟩ := List.getElem?_eq_some_iff.mp hr
    exact hi
  refine ⟨⟨T.sim, T.evs, ?_⟩, hlow, T.clock, T.length, ?_⟩
  · intro i r d hr hd
    obtain ⟨w, hw, hwd⟩ := hlow i r d hr hd
    refine ⟨s.clock + w, ?_, hwd⟩
    show p.2.map (s.clock + ·) = _
    rw [hw]; rfl
  · obtain ⟨l, hl, hfire⟩ := T.log
    refine ⟨l, hl, fun j r d hr hd hlt => hfire j d ?_ ?_ hlt⟩
    · obtain ⟨hi, _⟩ := List.getElem?_eq_some_iff.mp hr
      exact hi
    · rw [hr, Option.map_some, hd]

theorem check_all {ans : Nat → Ans} (hf : Flat ans) {s : S} (h : Inv s) :
    Scanned s (checkTimeouts false ans s) := by
  unfold checkTimeouts
  rw [if_neg (by simp)]
  split
  · rename_i hn
    refine ⟨h, fun i r d hr hd => ?_, Nat.le_refl _, rfl, [], by simp, fun i r d hr hd => ?_⟩
    · obtain ⟨x, hx, _⟩ := h.cover i r d hr hd
      rw [hn] at hx; exact absurd hx (by simp)
    · obtain ⟨x, hx, _⟩ := h.cover i r d hr hd
      rw [hn] at hx; exact absurd hx (by simp)
  · rename_i x hn
    split
    · rename_i hlt
      refine ⟨h, fun i r d hr hd => ?_, Nat.le_refl _, rfl, [], by simp, fun i r d hr hd hlate => ?_⟩
      · obtain ⟨y, hy, hyd⟩ := h.cover i r d hr hd
        have hyd : y ≤ d := hyd
        have hy : s.nextT = some y := hy
        rw [hn] at hy; obtain rfl := Option.some.inj hy
        exact ⟨x - s.clock, rfl, by omega⟩
      · obtain ⟨y, hy, hyd⟩ := h.cover i r d hr hd
        rw [hn] at hy; obtain rfl := Option.some.inj hy
        omega
    · exact scan_all hf h.sim h.evs

/-! ## Operations -/

theorem checkEvent_sim {i : Nat} {s : S} (h : Sim none s) : Sim none (checkEvent i s).1 := by
  unfold checkEvent
  split
  · exact h
  rename_i r hr
  split
  · exact h
  rename_i hact
  have hact : r.active = true := by simpa using hact
  obtain ⟨a, b, c, d, e⟩ := h i r hr
  have hreq := c hact
  split
  · rename_i hi
    intro j q hq
    show Rel _ q (slot j (s.log ++ [Ev.taken i]))
    rw [slot_snoc]
    unfold Spec.next
    dsimp only
    rcases get_set hq with ⟨rfl, rfl, _⟩ | ⟨hne, hq⟩
    · rw [if_pos rfl]
      unfold take
      rw [hreq, hi]
      exact ⟨by simp, rfl, fun hx => absurd hx (by simp), fun _ => rfl, e⟩
    · rw [if_neg hne]
      exact h j q hq
  · rename_i t hi
    intro j q hq
    show Rel _ q (slot j (s.log ++ [Ev.taken i]))
    rw [slot_snoc]
    unfold Spec.next
    dsimp only
    rcases get_set hq with ⟨rfl, rfl, _⟩ | ⟨hne, hq⟩
    · rw [if_pos rfl]
      unfold take
      rw [hreq, hi]
      refine ⟨by simp, ?_, fun hx => absurd hx (by simp), fun _ => rfl, e⟩
      dsimp only
      rw [b]
      cases hp : r.prev with
      | some x => simp
      | none =>
        dsimp only
        by_cases ht : t = 0
        · rw [if_pos ht, if_neg (by omega)]
        · rw [if_neg ht, if_pos ⟨rfl, by omega⟩]
    · rw [if_neg hne]
      exact h j q hq

theorem checkEvent_evs {i : Nat} {s : S} (h : Evs s) : Evs (checkEvent i { s with evs := s.evs.erase i }).1 := by
  have key : ∀ (q : Rec) (l : List Ev), q.active = false →
      Evs (note { s with slots := s.slots.set i q, evs := s.evs.erase i } (.taken i)) := by
    intro q l hq j p hp hact
    rcases get_set hp with ⟨rfl, rfl, _⟩ | ⟨hne, hp⟩
    · rw [hq] at hact; exact absurd hact (by simp)
    · exact (List.mem_erase_of_ne (fun hx => hne hx.symm)).mpr (h j p hp hact)
  have stay : (∀ r, s.slots[i]? = some r → r.active = false) → Evs { s with evs := s.evs.erase i } := by
    intro hx j p hp hact
    have hp : s.slots[j]? = some p := hp
    by_cases hij : j = i
    · subst hij
      rw [hx p hp] at hact; exact absurd hact (by simp)
    · exact (List.mem_erase_of_ne hij).mpr (h j p hp hact)
  unfold checkEvent
  dsimp only
  split
  · rename_i hn
    exact stay fun r hr => by rw [hn] at hr; exact absurd hr (by simp)
  rename_i r hr
  split
  · rename_i hact
    exact stay fun q hq => by rw [hr] at hq; obtain rfl := Option.some.inj hq; exact hact
  split
  · exact key _ [] rfl
  · exact key _ [] rfl

theorem checkEvent_cover {i : Nat} {s : S} (h : Cover s) :
    (checkEvent i s).2 = false → Cover (checkEvent i s).1 := by
  unfold checkEvent
  split
  · exact fun _ => h
  rename_i r hr
  split
  · exact fun _ => h
  split
  · intro _ j q d hq hd
    rcases get_set hq with ⟨rfl, rfl, _⟩ | ⟨hne, hq⟩
    · exact absurd hd (by simp)
    · exact h j q d hq hd
  · intro hb; exact absurd hb (by simp)

theorem checkEvent_length {i : Nat} {s : S} : (checkEvent i s).1.slots.length = s.slots.length := by
  unfold checkEvent
  split
  · rfl
  split
  · rfl
  split <;> exact List.length_set

theorem event_inv {i : Nat} {ans : Nat → Ans} (hf : Flat ans) {s : S} (h : Inv s) :
    Inv (event i ans { s with evs := s.evs.erase i }) := by
  have h1 := checkEvent_sim (i := i) (s := { s with evs := s.evs.erase i }) h.sim
  have h2 := checkEvent_evs (i := i) h.evs
  unfold event
  dsimp only
  split
  · unfold checkTimeouts
    rw [if_pos rfl]
    exact (scan_all hf h1 h2).inv
  · rename_i hb
    refine ⟨h1, h2, ?_⟩
    exact checkEvent_cover (s := { s with evs := s.evs.erase i }) h.cover (by simpa using hb)

theorem step_inv {s : S} {o : Op} (hf : FlatOp o) (h : Inv s) : Inv (step s o) := by
  unfold step
  cases o with
  | wait k => exact ⟨h.sim, h.evs, h.cover⟩
  | act i t =>
    refine ⟨activate_sim h.sim, activate_evs h.evs, ?_⟩
    intro j r d hr hd
    have hx := activate_next (i := i) (t := t) (s := s) j
    rw [hr, Option.map_some, hd] at hx
    obtain ⟨r1, hr1, hd1⟩ := Option.map_eq_some_iff.mp hx.symm
    show ∃ x, (activate i t s).nextT = some x ∧ x ≤ d
    rw [activate_nextT]
    exact h.cover j r1 d hr1 hd1
  | event i ans =>
    dsimp only
    split
    · exact event_inv hf h
    · exact h
  | loop ans => exact (check_all hf h).inv

theorem new_inv (n : Nat) : Inv (new n) := by
  have key : ∀ (i : Nat) (r : Rec), (new n).slots[i]? = some r → r = {} := by
    intro i r hr
    unfold new at hr
    dsimp only at hr
    rw [List.getElem?_replicate] at hr
    split at hr
    · exact (Option.some.inj hr).symm
    · exact absurd hr (by simp)
  refine ⟨fun i r hr => ?_, fun i r hr hact => ?_, fun i r d hr hd => ?_⟩
  · obtain rfl := key i r hr
    exact ⟨by simp [new, slot], rfl, fun h => absurd h (by simp), fun _ => rfl, rfl⟩
  · obtain rfl := key i r hr
    exact absurd hact (by simp)
  · obtain rfl := key i r hr
    exact absurd hd (by simp)

theorem steps_inv {s : S} {os : List Op} (hf : ∀ o ∈ os, FlatOp o) (h : Inv s) : Inv (steps s os) := by
  induction os generalizing s with
  | nil => exact h
  | cons o os ih =>
    exact ih (fun o' ho' => hf o' (List.mem_cons_of_mem _ ho')) (step_inv (hf o (by simp)) h)

theorem step_length {s : S} {o : Op} (hf : FlatOp o) (h : Inv s) : (step s o).slots.length = s.slots.length := by
  unfold step
  cases o with
  | wait k => rfl
  | act i t => exact activate_length
  | event i ans =>
    dsimp only
    split
    · have h1 := checkEvent_sim (i := i) (s := { s with evs := s.evs.erase i }) h.sim
      have h2 := checkEvent_evs (i := i) h.evs
      have h3 := checkEvent_length (i := i) (s := { s with evs := s.evs.erase i })
      unfold event
      dsimp only
      split
      · unfold checkTimeouts
        rw [if_pos rfl]
        exact (scan_all hf h1 h2).length.trans h3
      · exact h3
    · rfl
  | loop ans => exact (check_all hf h).length

theorem steps_length {s : S} {os : List Op} (hf : ∀ o ∈ os, FlatOp o) (h : Inv s) :
    (steps s os).slots.length = s.slots.length := by
  induction os generalizing s with
  | nil => rfl
  | cons o os ih =>
    have h1 := step_length (hf o (by simp)) h
    have h2 := ih (s := step s o) (fun o' ho' => hf o' (List.mem_cons_of_mem _ ho')) (step_inv (hf o (by simp)) h)
    exact h2.trans h1

/-- The record of a slot which exists. -/
theorem slot_exists {n i : Nat} {os : List Op} (hf : ∀ o ∈ os, FlatOp o) (hi : i < n) :
    ∃ r, (steps (new n) os).slots[i]? = some r ∧ Rel false r (slot i (steps (new n) os).log) := by
  have hl := steps_length (s := new n) hf (new_inv n)
  have hl : (steps (new n) os).slots.length = n := by rw [hl]; simp [new]
  refine ⟨_, List.getElem?_eq_getElem (by omega), ?_⟩
  have := (steps_inv hf (new_inv n)).sim i _ (List.getElem?_eq_getElem (by omega))
  exact this

end Verif.Timeouts
