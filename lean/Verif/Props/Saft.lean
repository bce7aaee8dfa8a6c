import Verif.Spec.Saft
/-!
# C111: timing events of a White Rabbit receiver
-/

namespace Verif.Saft
open Verif.Bytes Verif.Saft.Spec

theorem take_append (single : Bool) : ∀ (q : List TE) (room ec : Nat), (take single q room ec).1 ++ (take single q room ec).2 = q := by
  intro q
  induction q with
  | nil => intros; rfl
  | cons e q ih =>
    intro room ec
    rw [take]
    split
    · rfl
    · split
      · rfl
      · simp only [List.cons_append, ih]

theorem take_room (single : Bool) : ∀ (q : List TE) (room ec : Nat), slot * (take single q room ec).1.length ≤ room := by
  intro q
  induction q with
  | nil => intros; simp [take]
  | cons e q ih =>
    intro room ec
    rw [take]
    split
    · simp
    · split
      · simp
      · have := ih (room - slot) (ec + 1)
        simp only [List.length_cons, slot] at *
        omega

theorem take_full : ∀ (q : List TE) (room ec : Nat),
    (take false q room ec).2 = [] ∨ room < slot * (take false q room ec).1.length + slot := by
  intro q
  induction q with
  | nil => intros; left; rfl
  | cons e q ih =>
    intro room ec
    rw [take]
    simp only [Bool.false_eq_true, false_and, if_false]
    split
    · right; simpa using ‹_›
    · rcases ih (room - slot) (ec + 1) with h | h
      · left; exact h
      · right; simp only [List.length_cons, slot] at *; omega

theorem take_single : ∀ (q : List TE) (room ec : Nat), ec ≤ 1 → (take true q room ec).1.length ≤ 1 - ec := by
  intro q
  induction q with
  | nil => intros; simp [take]
  | cons e q ih =>
    intro room ec h
    rw [take]
    by_cases h1 : ec = 1
    · simp [h1]
    · simp only [true_and, h1, if_false]
      split
      · simp
      · have h0 : ec = 0 := by omega
        subst h0
        have := ih (room - slot) 1 (Nat.le_refl _)
        simp only [List.length_cons]
        simp only [Nat.zero_add] at *
        omega

theorem take_some (single : Bool) {q : List TE} {room : Nat} (hq : q ≠ []) (hr : slot ≤ room) : (take single q room 0).1 ≠ [] := by
  cases q with
  | nil => exact absurd rfl hq
  | cons e q =>
    rw [take, if_neg (by simp), if_neg (by omega)]
    simp

/-! ## Protocol and wake-up -/

structure Inv (c : Cfg) (s : S) : Prop where
  noError : s.tr ≠ .error
  waits : s.waiting = true ↔ ∃ cap, s.tr = .callBack cap
  mode : s.waiting = true → c.callback = true
  empty : s.waiting = true → s.queue = []
  data : ∀ cap, s.tr = .completing cap → s.queue ≠ []
  polled : c.callback = false → ∀ cap, s.tr = .hasBuffer cap → s.queue ≠ []

theorem Inv.step {c : Cfg} {s s' : S} (h : Inv c s) (a : Act) (hs : step c s a = some s') : Inv c s' := by
  cases a with
  | size cap =>
    simp only [Saft.step] at hs
    split at hs
    · rename_i ht
      have hw : s.waiting ≠ true := by rw [ne_eq, h.waits, ht]; rintro ⟨_, hc⟩; cases hc
      split at hs
      · rename_i hc
        cases hs
        refine ⟨(by intro h; cases h), ?_, h.mode, h.empty, ?_, ?_⟩
        · constructor
          · intro h; exact absurd h hw
          · rintro ⟨_, hc⟩; cases hc
        · intro _ hc; cases hc
        · intro hc2; rw [hc] at hc2; cases hc2
      · split at hs
        · cases hs; exact h
        · rename_i hq
          cases hs
          refine ⟨(by intro h; cases h), ?_, h.mode, h.empty, ?_, ?_⟩
          · constructor
            · intro h; exact absurd h hw
            · rintro ⟨_, hc⟩; cases hc
          · intro _ hc; cases hc
          · intro _ _ _; exact hq
    · cases hs
  | start =>
    simp only [Saft.step] at hs
    split at hs
    · rename_i cap ht
      have hw : s.waiting ≠ true := by rw [ne_eq, h.waits, ht]; rintro ⟨_, hc⟩; cases hc
      split at hs
      · rename_i hq
        split at hs
        · rename_i hc
          cases hs
          refine ⟨(by intro h; cases h), ?_, fun _ => hc, fun _ => hq, ?_, ?_⟩
          · exact ⟨fun _ => ⟨cap, rfl⟩, fun _ => rfl⟩
          · intro _ hc; cases hc
          · intro _ _ hc; cases hc
        · rename_i hc
          exact absurd hq (h.polled (by simpa using hc) cap ht)
      · rename_i hq
        cases hs
        refine ⟨(by intro h; cases h), ?_, h.mode, h.empty, ?_, ?_⟩
        · constructor
          · intro h; exact absurd h hw
          · rintro ⟨_, hc⟩; cases hc
        · intro _ _; exact hq
        · intro _ _ hc; cases hc
    · cases hs
  | complete =>
    simp only [Saft.step] at hs
    split at hs
    · rename_i cap ht
      have hw : s.waiting = false := by
        rcases Bool.eq_false_or_eq_true s.waiting with hh | hh
        · obtain ⟨_, hc⟩ := h.waits.1 hh; rw [ht] at hc; cases hc
        · exact hh
      have hw2 : (if c.hadaq then writeHadaq c.single cap s else writeMbs c.single cap s).waiting = false := by
        unfold writeHadaq writeMbs
        split <;> split <;> (try split) <;> exact hw
      cases hs
      refine ⟨(by intro h; cases h), ?_, ?_, ?_, ?_, ?_⟩
      · rw [hw2]; constructor
        · intro h; cases h
        · rintro ⟨_, hc⟩; cases hc
      · intro h; rw [hw2] at h; cases h
      · intro h; rw [hw2] at h; cases h
      · intro _ hc; cases hc
      · intro _ _ hc; cases hc
    · cases hs
  | event g =>
    simp only [Saft.step, handle, Option.some.injEq] at hs
    subst hs
    split
    · rename_i hc
      obtain ⟨cap, ht⟩ := h.waits.1 hc.2
      rw [ht]
      refine ⟨(by intro h; cases h), ?_, ?_, ?_, ?_, ?_⟩
      · constructor
        · intro h; cases h
        · rintro ⟨_, hc⟩; cases hc
      · intro h; cases h
      · intro h; cases h
      · intro _ _; simp
      · intro _ _ hc; cases hc
    · rename_i hc
      have hw : s.waiting ≠ true := fun hh => hc ⟨h.mode hh, hh⟩
      refine ⟨h.noError, h.waits, h.mode, fun hh => absurd hh hw, ?_, ?_⟩
      · intro _ _; simp
      · intro _ _ _; simp
  | overflow n =>
    simp only [Saft.step, Option.some.injEq] at hs
    subst hs
    exact ⟨h.noError, h.waits, h.mode, h.empty, h.data, h.polled⟩

theorem inv_init (c : Cfg) : Inv c {} :=
  ⟨(by intro h; cases h), ⟨(by intro h; cases h), (by rintro ⟨_, h⟩; cases h)⟩, (by intro h; cases h), (by intro h; cases h),
    (by intro _ h; cases h), (by intro _ _ h; cases h)⟩

theorem run_inv {c : Cfg} : ∀ (as : List Act) {s s' : S}, Inv c s → run c as s = some s' → Inv c s' := by
  intro as
  induction as with
  | nil => intro s s' h hr; cases hr; exact h
  | cons a as ih =>
    intro s s' h hr
    simp only [run] at hr
    cases ha : Saft.step c s a with
    | none => rw [ha] at hr; cases hr
    | some t => rw [ha] at hr; exact ih (h.step a ha) hr

/-- In both modes and both formats the transport never comes into the state of an error. -/
theorem C111_no_error (c : Cfg) (as : List Act) (s : S) (h : run c as {} = some s) : s.tr ≠ .error :=
  (run_inv as (inv_init c) h).noError

/-- The transport waits for the call-back only while there is no event, and then the next event wakes it up. -/
theorem C111_wake_up (c : Cfg) (as : List Act) (s : S) (h : run c as {} = some s) (cap : Nat) (ht : s.tr = .callBack cap) :
    s.queue = [] ∧ ∀ g, ∃ s', step c s (.event g) = some s' ∧ s'.tr = .completing cap ∧ s'.queue.length = 1 := by
  have hi := run_inv as (inv_init c) h
  have hw := hi.waits.2 ⟨cap, ht⟩
  refine ⟨hi.empty hw, fun g => ⟨_, rfl, ?_, ?_⟩⟩
  · simp [handle, hi.mode hw, hw, ht]
  · simp [handle, hi.mode hw, hw, hi.empty hw]

example : ∃ s, run ⟨true, false, false⟩ [.size 1000, .start] {} = some s ∧ s.tr = .callBack 1000 := ⟨_, rfl, rfl⟩

/-! ## Delivery -/

theorem all_mbs (single : Bool) (cap : Nat) (s : S) : all (writeMbs single cap s) = all s := by
  unfold writeMbs
  split
  · rfl
  · simp [all, take_append]

theorem handle_all (c : Cfg) (g : Sig) (s : S) : all (handle c g s) = all s ++ [mkEvent g s.over s.lastOver] := by
  unfold handle
  dsimp only
  split <;> simp [all]

theorem mkEvent_plain (g : Sig) (a b : BitVec 64) : { mkEvent g a b with overflows := 0 } = plain g := by
  unfold mkEvent plain label
  cases g.descr <;> simp

theorem all_hadaq {single : Bool} {cap : Nat} (h : cap < 112 ∨ 16 ≤ (cap - 48) % 64) (s : S) :
    all (writeHadaq single cap s) = all s := by
  unfold writeHadaq
  split
  · rfl
  · split
    · rfl
    · rename_i h1 h2
      have hr := take_room single s.queue (cap - 48) 0
      dsimp only
      rw [if_pos (by simp only [slot] at *; omega)]
      simp [all, take_append]

/-- No loss in a buffer of this size. -/
def Good (c : Cfg) (cap : Nat) : Prop := c.hadaq = false ∨ cap < 112 ∨ 16 ≤ (cap - 48) % 64

/-- Size of the buffer which the transport has. -/
def bufOf : Tr → Option Nat
  | .hasBuffer c => some c
  | .callBack c => some c
  | .completing c => some c
  | _ => none

theorem step_caps {c : Cfg} {s s' : S} (P : Nat → Prop) (h : ∀ cap, bufOf s.tr = some cap → P cap) (a : Act) (ha : ∀ cap ∈ caps [a], P cap)
    (hs : step c s a = some s') : ∀ cap, bufOf s'.tr = some cap → P cap := by
  cases a with
  | size cap =>
    have hc : P cap := ha cap (by simp [caps])
    simp only [Saft.step] at hs
    split at hs
    · split at hs
      · cases hs; intro k hk; cases hk; exact hc
      · split at hs
        · cases hs; exact h
        · cases hs; intro k hk; cases hk; exact hc
    · cases hs
  | start =>
    simp only [Saft.step] at hs
    split at hs
    · rename_i cap ht
      rw [ht] at h
      split at hs
      · split at hs <;> cases hs
        · exact h
        · intro k hk; cases hk
      · cases hs; exact h
    · cases hs
  | complete =>
    simp only [Saft.step] at hs
    split at hs
    · cases hs; intro k hk; cases hk
    · cases hs
  | event g =>
    simp only [Saft.step, handle, Option.some.injEq] at hs
    subst hs
    split
    · dsimp only
      split
      · rename_i cap ht
        rw [ht] at h; exact h
      · intro k hk; cases hk
    · exact h
  | overflow n => simp only [Saft.step, Option.some.injEq] at hs; subst hs; exact h

theorem caps_cons (a : Act) (as : List Act) : caps (a :: as) = caps [a] ++ caps as := by cases a <;> simp [caps]

theorem write_fields (c : Cfg) (cap : Nat) (s : S) :
    (if c.hadaq then writeHadaq c.single cap s else writeMbs c.single cap s).over = s.over ∧
    (if c.hadaq then writeHadaq c.single cap s else writeMbs c.single cap s).lastOver = s.lastOver := by
  unfold writeHadaq writeMbs
  split <;> split <;> (try split) <;> exact ⟨rfl, rfl⟩

theorem step_all {c : Cfg} {s s' : S} (h : ∀ cap, bufOf s.tr = some cap → Good c cap) (a : Act) (hs : step c s a = some s') :
    (∃ g, a = .event g ∧ all s' = all s ++ [mkEvent g s.over s.lastOver] ∧ s'.over = s.over ∧ s'.lastOver = s.over) ∨
    (∃ n, a = .overflow n ∧ all s' = all s ∧ s'.over = n ∧ s'.lastOver = s.lastOver) ∨
    ((∀ g, a ≠ .event g) ∧ (∀ n, a ≠ .overflow n) ∧ all s' = all s ∧ s'.over = s.over ∧ s'.lastOver = s.lastOver) := by
  cases a with
  | size cap =>
    right; right
    refine ⟨(by intro g h; cases h), (by intro g h; cases h), ?_⟩
    simp only [Saft.step] at hs
    split at hs
    · split at hs
      · cases hs; exact ⟨rfl, rfl, rfl⟩
      · split at hs <;> cases hs <;> exact ⟨rfl, rfl, rfl⟩
    · cases hs
  | start =>
    right; right
    refine ⟨(by intro g h; cases h), (by intro g h; cases h), ?_⟩
    simp only [Saft.step] at hs
    split at hs
    · split at hs
      · split at hs <;> cases hs <;> exact ⟨rfl, rfl, rfl⟩
      · cases hs; exact ⟨rfl, rfl, rfl⟩
    · cases hs
  | complete =>
    right; right
    refine ⟨(by intro g h; cases h), (by intro g h; cases h), ?_⟩
    simp only [Saft.step] at hs
    split at hs
    · rename_i cap ht
      obtain ⟨w1, w2⟩ := write_fields c cap s
      have hg : Good c cap := h cap (by rw [ht]; rfl)
      cases hs
      refine ⟨?_, w1, w2⟩
      rcases Bool.eq_false_or_eq_true c.hadaq with hh | hh
      · simp only [hh, if_true]
        rcases hg with h1 | h1
        · rw [hh] at h1; cases h1
        · exact all_hadaq h1 s
      · simp only [hh, Bool.false_eq_true, if_false]
        exact all_mbs c.single cap s
    · cases hs
  | event g =>
    left
    simp only [Saft.step, Option.some.injEq] at hs
    subst hs
    refine ⟨g, rfl, handle_all c g s, ?_, ?_⟩ <;> unfold handle <;> dsimp only <;> split <;> rfl
  | overflow n =>
    right; left
    simp only [Saft.step, Option.some.injEq] at hs
    subst hs
    exact ⟨n, rfl, rfl, rfl, rfl⟩

theorem run_all {c : Cfg} : ∀ (as : List Act) (s s' : S), (∀ cap, bufOf s.tr = some cap → Good c cap) → (∀ cap ∈ caps as, Good c cap) →
    run c as s = some s' →
    (all s').map (fun e => { e with overflows := 0 }) = (all s).map (fun e => { e with overflows := 0 }) ++ (told as).map plain ∧
    ((all s').map (·.overflows)).sum + s.lastOver = ((all s).map (·.overflows)).sum + overflows as s.over s.lastOver := by
  intro as
  induction as with
  | nil => intro s s' _ _ hr; cases hr; exact ⟨by simp [told], rfl⟩
  | cons a as ih =>
    intro s s' hb hc hr
    simp only [run] at hr
    rw [caps_cons] at hc
    cases ha : Saft.step c s a with
    | none => rw [ha] at hr; cases hr
    | some t =>
      rw [ha] at hr
      obtain ⟨i1, i2⟩ := ih t s' (step_caps (Good c) hb a (fun k hk => hc k (List.mem_append_left _ hk)) ha)
        (fun k hk => hc k (List.mem_append_right _ hk)) hr
      rcases step_all hb a ha with ⟨g, e, h1, h2, h3⟩ | ⟨n, e, h1, h2, h3⟩ | ⟨e1, e2, h1, h2, h3⟩
      · subst e
        refine ⟨?_, ?_⟩
        · rw [i1, h1, List.map_append, List.map_cons, mkEvent_plain]
          simp [told]
        · rw [h1, h2, h3, List.map_append, List.sum_append] at i2
          simp only [List.map_cons, List.map_nil, List.sum_cons, List.sum_nil, mkEvent] at i2
          simp only [overflows]
          generalize ((all s').map (·.overflows)).sum = A at *
          generalize ((all s).map (·.overflows)).sum = B at *
          generalize overflows as s.over s.over = O at *
          bv_omega
      · subst e
        rw [h1] at i1 i2
        rw [h2, h3] at i2
        exact ⟨i1, i2⟩
      · rw [h1] at i1 i2
        rw [h2, h3] at i2
        have t1 : told (a :: as) = told as := by
          cases a <;> first | rfl | exact absurd rfl (e1 _)
        have t2 : overflows (a :: as) s.over s.lastOver = overflows as s.over s.lastOver := by
          cases a <;> first | rfl | exact absurd rfl (e1 _) | exact absurd rfl (e2 _)
        rw [t1, t2]
        exact ⟨i1, i2⟩

/-- MBS format: the timing events in the buffers sent, followed by those which wait, are what saftlib told, complete and in order, with
the time of inputs corrected; the overflow numbers add up to the number told before the last event. -/
theorem C111_mbs_delivery (c : Cfg) (hc : c.hadaq = false) (as : List Act) (s : S) (h : run c as {} = some s) :
    (all s).map (fun e => { e with overflows := 0 }) = (told as).map plain ∧
    ((all s).map (·.overflows)).sum = overflows as 0 0 := by
  have := run_all (c := c) as {} s (by intro k hk; cases hk) (fun _ _ => .inl hc) h
  simpa [all] using this

/-- HADES format: the same when the place for data in each buffer, in units of a timing event, leaves a rest of at least 16 bytes.  Missing: other
sizes of buffers, see `C111_hadaq_loss_counterexample`. -/
theorem C111_hadaq_delivery_partial (c : Cfg) (as : List Act) (hcap : ∀ k ∈ caps as, 112 ≤ k → 16 ≤ (k - 48) % 64) (s : S)
    (h : run c as {} = some s) :
    (all s).map (fun e => { e with overflows := 0 }) = (told as).map plain ∧
    ((all s).map (·.overflows)).sum = overflows as 0 0 := by
  have := run_all (c := c) as {} s (by intro k hk; cases hk)
    (fun k hk => by
      by_cases h : 112 ≤ k
      · exact .inr (.inr (hcap k hk h))
      · exact .inr (.inl (by omega))) h
  simpa [all] using this

def exSig (n : BitVec 64) : Sig := ⟨n, 1, 6000, 2, 3, some [73, 79, 49]⟩

/-- Two events, one of them after 4 overflows, come in one buffer. -/
example : ∃ s, run ⟨false, false, false⟩ [.event (exSig 1), .overflow 4, .event (exSig 2), .size 1000, .start, .complete] {} = some s ∧
    s.queue = [] ∧ s.sent.map (fun x => x.data.map fun e => (e.event, e.deadline, e.overflows)) = [[(1, 1000, 0), (2, 1000, 4)]] := by
  refine ⟨_, rfl, ?_⟩; decide

/-- The same in the HADES format. -/
example : ∃ s, run ⟨false, false, true⟩ [.event (exSig 1), .event (exSig 2), .size 1024, .start, .complete] {} = some s ∧
    s.queue = [] ∧ s.sent.map (fun x => x.data.map fun e => e.event) = [[1, 2]] := by
  refine ⟨_, rfl, ?_⟩; decide

/-- HADES format: when the buffer becomes full and less than 16 bytes are left, all timing events put into it are lost: an event
without data is sent. -/
theorem C111_hadaq_loss_counterexample (c : Cfg) (hc : c.hadaq = true) (hs : c.single = false) (k j : Nat) (hk : 1 ≤ k) (hj : j < 16)
    (s : S) (ht : s.tr = .completing (48 + slot * k + j)) (hq : k ≤ s.queue.length) :
    ∃ s', step c s .complete = some s' ∧ s'.queue = s.queue.drop k ∧
      s'.sent = s.sent ++ [⟨48 + slot * k + j, s.number, [], 0⟩] := by
  have hl : ∀ (k : Nat) (q : List TE) (ec : Nat), k ≤ q.length → (take false q (slot * k + j) ec).1.length = k ∧
      (take false q (slot * k + j) ec).2 = q.drop k := by
    intro k
    induction k with
    | zero =>
      intro q ec _
      cases q with
      | nil => exact ⟨rfl, rfl⟩
      | cons e q => simp [take, slot]; rw [if_pos (by omega)]; exact ⟨rfl, rfl⟩
    | succ k ih =>
      intro q ec hq
      cases q with
      | nil => simp at hq
      | cons e q =>
        obtain ⟨h1, h2⟩ := ih q (ec + 1) (by simpa using hq)
        rw [take, if_neg (by simp), if_neg (by simp only [slot]; omega)]
        have e1 : slot * (k + 1) + j - slot = slot * k + j := by simp only [slot]; omega
        rw [e1]
        exact ⟨by simp [h1], by simp [h2]⟩
  obtain ⟨h1, h2⟩ := hl k s.queue 0 hq
  refine ⟨_, by simp only [step, ht, hc, if_true]; rfl, ?_, ?_⟩
  all_goals
    unfold writeHadaq
    rw [if_neg (by simp only [slot]; omega), if_neg (by simp only [slot]; omega)]
    have e2 : 48 + slot * k + j - 48 = slot * k + j := by omega
    dsimp only
    rw [e2, hs]
  · exact h2
  · rw [if_neg (by rw [h1]; omega)]

/-- Reached with a buffer of 120 bytes and one event. -/
example : ∃ s, run ⟨false, false, true⟩ [.event (exSig 1), .size 120, .start, .complete] {} = some s ∧
    s.queue = [] ∧ s.sent = [⟨120, 0, [], 0⟩] := by
  refine ⟨_, rfl, ?_⟩; decide

/-! ## Form of the events -/

/-- In MBS format every event sent has at least one timing event, with the single mode exactly one; the subevent has the size of its timing
events and fits into the buffer; the numbers are 0, 1, 2, … -/
theorem C111_mbs_form (c : Cfg) (hc : c.hadaq = false) (as : List Act) (s : S) (h : run c as {} = some s) :
    (∀ x ∈ s.sent, x.data ≠ [] ∧ (c.single = true → x.data.length = 1) ∧ x.raw = 64 * x.data.length ∧ 28 + x.raw ≤ x.cap) ∧
    s.sent.map (·.number) = List.range s.sent.length := by
  have key : ∀ (as : List Act) (s s' : S), Inv c s →
      ((∀ x ∈ s.sent, x.data ≠ [] ∧ (c.single = true → x.data.length = 1) ∧ x.raw = 64 * x.data.length ∧ 28 + x.raw ≤ x.cap) ∧
        s.sent.map (·.number) = List.range s.sent.length ∧ s.number = s.sent.length) → run c as s = some s' →
      ((∀ x ∈ s'.sent, x.data ≠ [] ∧ (c.single = true → x.data.length = 1) ∧ x.raw = 64 * x.data.length ∧ 28 + x.raw ≤ x.cap) ∧
        s'.sent.map (·.number) = List.range s'.sent.length ∧ s'.number = s'.sent.length) := by
    intro as
    induction as with
    | nil => intro s s' _ h hr; cases hr; exact h
    | cons a as ih =>
      intro s s' hi h hr
      simp only [run] at hr
      cases ha : Saft.step c s a with
      | none => rw [ha] at hr; cases hr
      | some t =>
        rw [ha] at hr
        refine ih t s' (hi.step a ha) ?_ hr
        have same : t.sent = s.sent → t.number = s.number → ((∀ x ∈ t.sent, x.data ≠ [] ∧ (c.single = true → x.data.length = 1) ∧
            x.raw = 64 * x.data.length ∧ 28 + x.raw ≤ x.cap) ∧ t.sent.map (·.number) = List.range t.sent.length ∧ t.number = t.sent.length) := by
          intro e1 e2; rw [e1, e2]; exact h
        cases a with
        | size cap =>
          simp only [Saft.step] at ha
          split at ha
          · split at ha
            · cases ha; exact same rfl rfl
            · split at ha <;> cases ha <;> exact same rfl rfl
          · cases ha
        | start =>
          simp only [Saft.step] at ha
          split at ha
          · split at ha
            · split at ha <;> cases ha <;> exact same rfl rfl
            · cases ha; exact same rfl rfl
          · cases ha
        | event g =>
          simp only [Saft.step, Option.some.injEq] at ha
          subst ha
          apply same <;> unfold handle <;> dsimp only <;> split <;> rfl
        | overflow n => simp only [Saft.step, Option.some.injEq] at ha; subst ha; exact same rfl rfl
        | complete =>
          simp only [Saft.step] at ha
          split at ha
          · rename_i cap ht
            have hq := hi.data cap ht
            simp only [hc, Bool.false_eq_true, if_false, Option.some.injEq] at ha
            unfold writeMbs at ha
            split at ha
            · subst ha; exact same rfl rfl
            · rename_i hcap
              subst ha
              have r1 := take_room c.single s.queue (cap - 28) 0
              have r2 := take_some c.single hq (room := cap - 28) (by simp only [slot] at *; omega)
              refine ⟨?_, ?_, ?_⟩
              · intro x hx
                rcases List.mem_append.1 hx with hx | hx
                · exact h.1 x hx
                · rw [List.mem_singleton] at hx
                  subst hx
                  refine ⟨r2, ?_, rfl, ?_⟩
                  · intro hs1
                    have := take_single s.queue (cap - 28) 0 (by omega)
                    rw [← hs1] at this
                    have := List.length_pos_iff.2 r2
                    dsimp only
                    omega
                  · simp only [slot] at *; omega
              · simp only [List.map_append, List.map_cons, List.map_nil, List.length_append, List.length_cons, List.length_nil, Nat.zero_add]
                rw [List.range_succ, h.2.1, h.2.2]
              · simp [h.2.2]
          · cases ha
  obtain ⟨h1, h2, _⟩ := key as {} s (inv_init c) ⟨(by intro x hx; cases hx), rfl, rfl⟩ h
  exact ⟨h1, h2⟩

/-- In HADES format the size announced for the data of the subevent is 16 bytes more than the timing events. -/
theorem C111_hadaq_size_counterexample (c : Cfg) (hc : c.hadaq = true) (cap : Nat) (s s' : S) (ht : s.tr = .completing cap)
    (hs : step c s .complete = some s') :
    s'.sent = s.sent ∨ ∃ x, s'.sent = s.sent ++ [x] ∧ (x.raw = 64 * x.data.length + 16 ∨ x.raw = 0 ∧ x.data = []) := by
  simp only [step, ht, hc, if_true, Option.some.injEq] at hs
  subst hs
  unfold writeHadaq
  split
  · left; rfl
  · split
    · left; rfl
    · right
      refine ⟨_, rfl, ?_⟩
      split
      · left; simp only [slot]; omega
      · right; exact ⟨rfl, rfl⟩

/-- MBS format without single mode: after each event sent, all timing events are delivered or the buffer has no place for one more. -/
theorem C111_mbs_full (c : Cfg) (hc : c.hadaq = false) (hs1 : c.single = false) (cap : Nat) (hcap : 92 ≤ cap) (s s' : S)
    (ht : s.tr = .completing cap) (hs : step c s .complete = some s') :
    ∃ x, s'.sent = s.sent ++ [x] ∧ (s'.queue = [] ∨ cap < 28 + 64 * (x.data.length + 1)) := by
  simp only [step, ht, hc, Bool.false_eq_true, if_false, Option.some.injEq] at hs
  subst hs
  unfold writeMbs
  rw [if_neg (by simp only [slot]; omega)]
  refine ⟨_, rfl, ?_⟩
  rw [hs1]
  rcases take_full s.queue (cap - 28) 0 with h | h
  · left; exact h
  · right; simp only [slot] at *; omega

/-- Waiting timing events are delivered by the next calls of the transport, when the buffer is not too small. -/
theorem C111_progress (c : Cfg) (hc : c.hadaq = false) (as : List Act) (s : S) (h : run c as {} = some s) (hq : s.queue ≠ []) (cap : Nat)
    (hcap : 92 ≤ cap) (hb : ∀ k ∈ caps as, 92 ≤ k) :
    ∃ bs s', bs.length ≤ 3 ∧ told bs = [] ∧ run c bs s = some s' ∧ s'.queue.length < s.queue.length := by
  have hi := run_inv as (inv_init c) h
  have hbuf : ∀ (as : List Act) (s s' : S), (∀ k, bufOf s.tr = some k → 92 ≤ k) → (∀ k ∈ caps as, 92 ≤ k) → run c as s = some s' →
      ∀ k, bufOf s'.tr = some k → 92 ≤ k := by
    intro as
    induction as with
    | nil => intro s s' h _ hr; cases hr; exact h
    | cons a as ih =>
      intro s s' h hc2 hr
      simp only [run] at hr
      rw [caps_cons] at hc2
      cases ha : Saft.step c s a with
      | none => rw [ha] at hr; cases hr
      | some t =>
        rw [ha] at hr
        exact ih t s' (step_caps (fun k => 92 ≤ k) h a (fun k hk => hc2 k (List.mem_append_left _ hk)) ha)
          (fun k hk => hc2 k (List.mem_append_right _ hk)) hr
  have hbs := hbuf as {} s (by intro k hk; cases hk) hb h
  have comp : ∀ (t : S) (k : Nat), t.tr = .completing k → t.queue = s.queue → 92 ≤ k →
      ∃ s', step c t .complete = some s' ∧ s'.queue.length < s.queue.length := by
    intro t k ht hqt hk
    refine ⟨_, by simp only [step, ht, hc, Bool.false_eq_true, if_false]; rfl, ?_⟩
    unfold writeMbs
    rw [if_neg (by simp only [slot]; omega), hqt]
    have r1 := take_append c.single s.queue (k - 28) 0
    have r2 := List.length_pos_iff.2 (take_some c.single hq (room := k - 28) (by simp only [slot]; omega))
    have r3 := congrArg List.length r1
    rw [List.length_append] at r3
    dsimp only
    omega
  cases ht : s.tr with
  | error => exact absurd ht hi.noError
  | callBack k => exact absurd (hi.empty (hi.waits.2 ⟨k, ht⟩)) hq
  | completing k =>
    obtain ⟨s', h1, h2⟩ := comp s k ht rfl (hbs k (by rw [ht]; rfl))
    exact ⟨[.complete], s', (by simp), rfl, by simp [run, h1], h2⟩
  | hasBuffer k =>
    obtain ⟨s', h1, h2⟩ := comp { s with tr := .completing k } k rfl rfl (hbs k (by rw [ht]; rfl))
    refine ⟨[.start, .complete], s', (by simp), rfl, ?_, h2⟩
    have e : step c s .start = some { s with tr := .completing k } := by simp [step, ht, hq]
    simp [run, e, h1]
  | init =>
    obtain ⟨s', h1, h2⟩ := comp { s with tr := .completing cap } cap rfl rfl hcap
    refine ⟨[.size cap, .start, .complete], s', (by simp), rfl, ?_, h2⟩
    have e1 : step c s (.size cap) = some { s with tr := .hasBuffer cap } := by simp [step, ht, hq]
    have e2 : step c { s with tr := .hasBuffer cap } .start = some { s with tr := .completing cap } := by simp [step, hq]
    simp [run, e1, e2, h1]

/-! ## Conditions -/

/-- With equal numbers of ids, masks, offsets and flags every condition is registered with its values.  Missing: the rejection of
other configurations. -/
theorem C111_conditions_partial {α : Type} (is ms os fs : List α) (h1 : ms.length = is.length) (h2 : os.length = is.length)
    (h3 : fs.length = is.length) :
    accepted is.length ms.length os.length fs.length = true ∧
    ∃ r, conditions is ms os fs = some r ∧ r.map (·.1) = is ∧ r.map (·.2.1) = ms ∧ r.map (·.2.2.1) = os ∧ r.map (·.2.2.2) = fs := by
  refine ⟨by simp [accepted, h1], ?_⟩
  induction is generalizing ms os fs with
  | nil =>
    cases ms with
    | cons => cases h1
    | nil => cases os with
      | cons => cases h2
      | nil => cases fs with
        | cons => cases h3
        | nil => exact ⟨[], rfl, rfl, rfl, rfl, rfl⟩
  | cons i is ih =>
    cases ms with
    | nil => cases h1
    | cons m ms => cases os with
      | nil => cases h2
      | cons o os => cases fs with
        | nil => cases h3
        | cons f fs =>
          obtain ⟨r, e1, e2, e3, e4, e5⟩ := ih ms os fs (by simpa using h1) (by simpa using h2) (by simpa using h3)
          exact ⟨(i, m, o, f) :: r, by simp [conditions, e1], by simp [e2], by simp [e3], by simp [e4], by simp [e5]⟩

example : conditions [1, 2] [3, 4] [5, 6] [7, 8] = some [(1, 3, 5, 7), (2, 4, 6, 8)] := rfl

/-- A configuration with a wrong number of flags is accepted, since only the first comparison is negated: with too many flags memory behind
the other vectors is read, with too few the last ids are silently not registered. -/
theorem C111_conditions_counterexample {α : Type} (is ms os fs : List α) (h1 : ms.length = is.length) (h2 : os.length = is.length) :
    accepted is.length ms.length os.length fs.length = true ∧
    (is.length < fs.length → conditions is ms os fs = none) ∧
    (fs.length ≤ is.length → ∃ r, conditions is ms os fs = some r ∧ r.length = fs.length) := by
  refine ⟨by simp [accepted, h1], ?_⟩
  induction fs generalizing is ms os with
  | nil => exact ⟨(by intro h; simp at h), fun _ => ⟨[], by cases is <;> cases ms <;> cases os <;> rfl, rfl⟩⟩
  | cons f fs ih =>
    cases is with
    | nil => exact ⟨fun _ => by cases ms <;> cases os <;> rfl, (by intro h; simp at h)⟩
    | cons i is =>
      cases ms with
      | nil => cases h1
      | cons m ms =>
        cases os with
        | nil => cases h2
        | cons o os =>
          obtain ⟨g1, g2⟩ := ih is ms os (by simpa using h1) (by simpa using h2)
          refine ⟨fun h => ?_, fun h => ?_⟩
          · simp [conditions, g1 (by simpa using h)]
          · obtain ⟨r, e1, e2⟩ := g2 (by simpa using h)
            exact ⟨(i, m, o, f) :: r, by simp [conditions, e1], by simp [e2]⟩

end Verif.Saft
