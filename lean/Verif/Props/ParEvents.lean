import Verif.Spec.ParEvents
import Mathlib.Data.List.Nodup

/-!
# C75: parameter events reach their receivers
-/

namespace Verif.ParEvents

open Spec

theorem run_append (s : S) (a b : List Op) : run s (a ++ b) = run (run s a) b := by simp [run]

theorem mem_eraseIdx_or {α : Type} {l : List α} {i : Nat} {a x : α} (h : l[i]? = some a) (hx : x ∈ l) :
    x = a ∨ x ∈ l.eraseIdx i := by
  rw [List.mem_eraseIdx_iff_getElem?]
  obtain ⟨j, hj⟩ := List.mem_iff_getElem?.1 hx
  by_cases e : j = i
  · subst e; rw [h] at hj; cases hj; exact Or.inl rfl
  · exact Or.inr ⟨j, e, hj⟩

/-! ### No lost wake-up -/

/-- Somebody will empty the queue. -/
def Awake (s : S) : Prop := s.queue ≠ [] → s.events ≠ 0 ∨ s.firing ≠ 0 ∨ s.busy ≠ none

theorem awake_step {s : S} (h : Awake s) (op : Op) : Awake (step s op) := by
  cases op with
  | modify | attr | configure | create | destroy | subscribe | unsubscribe | gone =>
    first
    | exact h
    | (simp only [step, S.subscribe]; split <;> exact h)
  | check i =>
    simp only [step, S.check]
    split
    · exact h
    · split <;> exact h
  | push i =>
    simp only [step, S.push]
    split
    · exact h
    · intro _
      by_cases hq : s.queue = []
      · right; left
        dsimp only
        rw [if_pos hq]; omega
      · rcases h hq with e | e | e
        · exact Or.inl e
        · right; left
          dsimp only
          rw [if_neg hq]; exact e
        · exact Or.inr (Or.inr e)
  | fire =>
    simp only [step, S.fire]
    split
    · exact h
    · intro _; left; dsimp only; omega
  | start =>
    simp only [step, S.start]
    split
    · intro _; right; right; simp
    · exact h
  | pop =>
    simp only [step, S.pop]
    split
    · exact h
    · split
      · exact h
      · intro _; left; dsimp only; omega
      · split
        · rename_i hq
          intro hne; exact absurd hq hne
        · intro _; right; right; simp
  | deliver can =>
    simp only [step, S.deliver]
    split <;> exact h
  | reply i =>
    simp only [step, S.reply]
    split <;> exact h

theorem awake_run {s : S} (h : Awake s) (ops : List Op) : Awake (run s ops) := by
  induction ops generalizing s with
  | nil => exact h
  | cons op ops ih => exact ih (awake_step h op)

/-- **C75**: no wake-up is lost: whenever records are in the queue, the manager is processing them or its event is
queued or about to be queued. -/
theorem C75_awake (s : S) (hs : s.queue = []) (ops : List Op) (hq : (run s ops).queue ≠ []) :
    (run s ops).events ≠ 0 ∨ (run s ops).firing ≠ 0 ∨ (run s ops).busy ≠ none :=
  awake_run (s := s) (fun h => absurd hs h) ops hq

example : (run {} [.modify 1 5, .check 0, .push 0]).queue = [(1, .modified)] ∧
    (run {} [.modify 1 5, .check 0, .push 0]).firing = 1 := by decide

/-! ### Order -/

def Kept (s : S) : Prop := s.pushed = s.done ++ s.cur.toList ++ s.queue

theorem kept_step {s : S} (h : Kept s) (op : Op) : Kept (step s op) := by
  unfold Kept at *
  cases op with
  | modify | attr | configure | create | destroy | subscribe | unsubscribe | gone =>
    first
    | exact h
    | (simp only [step, S.subscribe]; split <;> exact h)
  | check i =>
    simp only [step, S.check]
    split
    · exact h
    · split <;> exact h
  | push i =>
    simp only [step, S.push]
    split
    · exact h
    · dsimp only; rw [h]; simp
  | fire => simp only [step, S.fire]; split <;> exact h
  | start => simp only [step, S.start]; split <;> exact h
  | pop =>
    simp only [step, S.pop]
    split
    · exact h
    · rename_i hc
      have hc' : s.cur = none := by simpa using hc
      split
      · exact h
      · exact h
      · split
        · exact h
        · rename_i r q hq
          dsimp only
          rw [h, hc', hq]; simp
  | deliver can =>
    simp only [step, S.deliver]
    split
    · exact h
    · rename_i par ev hc
      dsimp only
      rw [h, hc]; simp
  | reply i => simp only [step, S.reply]; split <;> exact h

/-- **C75**: the manager handles the records exactly once and in the order in which they were put in the queue. -/
theorem C75_order (s : S) (h1 : s.pushed = []) (h2 : s.done = []) (h3 : s.cur = none) (h4 : s.queue = [])
    (ops : List Op) : (run s ops).pushed = (run s ops).done ++ (run s ops).cur.toList ++ (run s ops).queue := by
  have : ∀ (ops : List Op) (s : S), Kept s → Kept (run s ops) := by
    intro ops
    induction ops with
    | nil => intro s h; exact h
    | cons op ops ih => intro s h; exact ih _ (kept_step h op)
  exact this ops s (by unfold Kept; rw [h1, h2, h3, h4]; rfl)

/-! ### Events are not lost -/

/-- Only the check can drop an event on its way, and only if the same event is in the queue. -/
theorem pending_step {s : S} {r : Nat × Ev} (h : Pending s r) (op : Op) (hd : ∀ can, op = .deliver can → s.cur ≠ some r) :
    Pending (step s op) r := by
  unfold Pending at *
  cases op with
  | modify p v =>
    simp only [step, List.mem_append]
    rcases h with h | h | h | h
    · exact Or.inl (Or.inl h)
    · exact Or.inr (Or.inl h)
    · exact Or.inr (Or.inr (Or.inl h))
    · exact Or.inr (Or.inr (Or.inr h))
  | attr p => exact h
  | configure p b =>
    simp only [step, List.mem_append]
    rcases h with h | h | h | h
    · exact Or.inl (Or.inl h)
    · exact Or.inr (Or.inl h)
    · exact Or.inr (Or.inr (Or.inl h))
    · exact Or.inr (Or.inr (Or.inr h))
  | create p b =>
    simp only [step, List.mem_append]
    rcases h with h | h | h | h
    · exact Or.inl (Or.inl h)
    · exact Or.inr (Or.inl h)
    · exact Or.inr (Or.inr (Or.inl h))
    · exact Or.inr (Or.inr (Or.inr h))
  | destroy p =>
    simp only [step, List.mem_append]
    rcases h with h | h | h | h
    · exact Or.inl (Or.inl h)
    · exact Or.inr (Or.inl h)
    · exact Or.inr (Or.inr (Or.inl h))
    · exact Or.inr (Or.inr (Or.inr h))
  | check i =>
    simp only [step, S.check]
    split
    · exact h
    · rename_i a ha
      split
      · rename_i hcov
        rcases h with h | h | h | h
        · rcases mem_eraseIdx_or ha h with e | e
          · subst e
            simp only [covered, Bool.and_eq_true, decide_eq_true_eq] at hcov
            exact Or.inr (Or.inr (Or.inl hcov.2))
          · exact Or.inl e
        · exact Or.inr (Or.inl h)
        · exact Or.inr (Or.inr (Or.inl h))
        · exact Or.inr (Or.inr (Or.inr h))
      · rcases h with h | h | h | h
        · rcases mem_eraseIdx_or ha h with e | e
          · subst e; exact Or.inr (Or.inl (List.mem_append_right _ List.mem_cons_self))
          · exact Or.inl e
        · exact Or.inr (Or.inl (List.mem_append_left _ h))
        · exact Or.inr (Or.inr (Or.inl h))
        · exact Or.inr (Or.inr (Or.inr h))
  | push i =>
    simp only [step, S.push]
    split
    · exact h
    · rename_i a ha
      rcases h with h | h | h | h
      · exact Or.inl h
      · rcases mem_eraseIdx_or ha h with e | e
        · subst e; exact Or.inr (Or.inr (Or.inl (List.mem_append_right _ List.mem_cons_self)))
        · exact Or.inr (Or.inl e)
      · exact Or.inr (Or.inr (Or.inl (List.mem_append_left _ h)))
      · exact Or.inr (Or.inr (Or.inr h))
  | fire => simp only [step, S.fire]; split <;> exact h
  | start => simp only [step, S.start]; split <;> exact h
  | pop =>
    simp only [step, S.pop]
    split
    · exact h
    · rename_i hc
      have hc' : s.cur = none := by simpa using hc
      split
      · exact h
      · exact h
      · split
        · exact h
        · rename_i r' q hq
          rcases h with h | h | h | h
          · exact Or.inl h
          · exact Or.inr (Or.inl h)
          · rw [hq] at h
            rcases List.mem_cons.1 h with e | e
            · subst e; exact Or.inr (Or.inr (Or.inr rfl))
            · exact Or.inr (Or.inr (Or.inl e))
          · rw [hc'] at h; cases h
  | deliver can =>
    have hd' := hd can rfl
    simp only [step, S.deliver]
    split
    · exact h
    · rcases h with h | h | h | h
      · exact Or.inl h
      · exact Or.inr (Or.inl h)
      · exact Or.inr (Or.inr (Or.inl h))
      · exact absurd h hd'
  | subscribe a w m o => simp only [step, S.subscribe]; split <;> exact h
  | unsubscribe w m => exact h
  | gone w => exact h
  | reply i => simp only [step, S.reply]; split <;> exact h

theorem lastTold_append (l m : List Sent) (addr par : Nat) :
    lastTold (l ++ m) addr par = (lastTold m addr par).or (lastTold l addr par) := by
  unfold lastTold
  rw [List.filter_append, List.map_append, List.getLast?_append]

theorem lastTold_none {l : List Sent} {addr par : Nat} (h : ∀ x ∈ l, x.par ≠ par) : lastTold l addr par = none := by
  unfold lastTold
  rw [List.filter_eq_nil_iff.2]
  · rfl
  · intro x hx
    simp [h x hx]

theorem lastTold_of {l : List Sent} {addr par v : Nat} (h1 : ∃ x ∈ l, x.addr = addr ∧ x.par = par)
    (h2 : ∀ x ∈ l, x.addr = addr → x.par = par → x.value = v) : lastTold l addr par = some v := by
  unfold lastTold
  have hne : (l.filter (fun x => decide (x.addr = addr) && decide (x.par = par))).map (·.value) ≠ [] := by
    obtain ⟨x, hx, e1, e2⟩ := h1
    intro hn
    have : x ∈ l.filter (fun x => decide (x.addr = addr) && decide (x.par = par)) := by
      simp [List.mem_filter, hx, e1, e2]
    rw [List.map_eq_nil_iff.1 hn] at this
    cases this
  rw [List.getLast?_eq_getLast_of_ne_nil hne]
  congr 1
  have := List.getLast_mem hne
  obtain ⟨x, hx, e⟩ := List.mem_map.1 this
  rw [← e]
  simp only [List.mem_filter, Bool.and_eq_true, decide_eq_true_eq] at hx
  exact h2 x hx.1 hx.2.1 hx.2.2

/-- Delivery of an event: every open receiver which wants it is told the present value. -/
theorem deliver_tells {s : S} {par addr : Nat} {ev : Ev} (hc : s.cur = some (par, ev))
    (ho : Open s addr par) {can : Nat → Bool} (hcan : can addr = true)
    (hev : ev = .modified ∨ ev = .configured) :
    lastTold (s.deliver can).sent addr par = some (s.value par) := by
  unfold S.deliver
  rw [hc]
  dsimp only
  rw [lastTold_append]
  have : lastTold ((s.recvs.filter (goes s can par (shown ev))).map
      (fun r => (⟨r.addr, par, s.value par, shown ev, s.attr par || decide (ev = .configured)⟩ : Sent))) addr par =
      some (s.value par) := by
    refine lastTold_of ?_ ?_
    · obtain ⟨r, hr, e1, e2, e3⟩ := ho
      refine ⟨_, List.mem_map.2 ⟨r, ?_, rfl⟩, e1, rfl⟩
      have hs : shown ev = .modified := by rcases hev with e | e <;> rw [e] <;> rfl
      simp only [List.mem_filter, hr, true_and, goes, accepts, hs, e1, hcan, e2]
      simp [e3]
    · intro x hx _ _
      obtain ⟨r, _, e⟩ := List.mem_map.1 hx
      rw [← e]
  rw [this]; rfl

/-- The receiver knows the present value or will be told. -/
def Informed (s : S) (addr par : Nat) : Prop :=
  Pending s (par, .modified) ∨ lastTold s.sent addr par = some (s.value par)

theorem informed_step {s : S} {addr par : Nat} (h : Informed s addr par) (op : Op) (ho : Open s addr par)
    (ha : Accepted addr op) : Informed (step s op) addr par := by
  unfold Informed at *
  by_cases hdel : ∃ can, op = .deliver can
  · obtain ⟨can, rfl⟩ := hdel
    have hcan : can addr = true := ha
    have hv : (step s (.deliver can)).value = s.value := by
      simp only [step, S.deliver]; split <;> rfl
    cases hc : s.cur with
    | none =>
      have : step s (.deliver can) = s := by simp only [step, S.deliver]; rw [hc]
      rw [this]; exact h
    | some r =>
      obtain ⟨p, ev⟩ := r
      by_cases e : p = par ∧ (ev = .modified ∨ ev = .configured)
      · obtain ⟨rfl, hev⟩ := e
        right
        rw [hv]
        exact deliver_tells hc ho hcan hev
      · rcases h with h | h
        · left
          refine pending_step h _ ?_
          intro can' _
          rw [hc]
          intro he
          cases he
          exact e ⟨rfl, Or.inl rfl⟩
        · right
          rw [hv]
          simp only [step, S.deliver, hc]
          rw [lastTold_append]
          cases hm : lastTold ((s.recvs.filter (goes s can p (shown ev))).map
              (fun r => (⟨r.addr, p, s.value p, shown ev, s.attr p || decide (ev = .configured)⟩ : Sent))) addr par with
          | none => rw [Option.none_or]; exact h
          | some v =>
            rw [Option.some_or]
            by_cases hp : p = par
            · subst hp
              unfold lastTold at hm
              have := List.mem_of_getLast? hm
              obtain ⟨x, hx, e⟩ := List.mem_map.1 this
              have hx' := (List.mem_filter.1 hx).1
              obtain ⟨r, _, e'⟩ := List.mem_map.1 hx'
              rw [← e, ← e']
            · rw [lastTold_none] at hm
              · cases hm
              · intro x hx
                obtain ⟨r, _, e'⟩ := List.mem_map.1 hx
                rw [← e']; exact hp
  · have hd : ∀ can, op = .deliver can → s.cur ≠ some (par, .modified) := fun can e => absurd ⟨can, e⟩ hdel
    by_cases hmod : ∃ v, op = .modify par v
    · obtain ⟨v, rfl⟩ := hmod
      left; left
      simp [step]
    · rcases h with h | h
      · exact Or.inl (pending_step h op hd)
      · right
        have e1 : (step s op).sent = s.sent := by
          cases op with
          | deliver can => exact absurd ⟨can, rfl⟩ hdel
          | check i => simp only [step, S.check]; split <;> (try split) <;> rfl
          | push i => simp only [step, S.push]; split <;> rfl
          | fire => simp only [step, S.fire]; split <;> rfl
          | start => simp only [step, S.start]; split <;> rfl
          | pop => simp only [step, S.pop]; split <;> (try split) <;> (try split) <;> rfl
          | subscribe => simp only [step, S.subscribe]; split <;> rfl
          | reply i => simp only [step, S.reply]; split <;> rfl
          | _ => rfl
        have e2 : (step s op).value par = s.value par := by
          cases op with
          | modify p v =>
            simp only [step]
            rw [if_neg]
            intro e; subst e; exact hmod ⟨v, rfl⟩
          | deliver can => exact absurd ⟨can, rfl⟩ hdel
          | check i => simp only [step, S.check]; split <;> (try split) <;> rfl
          | push i => simp only [step, S.push]; split <;> rfl
          | fire => simp only [step, S.fire]; split <;> rfl
          | start => simp only [step, S.start]; split <;> rfl
          | pop => simp only [step, S.pop]; split <;> (try split) <;> (try split) <;> rfl
          | subscribe => simp only [step, S.subscribe]; split <;> rfl
          | reply i => simp only [step, S.reply]; split <;> rfl
          | _ => rfl
        rw [e1, e2]; exact h

/-- **C75**: no update is lost: once a parameter has got a value, every receiver which is open from then on (subscribed
with a matching mask, accepting commands, with at most 1000 events not yet answered) has been told the present value
last, or an event of the parameter is on its way. -/
theorem C75_latest (s : S) (par v addr : Nat) (ops : List Op)
    (ho : OpenDuring addr par (step s (.modify par v)) ops) :
    Pending (run s (.modify par v :: ops)) (par, .modified) ∨
    lastTold (run s (.modify par v :: ops)).sent addr par = some ((run s (.modify par v :: ops)).value par) := by
  have key : ∀ (ops : List Op) (s : S), Informed s addr par → OpenDuring addr par s ops → Informed (run s ops) addr par := by
    intro ops
    induction ops with
    | nil => intro s h _; exact h
    | cons op ops ih =>
      intro s h ho
      exact ih (step s op) (informed_step h op ho.1 ho.2.1) ho.2.2
  refine key ops (step s (.modify par v)) ?_ ho
  left; left
  simp [step]

example : ∃ s : S, ∃ ops : List Op, OpenDuring 7 1 (step s (.modify 1 5)) ops ∧
    (run s (.modify 1 5 :: ops)).sent = [⟨7, 1, 6, .modified, false⟩] := by
  refine ⟨{ recvs := [⟨7, 0, 0, true, 0⟩] }, [.modify 1 6, .check 0, .push 0, .check 0, .fire, .start, .pop,
    .deliver (fun _ => true), .pop], ?_, ?_⟩
  · have hr : ∀ s : S, s.recvs = [⟨7, 0, 0, true, 0⟩] → s.hit = (fun _ _ => true) → Open s 7 1 := by
      intro s e1 e2
      exact ⟨⟨7, 0, 0, true, 0⟩, by rw [e1]; exact List.mem_cons_self, rfl, by rw [e2], by decide⟩
    have hr' : ∀ s : S, s.recvs = [⟨7, 0, 0, true, 1⟩] → s.hit = (fun _ _ => true) → Open s 7 1 := by
      intro s e1 e2
      exact ⟨⟨7, 0, 0, true, 1⟩, by rw [e1]; exact List.mem_cons_self, rfl, by rw [e2], by decide⟩
    exact ⟨hr _ rfl rfl, trivial, hr _ rfl rfl, trivial, hr _ rfl rfl, trivial, hr _ rfl rfl, trivial, hr _ rfl rfl, trivial,
      hr _ rfl rfl, trivial, hr _ rfl rfl, trivial, hr _ rfl rfl, rfl, hr' _ rfl rfl, trivial, hr' _ rfl rfl⟩
  · decide

/-- **C75**: an event which is delivered shows the value of the parameter at that time and whether attributes were
changed since the event before. -/
theorem C75_told (s : S) (can : Nat → Bool) (par : Nat) (ev : Ev) (hc : s.cur = some (par, ev)) :
    ∃ news : List Sent, (s.deliver can).sent = s.sent ++ news ∧
      (∀ x ∈ news, x.par = par ∧ x.value = s.value par ∧
        x.ev = (if ev = .configured then Ev.modified else ev) ∧ x.attr = (s.attr par || decide (ev = .configured)) ∧
        ∃ r ∈ s.recvs, r.addr = x.addr ∧ s.hit r.mask par = true ∧ (r.onlyChange = true → x.ev = .modified) ∧
          r.queue ≤ 1000 ∧ can r.addr = true) ∧
      (s.deliver can).attr par = false ∧ (∀ k, k ≠ par → (s.deliver can).attr k = s.attr k) := by
  have hshown : shown ev = (if ev = .configured then Ev.modified else ev) := by cases ev <;> rfl
  refine ⟨(s.recvs.filter (goes s can par (shown ev))).map
    (fun r => (⟨r.addr, par, s.value par, shown ev, s.attr par || decide (ev = .configured)⟩ : Sent)), ?_, ?_, ?_, ?_⟩
  · unfold S.deliver; rw [hc]
  · intro x hx
    obtain ⟨r, hr, e⟩ := List.mem_map.1 hx
    obtain ⟨hr1, hr2⟩ := List.mem_filter.1 hr
    subst e
    refine ⟨rfl, rfl, hshown, rfl, r, hr1, rfl, ?_⟩
    simp only [goes, accepts, Bool.and_eq_true, Bool.not_eq_true', decide_eq_false_iff_not] at hr2
    obtain ⟨⟨h1, h2⟩, h3⟩ := hr2
    split at h1
    · cases h1
    · rename_i hn
      simp only [Bool.and_eq_true, decide_eq_true_eq, not_and, not_not] at hn
      exact ⟨h1, hn, by omega, h3⟩
  · unfold S.deliver; rw [hc]; simp
  · intro k hk
    unfold S.deliver; rw [hc]
    dsimp only
    rw [if_neg hk]

/-! ### Overload -/

/-- The counter of every receiver is the number of its events which are not answered. -/
structure Counted (s : S) : Prop where
  nodup : (s.recvs.map (·.addr)).Nodup
  count : ∀ r ∈ s.recvs, r.queue = s.flying.count r.addr
  bound : ∀ r ∈ s.recvs, r.queue ≤ 1001

theorem counted_of_eq {s t : S} (h : Counted s) (e1 : t.recvs = s.recvs) (e2 : t.flying = s.flying) : Counted t :=
  ⟨by rw [e1]; exact h.nodup, by rw [e1, e2]; exact h.count, by rw [e1]; exact h.bound⟩

theorem counted_filter {s : S} (h : Counted s) (f : Recv → Bool) : Counted { s with recvs := s.recvs.filter f } :=
  ⟨List.Nodup.sublist (List.Sublist.map _ List.filter_sublist) h.nodup,
    fun r hr => h.count r (List.mem_filter.1 hr).1, fun r hr => h.bound r (List.mem_filter.1 hr).1⟩

theorem count_map_filter {l : List Recv} (hn : (l.map (·.addr)).Nodup) (f : Recv → Bool) {r : Recv} (hr : r ∈ l) :
    ((l.filter f).map (·.addr)).count r.addr = if f r then 1 else 0 := by
  induction l with
  | nil => cases hr
  | cons x xs ih =>
    rw [List.map_cons, List.nodup_cons] at hn
    have hno : ∀ y : Recv, y.addr ∉ xs.map (·.addr) → ((xs.filter f).map (·.addr)).count y.addr = 0 := by
      intro y hy
      rw [List.count_eq_zero]
      intro hm
      obtain ⟨z, hz, e⟩ := List.mem_map.1 hm
      exact hy (List.mem_map.2 ⟨z, (List.mem_filter.1 hz).1, e⟩)
    rcases List.mem_cons.1 hr with e | e
    · subst e
      by_cases hf : f r = true
      · rw [List.filter_cons_of_pos hf, if_pos hf, List.map_cons, List.count_cons_self, hno r hn.1]
      · rw [List.filter_cons_of_neg hf, if_neg hf, hno r hn.1]
    · have hne : x.addr ≠ r.addr := by
        intro e'
        exact hn.1 (by rw [e']; exact List.mem_map.2 ⟨r, e, rfl⟩)
      by_cases hf : f x = true
      · rw [List.filter_cons_of_pos hf, List.map_cons, List.count_cons_of_ne hne, ih hn.2 e]
      · rw [List.filter_cons_of_neg hf, ih hn.2 e]

theorem count_eraseIdx {l : List Nat} {i a : Nat} (h : l[i]? = some a) (x : Nat) :
    l.count x = (l.eraseIdx i).count x + if x = a then 1 else 0 := by
  induction l generalizing i with
  | nil => simp at h
  | cons y ys ih =>
    cases i with
    | zero =>
      simp at h
      subst h
      rw [List.eraseIdx_cons_zero, List.count_cons]
      by_cases e : x = y
      · simp [e]
      · simp [e, Ne.symm e]
    | succ i =>
      simp at h
      rw [List.eraseIdx_cons_succ, List.count_cons, List.count_cons, ih h]
      omega

theorem counted_step {s : S} (h : Counted s) (op : Op)
    (hf : match op with
      | .subscribe a .. => a ∉ s.flying
      | _ => True) : Counted (step s op) := by
  cases op with
  | modify | attr | configure | create | destroy => exact counted_of_eq h rfl rfl
  | check i =>
    simp only [step, S.check]
    split
    · exact h
    · split <;> exact counted_of_eq h rfl rfl
  | push i => simp only [step, S.push]; split; exact h; exact counted_of_eq h rfl rfl
  | fire => simp only [step, S.fire]; split; exact h; exact counted_of_eq h rfl rfl
  | start => simp only [step, S.start]; split; exact counted_of_eq h rfl rfl; exact h
  | pop =>
    simp only [step, S.pop]
    split
    · exact h
    · split
      · exact h
      · exact counted_of_eq h rfl rfl
      · split <;> exact counted_of_eq h rfl rfl
  | unsubscribe w m => exact counted_filter h _
  | gone w => exact counted_filter h _
  | subscribe a w m o =>
    simp only [step, S.subscribe]
    split
    · exact h
    · rename_i hn
      refine ⟨?_, ?_, ?_⟩
      · rw [List.map_append]
        rw [List.nodup_append]
        refine ⟨h.nodup, by simp, ?_⟩
        intro x hx y hy e
        subst e
        simp only [List.map_cons, List.map_nil, List.mem_singleton] at hy
        rw [hy] at hx
        exact hn hx
      · intro r hr
        rcases List.mem_append.1 hr with e | e
        · exact h.count r e
        · rw [List.mem_singleton.1 e]
          show (0 : Int) = _
          rw [List.count_eq_zero.2 hf]; rfl
      · intro r hr
        rcases List.mem_append.1 hr with e | e
        · exact h.bound r e
        · rw [List.mem_singleton.1 e]; show (0 : Int) ≤ 1001; decide
  | deliver can =>
    simp only [step, S.deliver]
    split
    · exact h
    · rename_i par ev hc
      refine ⟨?_, ?_, ?_⟩
      · dsimp only
        rw [List.map_map]
        have : ((fun r : Recv => r.addr) ∘ fun r => if goes s can par (shown ev) r then { r with queue := r.queue + 1 } else r)
            = (fun r => r.addr) := by
          funext r; dsimp only [Function.comp]; split <;> rfl
        rw [this]; exact h.nodup
      · intro r hr
        obtain ⟨x, hx, e⟩ := List.mem_map.1 hr
        dsimp only
        have hcx := h.count x hx
        have hm := count_map_filter h.nodup (goes s can par (shown ev)) hx
        subst e
        have ha : (if goes s can par (shown ev) x then { x with queue := x.queue + 1 } else x).addr = x.addr := by
          split <;> rfl
        rw [ha, List.count_append, hm]
        by_cases hg : goes s can par (shown ev) x = true
        · rw [if_pos hg, if_pos hg]; dsimp only; rw [hcx]; push_cast; rfl
        · rw [if_neg hg, if_neg hg]; rw [hcx]; simp
      · intro r hr
        obtain ⟨x, hx, e⟩ := List.mem_map.1 hr
        have hb := h.bound x hx
        subst e
        by_cases hg : goes s can par (shown ev) x = true
        · rw [if_pos hg]
          simp only [goes, Bool.and_eq_true, Bool.not_eq_true', decide_eq_false_iff_not] at hg
          dsimp only
          omega
        · rw [if_neg hg]; exact hb
  | reply i =>
    simp only [step, S.reply]
    split
    · exact h
    · rename_i a ha
      refine ⟨?_, ?_, ?_⟩
      · dsimp only
        rw [List.map_map]
        have : ((fun r : Recv => r.addr) ∘ fun r => if r.addr = a then { r with queue := r.queue - 1 } else r)
            = (fun r => r.addr) := by
          funext r; dsimp only [Function.comp]; split <;> rfl
        rw [this]; exact h.nodup
      · intro r hr
        obtain ⟨x, hx, e⟩ := List.mem_map.1 hr
        have hcx := h.count x hx
        subst e
        have hadd : (if x.addr = a then { x with queue := x.queue - 1 } else x).addr = x.addr := by split <;> rfl
        dsimp only
        rw [hadd]
        have hco := count_eraseIdx ha x.addr
        by_cases e : x.addr = a
        · rw [if_pos e] at hco ⊢
          dsimp only
          rw [hcx]
          omega
        · rw [if_neg e] at hco ⊢
          rw [hcx]
          omega
      · intro r hr
        obtain ⟨x, hx, e⟩ := List.mem_map.1 hr
        have hb := h.bound x hx
        subst e
        split
        · dsimp only; omega
        · exact hb

/-- **C75**: while no new receiver gets the address of an erased one which still owes answers, a receiver never has more
than 1001 events not answered, and its counter is exactly their number. -/
theorem C75_bound_partial (s : S) (hs : s.recvs = []) (ops : List Op) (hf : FreshAddr s ops) :
    ∀ r ∈ (run s ops).recvs, r.queue = (run s ops).flying.count r.addr ∧ (run s ops).flying.count r.addr ≤ 1001 := by
  have key : ∀ (ops : List Op) (s : S), Counted s → FreshAddr s ops → Counted (run s ops) := by
    intro ops
    induction ops with
    | nil => intro s h _; exact h
    | cons op ops ih => intro s h hf; exact ih _ (counted_step h op hf.1) hf.2
  have := key ops s ⟨by rw [hs]; simp, by rw [hs]; simp, by rw [hs]; simp⟩ hf
  intro r hr
  have h1 := this.count r hr
  have h2 := this.bound r hr
  exact ⟨h1, by omega⟩

/-- **C75** is violated: a reply to an event of an erased receiver is counted for the receiver which was put at the same
address: the counter gets negative. -/
theorem C75_reused_counterexample :
    ∃ ops : List Op, ∃ r ∈ (run {} ops).recvs, r.queue < 0 ∧ r.who = 2 := by
  refine ⟨[.subscribe 7 1 0 true, .modify 1 5, .check 0, .push 0, .fire, .start, .pop, .deliver (fun _ => true),
    .unsubscribe 1 0, .subscribe 7 2 0 true, .reply 0], ⟨7, 2, 0, true, -1⟩, ?_, by decide, rfl⟩
  decide

/-- **C75** is violated: a receiver which has 1001 events not answered is not told about a change, and nothing tells it
afterwards: after the queue is empty no event is on its way, and its last value is not the present one. -/
theorem C75_overload_counterexample (s : S) (par v addr n : Nat) (hq : s.queue = []) (ht : s.todo = [])
    (hp : s.pushing = []) (hc : s.cur = none) (hb : s.busy = some (n + 1)) (hv : lastTold s.sent addr par ≠ some v)
    (hr : ∀ r ∈ s.recvs, r.addr = addr → r.queue > 1000) (can : Nat → Bool) :
    ¬ Pending (run s [.modify par v, .check 0, .push 0, .pop, .deliver can]) (par, .modified) ∧
    lastTold (run s [.modify par v, .check 0, .push 0, .pop, .deliver can]).sent addr par ≠
      some ((run s [.modify par v, .check 0, .push 0, .pop, .deliver can]).value par) := by
  have hcov : covered (step s (.modify par v)) (par, .modified) = false := by
    simp [covered, step, hq]
  have e1 : run s [.modify par v, .check 0] = { s with
      value := fun k => if k = par then v else s.value k, todo := [], pushing := [(par, .modified)] } := by
    show (step s (.modify par v)).check 0 = _
    unfold S.check
    have : (step s (.modify par v)).todo[0]? = some (par, .modified) := by simp [step, ht]
    rw [this]
    dsimp only
    rw [if_neg (by rw [hcov]; simp)]
    simp [step, ht, hp]
  have e2 : run s [.modify par v, .check 0, .push 0] = { s with
      value := fun k => if k = par then v else s.value k, todo := [], pushing := [], firing := s.firing + 1,
      queue := [(par, .modified)], pushed := s.pushed ++ [(par, .modified)] } := by
    show (run s [.modify par v, .check 0]).push 0 = _
    rw [e1]
    simp [S.push, hq]
  have e3 : run s [.modify par v, .check 0, .push 0, .pop] = { s with
      value := fun k => if k = par then v else s.value k, todo := [], pushing := [], firing := s.firing + 1,
      queue := [], pushed := s.pushed ++ [(par, .modified)], busy := some n, cur := some (par, .modified) } := by
    show (run s [.modify par v, .check 0, .push 0]).pop = _
    rw [e2]
    simp [S.pop, hc, hb]
  have e4 : run s [.modify par v, .check 0, .push 0, .pop, .deliver can] =
      (run s [.modify par v, .check 0, .push 0, .pop]).deliver can := rfl
  constructor
  · rw [e4, e3]
    simp [Pending, S.deliver]
  · rw [e4, e3]
    simp only [S.deliver, lastTold_append]
    rw [show lastTold _ addr par = none from ?_]
    · simpa using hv
    · unfold lastTold
      rw [List.filter_eq_nil_iff.2]
      · rfl
      · intro x hx hxx
        obtain ⟨r, hr', e⟩ := List.mem_map.1 hx
        obtain ⟨h1, h2⟩ := List.mem_filter.1 hr'
        simp only [Bool.and_eq_true, decide_eq_true_eq] at hxx
        rw [← e] at hxx
        have := hr r h1 hxx.1
        simp only [goes, Bool.and_eq_true, Bool.not_eq_true', decide_eq_false_iff_not] at h2
        exact h2.1.2 this

example : ∃ s : S, s.queue = [] ∧ s.todo = [] ∧ s.pushing = [] ∧ s.cur = none ∧ s.busy = some 5 ∧
    lastTold s.sent 7 1 ≠ some 9 ∧ s.recvs.length = 1 ∧ ∀ r ∈ s.recvs, r.addr = 7 → r.queue > 1000 :=
  ⟨{ busy := some 5, recvs := [⟨7, 0, 0, false, 1001⟩] }, rfl, rfl, rfl, rfl, rfl, by decide, rfl, by
    intro r hr _; rw [List.mem_singleton.1 hr]; decide⟩

/-! ### Coalescing -/

/-- Only the thread of the manager or the subscriptions are concerned. -/
def Inner : Op → Prop
  | .fire => True
  | .start => True
  | .pop => True
  | .deliver _ => True
  | .subscribe .. => True
  | .unsubscribe .. => True
  | .gone _ => True
  | .reply _ => True
  | .attr _ => True
  | _ => False

/-- Either another operation or one complete production of an event. -/
def Section (seg : List Op) : Prop :=
  (∃ op, seg = [op] ∧ Inner op) ∨
  (∃ op, seg = [op, .check 0, .push 0] ∧ ((∃ p v, op = .modify p v) ∨ ∃ p, Settles p op))

structure Single (s : S) : Prop where
  todo : s.todo = []
  pushing : s.pushing = []
  once : ∀ p, s.all p = false → s.queue.count (p, .modified) ≤ 1

theorem single_produce {s t : S} (h : Single s) {r : Nat × Ev} (h1 : t.todo = [r]) (h2 : t.pushing = [])
    (h3 : t.queue = s.queue) (h4 : t.all = s.all) : Single ((t.check 0).push 0) := by
  unfold S.check
  rw [h1]
  simp only [List.getElem?_cons_zero]
  by_cases hc : covered t r = true
  · rw [if_pos hc]
    simp only [S.push, h2, List.getElem?_nil]
    exact ⟨by simp, rfl, by rw [h3, h4]; exact h.once⟩
  · rw [if_neg hc]
    simp only [S.push, h2, List.nil_append, List.getElem?_cons_zero]
    refine ⟨by simp, by simp, ?_⟩
    intro p hp
    dsimp only at hp ⊢
    rw [h4] at hp
    rw [h3, List.count_append]
    have ho := h.once p hp
    by_cases e : r = (p, .modified)
    · subst e
      have : (p, Ev.modified) ∉ s.queue := by
        intro hm
        apply hc
        simp [covered, h4, hp, h3, hm]
      rw [List.count_eq_zero.2 this]
      simp
    · have : List.count (p, Ev.modified) [r] = 0 := by
        rw [List.count_eq_zero]
        intro hm
        exact e (List.mem_singleton.1 hm).symm
      rw [this]; exact ho

theorem single_inner {s : S} (h : Single s) {op : Op} (hi : Inner op) : Single (step s op) := by
  cases op with
  | modify | configure | create | destroy | check | push => exact hi.elim
  | attr p => exact ⟨h.todo, h.pushing, h.once⟩
  | fire => simp only [step, S.fire]; split; exact h; exact ⟨h.todo, h.pushing, h.once⟩
  | start => simp only [step, S.start]; split; exact ⟨h.todo, h.pushing, h.once⟩; exact h
  | pop =>
    simp only [step, S.pop]
    split
    · exact h
    · split
      · exact h
      · exact ⟨h.todo, h.pushing, h.once⟩
      · split
        · exact ⟨h.todo, h.pushing, h.once⟩
        · rename_i r q hq
          refine ⟨h.todo, h.pushing, fun p hp => ?_⟩
          have := h.once p hp
          rw [hq, List.count_cons] at this
          dsimp only
          omega
  | deliver can => simp only [step, S.deliver]; split; exact h; exact ⟨h.todo, h.pushing, h.once⟩
  | subscribe => simp only [step, S.subscribe]; split; exact h; exact ⟨h.todo, h.pushing, h.once⟩
  | unsubscribe => exact ⟨h.todo, h.pushing, h.once⟩
  | gone => exact ⟨h.todo, h.pushing, h.once⟩
  | reply i => simp only [step, S.reply]; split; exact h; exact ⟨h.todo, h.pushing, h.once⟩

theorem single_section {s : S} (h : Single s) {seg : List Op} (hs : Section seg) : Single (run s seg) := by
  rcases hs with ⟨op, rfl, hi⟩ | ⟨op, rfl, ho⟩
  · exact single_inner h hi
  · show Single (((step s op).check 0).push 0)
    rcases ho with ⟨p, v, rfl⟩ | ⟨p, hp⟩
    · exact single_produce (t := step s (.modify p v)) h (r := (p, .modified)) (by simp [step, h.todo]) h.pushing rfl rfl
    · cases op with
      | configure q b => exact single_produce (t := step s (.configure q b)) h (r := (q, .configured)) (by simp [step, h.todo]) h.pushing rfl rfl
      | create q b => exact single_produce (t := step s (.create q b)) h (r := (q, .created)) (by simp [step, h.todo]) h.pushing rfl rfl
      | destroy q => exact single_produce (t := step s (.destroy q)) h (r := (q, .destroy)) (by simp [step, h.todo]) h.pushing rfl rfl
      | _ => exact hp.elim

/-- **C75**: as long as no two threads produce events at the same time, the queue has at most one modified event of a
parameter which does not want all events delivered. -/
theorem C75_coalesced_partial (s : S) (h1 : s.todo = []) (h2 : s.pushing = []) (h3 : s.queue = [])
    (segs : List (List Op)) (hs : ∀ seg ∈ segs, Section seg) (p : Nat) (hp : (run s segs.flatten).all p = false) :
    (run s segs.flatten).queue.count (p, .modified) ≤ 1 := by
  have key : ∀ (segs : List (List Op)) (s : S), Single s → (∀ seg ∈ segs, Section seg) → Single (run s segs.flatten) := by
    intro segs
    induction segs with
    | nil => intro s h _; exact h
    | cons seg segs ih =>
      intro s h hs
      rw [List.flatten_cons, run_append]
      exact ih _ (single_section h (hs seg List.mem_cons_self)) (fun x hx => hs x (List.mem_cons_of_mem _ hx))
  exact (key segs s ⟨h1, h2, by rw [h3]; simp⟩ hs).once p hp

example : Section [.modify 1 5, .check 0, .push 0] ∧ Section [.fire] ∧
    (run {} [.modify 1 5, .check 0, .push 0, .modify 1 6, .check 0, .push 0, .modify 2 6, .check 0, .push 0]).queue =
      [(1, .modified), (2, .modified)] :=
  ⟨Or.inr ⟨_, rfl, Or.inl ⟨1, 5, rfl⟩⟩, Or.inl ⟨_, rfl, trivial⟩, by decide⟩

/-- **C75**: the first section drops an event only if it is a modified event of a parameter which does not want all
events delivered, and the same event is in the queue; then nothing else changes.  Every other event goes to the queue. -/
theorem C75_dropped (s : S) (i : Nat) (r : Nat × Ev) (hr : s.todo[i]? = some r) :
    ((s.check i).pushing = s.pushing ++ [r] ∧ ¬ (r.2 = .modified ∧ s.all r.1 = false ∧ r ∈ s.queue)) ∨
    ((s.check i).pushing = s.pushing ∧ r.2 = .modified ∧ s.all r.1 = false ∧ r ∈ s.queue) := by
  unfold S.check
  rw [hr]
  dsimp only
  have hc : covered s r = true ↔ (r.2 = .modified ∧ s.all r.1 = false ∧ r ∈ s.queue) := by
    simp [covered, and_assoc]
  split
  · rename_i h
    exact Or.inr ⟨rfl, hc.1 h⟩
  · rename_i h
    exact Or.inl ⟨rfl, fun e => h (hc.2 e)⟩

example : ((({ todo := [(1, .modified)], queue := [(1, .modified)] } : S)).check 0).pushing = [] ∧
    ((({ todo := [(1, .modified)], queue := [(1, .modified)], all := fun _ => true } : S)).check 0).pushing =
      [(1, .modified)] := by decide

/-- **C75** is violated: check and insertion are different sections, two threads which change the same parameter can put
its event in the queue twice. -/
theorem C75_duplicate_counterexample :
    ∃ ops : List Op, (run {} ops).queue = [(1, .modified), (1, .modified)] ∧ (run {} ops).all 1 = false :=
  ⟨[.modify 1 5, .modify 1 6, .check 0, .check 0, .push 0, .push 0], by decide⟩

/-! ### Timeouts -/

theorem timedAfter_nodup {need : Bool} {timed : List Nat} {r : Nat × Ev} (h : timed.Nodup) :
    (timedAfter need timed r).Nodup := by
  have hadd : (if r.1 ∈ timed then timed else timed ++ [r.1]).Nodup := by
    split
    · exact h
    · rename_i hn
      rw [List.nodup_append]
      refine ⟨h, by simp, ?_⟩
      intro a ha b hb e
      rw [List.mem_singleton.1 hb] at e
      exact hn (e ▸ ha)
  unfold timedAfter
  split
  · split
    · exact hadd
    · exact h
  · split
    · exact hadd
    · exact h.erase _
  · exact h
  · split
    · exact h.erase _
    · exact h

theorem timedAfter_other {need : Bool} {timed : List Nat} {r : Nat × Ev} {par : Nat} (hp : r.1 ≠ par) :
    par ∈ timedAfter need timed r ↔ par ∈ timed := by
  have hadd : (par ∈ if r.1 ∈ timed then timed else timed ++ [r.1]) ↔ par ∈ timed := by
    split
    · rfl
    · simp [Ne.symm hp]
  have her : par ∈ timed.erase r.1 ↔ par ∈ timed := List.mem_erase_of_ne (Ne.symm hp)
  unfold timedAfter
  split
  · split
    · exact hadd
    · rfl
  · split
    · exact hadd
    · exact her
  · rfl
  · split
    · exact her
    · rfl

theorem timedAfter_configured {need : Bool} {timed : List Nat} {par : Nat} (h : timed.Nodup) :
    par ∈ timedAfter need timed (par, .configured) ↔ need = true := by
  unfold timedAfter
  cases need
  · simp only [Bool.false_eq_true, if_false, iff_false]
    exact fun hm => absurd rfl (List.Nodup.mem_erase_iff h |>.1 hm).1
  · simp only [if_true, iff_true]
    split
    · assumption
    · simp

theorem step_need {s : S} {op : Op} {par : Nat} (h : ¬ Settles par op) : (step s op).need par = s.need par := by
  cases op with
  | configure p b =>
    simp only [step]
    exact if_neg (fun e => h e.symm)
  | create p b =>
    simp only [step]
    exact if_neg (fun e => h e.symm)
  | check i => simp only [step, S.check]; split <;> (try split) <;> rfl
  | push i => simp only [step, S.push]; split <;> rfl
  | fire => simp only [step, S.fire]; split <;> rfl
  | start => simp only [step, S.start]; split <;> rfl
  | pop => simp only [step, S.pop]; split <;> (try split) <;> (try split) <;> rfl
  | subscribe => simp only [step, S.subscribe]; split <;> rfl
  | reply i => simp only [step, S.reply]; split <;> rfl
  | deliver can => simp only [step, S.deliver]; split <;> rfl
  | _ => rfl

theorem step_timed {s : S} {op : Op} (h : ∀ can, op ≠ .deliver can) : (step s op).timed = s.timed := by
  cases op with
  | check i => simp only [step, S.check]; split <;> (try split) <;> rfl
  | push i => simp only [step, S.push]; split <;> rfl
  | fire => simp only [step, S.fire]; split <;> rfl
  | start => simp only [step, S.start]; split <;> rfl
  | pop => simp only [step, S.pop]; split <;> (try split) <;> (try split) <;> rfl
  | subscribe => simp only [step, S.subscribe]; split <;> rfl
  | reply i => simp only [step, S.reply]; split <;> rfl
  | deliver can => exact absurd rfl (h can)
  | _ => rfl

theorem nodup_step {s : S} (h : s.timed.Nodup) (op : Op) : (step s op).timed.Nodup := by
  by_cases hd : ∃ can, op = .deliver can
  · obtain ⟨can, rfl⟩ := hd
    simp only [step, S.deliver]
    split
    · exact h
    · exact timedAfter_nodup h
  · rw [step_timed (fun can e => hd ⟨can, e⟩)]; exact h

/-- Nothing new is pending for a parameter which is not concerned. -/
theorem pending_back {s : S} {op : Op} {r : Nat × Ev} (hr : r.2 ≠ .modified) (h : ¬ Settles r.1 op)
    (hp : Pending (step s op) r) : Pending s r := by
  unfold Pending at *
  cases op with
  | modify p v =>
    simp only [step, List.mem_append, List.mem_singleton] at hp
    rcases hp with (h | h) | h
    · exact Or.inl h
    · rw [h] at hr; exact absurd rfl hr
    · exact Or.inr h
  | configure p b =>
    simp only [step, List.mem_append, List.mem_singleton] at hp
    rcases hp with (e | e) | e
    · exact Or.inl e
    · exact absurd (show p = r.1 by rw [e]) h
    · exact Or.inr e
  | create p b =>
    simp only [step, List.mem_append, List.mem_singleton] at hp
    rcases hp with (e | e) | e
    · exact Or.inl e
    · exact absurd (show p = r.1 by rw [e]) h
    · exact Or.inr e
  | destroy p =>
    simp only [step, List.mem_append, List.mem_singleton] at hp
    rcases hp with (e | e) | e
    · exact Or.inl e
    · exact absurd (show p = r.1 by rw [e]) h
    · exact Or.inr e
  | check i =>
    simp only [step, S.check] at hp
    split at hp
    · exact hp
    · rename_i a ha
      have hsub : ∀ x, x ∈ s.todo.eraseIdx i → x ∈ s.todo := fun x hx => List.mem_of_mem_eraseIdx hx
      split at hp
      · rcases hp with e | e
        · exact Or.inl (hsub _ e)
        · exact Or.inr e
      · rcases hp with e | e | e
        · exact Or.inl (hsub _ e)
        · rcases List.mem_append.1 e with e | e
          · exact Or.inr (Or.inl e)
          · rw [List.mem_singleton.1 e]
            exact Or.inl (List.mem_of_getElem? ha)
        · exact Or.inr (Or.inr e)
  | push i =>
    simp only [step, S.push] at hp
    split at hp
    · exact hp
    · rename_i a ha
      rcases hp with e | e | e | e
      · exact Or.inl e
      · exact Or.inr (Or.inl (List.mem_of_mem_eraseIdx e))
      · rcases List.mem_append.1 e with e | e
        · exact Or.inr (Or.inr (Or.inl e))
        · rw [List.mem_singleton.1 e]
          exact Or.inr (Or.inl (List.mem_of_getElem? ha))
      · exact Or.inr (Or.inr (Or.inr e))
  | fire => simp only [step, S.fire] at hp; split at hp <;> exact hp
  | start => simp only [step, S.start] at hp; split at hp <;> exact hp
  | pop =>
    simp only [step, S.pop] at hp
    split at hp
    · exact hp
    · split at hp
      · exact hp
      · exact hp
      · split at hp
        · exact hp
        · rename_i r' q hq
          rcases hp with e | e | e | e
          · exact Or.inl e
          · exact Or.inr (Or.inl e)
          · exact Or.inr (Or.inr (Or.inl (by rw [hq]; exact List.mem_cons_of_mem _ e)))
          · cases e
            exact Or.inr (Or.inr (Or.inl (by rw [hq]; exact List.mem_cons_self)))
  | deliver can =>
    simp only [step, S.deliver] at hp
    split at hp
    · exact hp
    · rcases hp with e | e | e | e
      · exact Or.inl e
      · exact Or.inr (Or.inl e)
      · exact Or.inr (Or.inr (Or.inl e))
      · cases e
  | subscribe => simp only [step, S.subscribe] at hp; split at hp <;> exact hp
  | reply i => simp only [step, S.reply] at hp; split at hp <;> exact hp
  | attr => exact hp
  | unsubscribe => exact hp
  | gone => exact hp

/-- The list of timeouts is right, or will be. -/
structure Settled (s : S) (par : Nat) : Prop where
  nodup : s.timed.Nodup
  alive : ¬ Pending s (par, .destroy)
  right : (par ∈ s.timed ↔ s.need par = true) ∨ Pending s (par, .configured) ∨
    (s.need par = true ∧ Pending s (par, .created))

theorem settled_step {s : S} {par : Nat} (h : Settled s par) (op : Op)
    (hop : (∃ b, op = .configure par b) ∨ ¬ Settles par op) : Settled (step s op) par := by
  rcases hop with ⟨b, rfl⟩ | hop
  · refine ⟨h.nodup, ?_, Or.inr (Or.inl (Or.inl (by simp [step])))⟩
    intro hp
    apply h.alive
    simpa [Pending, step] using hp
  · refine ⟨nodup_step h.nodup op, fun hp => h.alive (pending_back (by simp) hop hp), ?_⟩
    by_cases hd : ∃ can, op = .deliver can
    · obtain ⟨can, rfl⟩ := hd
      have hn := step_need (s := s) hop
      cases hc : s.cur with
      | none =>
        have : step s (.deliver can) = s := by simp only [step, S.deliver]; rw [hc]
        rw [this]; exact h.right
      | some r =>
        obtain ⟨p, ev⟩ := r
        have ht : (step s (.deliver can)).timed = timedAfter (s.need p) s.timed (p, ev) := by
          simp only [step, S.deliver]; rw [hc]
        rw [hn, ht]
        by_cases hp : p = par
        · subst hp
          have keep : ∀ e, ev ≠ e → Pending s (p, e) → Pending (step s (.deliver can)) (p, e) := by
            intro e hne hpe
            refine pending_step hpe _ ?_
            intro _ _ he
            rw [hc] at he
            cases he
            exact hne rfl
          cases ev with
          | destroy => exact absurd (Or.inr (Or.inr (Or.inr hc))) h.alive
          | configured => exact Or.inl (timedAfter_configured h.nodup)
          | modified =>
            rcases h.right with e | e | ⟨e1, e2⟩
            · exact Or.inl e
            · exact Or.inr (Or.inl (keep _ (by simp) e))
            · exact Or.inr (Or.inr ⟨e1, keep _ (by simp) e2⟩)
          | created =>
            cases hneed : s.need p with
            | true =>
              left
              simp only [timedAfter, if_true, iff_true]
              split
              · assumption
              · simp
            | false =>
              rcases h.right with e | e | ⟨e1, e2⟩
              · left
                rw [hneed] at e
                simpa [timedAfter] using e
              · exact Or.inr (Or.inl (keep _ (by simp) e))
              · rw [hneed] at e1; cases e1
        · have keep : ∀ e, Pending s (par, e) → Pending (step s (.deliver can)) (par, e) := by
            intro e hpe
            refine pending_step hpe _ ?_
            intro _ _ he
            rw [hc] at he
            cases he
            exact hp rfl
          rcases h.right with e | e | ⟨e1, e2⟩
          · exact Or.inl ((timedAfter_other hp).trans e)
          · exact Or.inr (Or.inl (keep _ e))
          · exact Or.inr (Or.inr ⟨e1, keep _ e2⟩)
    · have hd' : ∀ can, op ≠ .deliver can := fun can e => hd ⟨can, e⟩
      rw [step_need hop, step_timed hd']
      rcases h.right with e | e | ⟨e1, e2⟩
      · exact Or.inl e
      · exact Or.inr (Or.inl (pending_step e op (fun can he => absurd he (hd' can))))
      · exact Or.inr (Or.inr ⟨e1, pending_step e2 op (fun can he => absurd he (hd' can))⟩)

/-- **C75**: a parameter is in the list of those which get timeouts exactly if it needs them, as soon as the events of
its creation and configuration are handled, for every interleaving, as long as it is not destroyed. -/
theorem C75_timed (s : S) (par : Nat) (b : Bool) (hn : s.timed.Nodup) (hnew : par ∉ s.timed)
    (hpe : ¬ Pending s (par, .destroy)) (ops : List Op)
    (hops : ∀ op ∈ ops, (∃ b, op = .configure par b) ∨ ¬ Settles par op)
    (h1 : ¬ Pending (run s (.create par b :: ops)) (par, .created))
    (h2 : ¬ Pending (run s (.create par b :: ops)) (par, .configured)) :
    par ∈ (run s (.create par b :: ops)).timed ↔ (run s (.create par b :: ops)).need par = true := by
  have h0 : Settled (step s (.create par b)) par := by
    refine ⟨hn, ?_, ?_⟩
    · intro hp
      apply hpe
      simpa [Pending, step] using hp
    · cases b with
      | true =>
        right; right
        exact ⟨by simp [step], Or.inl (by simp [step])⟩
      | false =>
        left
        simp [step, hnew]
  have key : ∀ (ops : List Op) (s : S), Settled s par → (∀ op ∈ ops, (∃ b, op = .configure par b) ∨ ¬ Settles par op) →
      Settled (run s ops) par := by
    intro ops
    induction ops with
    | nil => intro s h _; exact h
    | cons op ops ih =>
      intro s h ho
      exact ih _ (settled_step h op (ho op List.mem_cons_self)) (fun o hm => ho o (List.mem_cons_of_mem _ hm))
  have := (key ops _ h0 hops).right
  rcases this with e | e | ⟨_, e⟩
  · exact e
  · exact absurd e h2
  · exact absurd e h1

example : (run {} [.create 1 false, .check 0, .push 0, .fire, .configure 1 true, .start, .pop, .deliver (fun _ => true),
    .check 0, .push 0, .pop, .deliver (fun _ => true)]).timed = [1] := by decide

/-- **C75**: a parameter which is destroyed gets no timeouts any more once the event of its destruction is handled, if
nobody configured it at the same time. -/
theorem C75_destroyed_partial (s : S) (par : Nat) (hn : s.timed.Nodup) (ht : par ∈ s.timed ↔ s.need par = true)
    (hp : ∀ ev, ev ≠ .modified → ¬ Pending s (par, ev)) (ops : List Op) (hops : ∀ op ∈ ops, ¬ Settles par op)
    (hd : ¬ Pending (run s (.destroy par :: ops)) (par, .destroy)) :
    par ∉ (run s (.destroy par :: ops)).timed := by
  have key : ∀ (ops : List Op) (s : S), s.timed.Nodup → (par ∈ s.timed → s.need par = true) →
      ¬ Pending s (par, .created) → ¬ Pending s (par, .configured) →
      (Pending s (par, .destroy) ∨ par ∉ s.timed) → (∀ op ∈ ops, ¬ Settles par op) →
      (Pending (run s ops) (par, .destroy) ∨ par ∉ (run s ops).timed) := by
    intro ops
    induction ops with
    | nil => intro s _ _ _ _ h _; exact h
    | cons op ops ih =>
      intro s h1 h2 h3 h4 h5 ho
      have hop := ho op List.mem_cons_self
      have hrest := fun o hm => ho o (List.mem_cons_of_mem _ hm)
      refine ih (step s op) (nodup_step h1 op) ?_ (fun h => h3 (pending_back (by simp) hop h))
        (fun h => h4 (pending_back (by simp) hop h)) ?_ hrest
      · rw [step_need hop]
        intro hm
        by_cases hdl : ∃ can, op = .deliver can
        · obtain ⟨can, rfl⟩ := hdl
          simp only [step, S.deliver] at hm
          split at hm
          · exact h2 hm
          · rename_i p ev hc
            by_cases hpp : p = par
            · subst hpp
              cases ev with
              | created => exact absurd (Or.inr (Or.inr (Or.inr hc))) h3
              | configured => exact absurd (Or.inr (Or.inr (Or.inr hc))) h4
              | modified => exact h2 hm
              | destroy =>
                cases hneed : s.need p with
                | true => rfl
                | false =>
                  rw [hneed] at hm
                  have : p ∈ s.timed := by simpa [timedAfter] using hm
                  rw [h2 this] at hneed; cases hneed
            · exact h2 ((timedAfter_other hpp).1 hm)
        · rw [step_timed (fun can e => hdl ⟨can, e⟩)] at hm
          exact h2 hm
      · by_cases hdl : ∃ can, op = .deliver can
        · obtain ⟨can, rfl⟩ := hdl
          cases hc : s.cur with
          | none =>
            have : step s (.deliver can) = s := by simp only [step, S.deliver]; rw [hc]
            rw [this]; exact h5
          | some r =>
            obtain ⟨p, ev⟩ := r
            have ht : (step s (.deliver can)).timed = timedAfter (s.need p) s.timed (p, ev) := by
              simp only [step, S.deliver]; rw [hc]
            by_cases hpp : p = par
            · subst hpp
              cases ev with
              | created => exact absurd (Or.inr (Or.inr (Or.inr hc))) h3
              | configured => exact absurd (Or.inr (Or.inr (Or.inr hc))) h4
              | modified =>
                rcases h5 with e | e
                · left
                  refine pending_step e _ ?_
                  intro _ _ he; rw [hc] at he; cases he
                · right; rw [ht]; exact e
              | destroy =>
                right
                rw [ht]
                cases hneed : s.need p with
                | true =>
                  simp only [timedAfter, if_true]
                  exact fun hm => absurd rfl (List.Nodup.mem_erase_iff h1 |>.1 hm).1
                | false =>
                  simp only [timedAfter, Bool.false_eq_true, if_false]
                  intro hm
                  rw [h2 hm] at hneed; cases hneed
            · rcases h5 with e | e
              · left
                refine pending_step e _ ?_
                intro _ _ he; rw [hc] at he; cases he; exact hpp rfl
              · right; rw [ht]; exact fun hm => e ((timedAfter_other hpp).1 hm)
        · rcases h5 with e | e
          · exact Or.inl (pending_step e op (fun can he => absurd ⟨can, he⟩ hdl))
          · right; rw [step_timed (fun can e => hdl ⟨can, e⟩)]; exact e
  have := key ops (step s (.destroy par)) hn ht.1 (by
    intro h; apply hp .created (by simp); simpa [Pending, step] using h) (by
    intro h; apply hp .configured (by simp); simpa [Pending, step] using h)
    (Or.inl (Or.inl (by simp [step]))) hops
  rcases this with e | e
  · exact absurd e hd
  · exact e

example : (run { timed := [1], need := fun _ => true } [.destroy 1, .check 0, .push 0, .fire, .start, .pop,
    .deliver (fun _ => true)]).timed = [] := by decide

/-- **C75** is violated: a parameter which is configured while it is destroyed can be put in the list of timeouts after
the event of its destruction was handled; nothing removes it. -/
theorem C75_destroyed_counterexample :
    ∃ ops : List Op, (1, Ev.destroy) ∈ (run {} ops).done ∧ 1 ∈ (run {} ops).timed ∧
      (run {} ops).todo = [] ∧ (run {} ops).pushing = [] ∧ (run {} ops).queue = [] ∧ (run {} ops).cur = none :=
  ⟨[.configure 1 true, .destroy 1, .check 1, .push 0, .fire, .start, .pop, .deliver (fun _ => true), .check 0, .push 0,
    .pop, .deliver (fun _ => true)], by decide⟩

/-- What a receiver has subscribed. -/
def card (r : Recv) : Nat × Nat × Nat × Bool := (r.addr, r.who, r.mask, r.onlyChange)

theorem card_step {s : S} {x : Nat × Nat × Nat × Bool} (op : Op) :
    x ∈ (step s op).recvs.map card ↔
      (x ∈ s.recvs.map card ∧ ¬ Ends x.2.1 x.2.2.1 op) ∨
      (op = .subscribe x.1 x.2.1 x.2.2.1 x.2.2.2 ∧ x.1 ∉ s.recvs.map (·.addr)) := by
  obtain ⟨a, w, m, o⟩ := x
  have same : ∀ (f : Recv → Recv), (∀ r, card (f r) = card r) →
      (s.recvs.map f).map card = s.recvs.map card := by
    intro f hf
    rw [List.map_map]
    exact List.map_congr_left (fun r _ => hf r)
  cases op with
  | modify p v => simp [step, Ends]
  | attr p => simp [step, Ends]
  | configure p b => simp [step, Ends]
  | create p b => simp [step, Ends]
  | destroy p => simp [step, Ends]
  | check i =>
    have : (step s (.check i)).recvs = s.recvs := by
      simp only [step, S.check]; split
      · rfl
      · split <;> rfl
    simp [this, Ends]
  | push i =>
    have : (step s (.push i)).recvs = s.recvs := by simp only [step, S.push]; split <;> rfl
    simp [this, Ends]
  | fire =>
    have : (step s .fire).recvs = s.recvs := by simp only [step, S.fire]; split <;> rfl
    simp [this, Ends]
  | start =>
    have : (step s .start).recvs = s.recvs := by simp only [step, S.start]; split <;> rfl
    simp [this, Ends]
  | pop =>
    have : (step s .pop).recvs = s.recvs := by
      simp only [step, S.pop]; split
      · rfl
      · split
        · rfl
        · rfl
        · split <;> rfl
    simp [this, Ends]
  | deliver can =>
    have : (step s (.deliver can)).recvs.map card = s.recvs.map card := by
      simp only [step, S.deliver]; split
      · rfl
      · exact same _ (fun r => by split <;> rfl)
    rw [this]; simp [Ends]
  | reply i =>
    have : (step s (.reply i)).recvs.map card = s.recvs.map card := by
      simp only [step, S.reply]; split
      · rfl
      · exact same _ (fun r => by split <;> rfl)
    rw [this]; simp [Ends]
  | subscribe a' w' m' o' =>
    simp only [step, S.subscribe, Ends, not_false_eq_true, and_true, Op.subscribe.injEq]
    split
    · rename_i h
      constructor
      · exact Or.inl
      · rintro (e | ⟨⟨rfl, rfl, rfl, rfl⟩, e⟩)
        · exact e
        · exact absurd h e
    · rename_i h
      simp only [List.map_append, List.mem_append, List.map_cons, List.map_nil, List.mem_singleton, card, Prod.mk.injEq]
      constructor
      · rintro (e | ⟨rfl, rfl, rfl, rfl⟩)
        · exact Or.inl e
        · exact Or.inr ⟨⟨rfl, rfl, rfl, rfl⟩, h⟩
      · rintro (e | ⟨⟨rfl, rfl, rfl, rfl⟩, e⟩)
        · exact Or.inl e
        · exact Or.inr ⟨rfl, rfl, rfl, rfl⟩
  | unsubscribe w' m' =>
    simp only [step, S.unsubscribe, Ends, List.mem_map, List.mem_filter, card, Prod.mk.injEq]
    constructor
    · rintro ⟨r, ⟨hr, hb⟩, rfl, rfl, rfl, rfl⟩
      refine Or.inl ⟨⟨r, hr, rfl, rfl, rfl, rfl⟩, ?_⟩
      rintro ⟨rfl, rfl⟩
      simp at hb
    · rintro (⟨⟨r, hr, rfl, rfl, rfl, rfl⟩, hb⟩ | ⟨h, _⟩)
      · refine ⟨r, ⟨hr, ?_⟩, rfl, rfl, rfl, rfl⟩
        by_cases h1 : r.mask = m' <;> by_cases h2 : r.who = w' <;> simp [h1, h2]
        exact hb ⟨h2.symm, h1.symm⟩
      · cases h
  | gone w' =>
    simp only [step, S.gone, Ends, List.mem_map, List.mem_filter, card, Prod.mk.injEq]
    constructor
    · rintro ⟨r, ⟨hr, hb⟩, rfl, rfl, rfl, rfl⟩
      refine Or.inl ⟨⟨r, hr, rfl, rfl, rfl, rfl⟩, ?_⟩
      rintro rfl
      simp at hb
    · rintro (⟨⟨r, hr, rfl, rfl, rfl, rfl⟩, hb⟩ | ⟨h, _⟩)
      · refine ⟨r, ⟨hr, ?_⟩, rfl, rfl, rfl, rfl⟩
        simp [Ne.symm (show w' ≠ r.who from hb)]
      · cases h

/-- **C75**, who is told: the receivers are exactly the subscriptions which were not ended since, by the worker with the
same mask or by its end. -/
theorem C75_members (ops : List Op) (a w m : Nat) (o : Bool) :
    (a, w, m, o) ∈ (run {} ops).recvs.map (fun r => (r.addr, r.who, r.mask, r.onlyChange)) ↔
      ∃ pre post, ops = pre ++ .subscribe a w m o :: post ∧ a ∉ (run {} pre).recvs.map (·.addr) ∧
        ∀ op ∈ post, ¬ Ends w m op := by
  show (a, w, m, o) ∈ (run {} ops).recvs.map card ↔ _
  generalize hk : ops.length = k
  induction k generalizing ops with
  | zero =>
    cases ops with
    | nil => simp [run]
    | cons _ _ => simp at hk
  | succ k ih =>
    have hne : ops ≠ [] := by rintro rfl; simp at hk
    obtain ⟨ini, l, rfl⟩ : ∃ ini l, ops = ini ++ [l] := ⟨_, _, (List.dropLast_append_getLast hne).symm⟩
    have hini : ini.length = k := by simpa using hk
    rw [show run {} (ini ++ [l]) = step (run {} ini) l by simp [run], card_step, ih ini hini]
    constructor
    · rintro (⟨⟨pre, post, rfl, hf, hp⟩, hl⟩ | ⟨rfl, hf⟩)
      · refine ⟨pre, post ++ [l], by simp, hf, ?_⟩
        intro op hop
        rcases List.mem_append.1 hop with h | h
        · exact hp _ h
        · rw [List.mem_singleton.1 h]; exact hl
      · exact ⟨ini, [], rfl, hf, by simp⟩
    · rintro ⟨pre, post, he, hf, hp⟩
      rcases List.eq_nil_or_concat post with rfl | ⟨post', l', rfl⟩
      · right
        have := List.append_inj' he (by simp)
        obtain ⟨rfl, h2⟩ := this
        exact ⟨by simpa using h2, hf⟩
      · left
        have : ini = pre ++ .subscribe a w m o :: post' ∧ [l] = [l'] :=
          List.append_inj' (by simpa using he) (by simp)
        obtain ⟨rfl, h2⟩ := this
        cases h2
        exact ⟨⟨pre, post', rfl, hf, fun op h => hp op (by simp [h])⟩, hp l (by simp)⟩

example : (run {} [.subscribe 1 5 7 false, .subscribe 2 5 8 false, .subscribe 3 6 7 true, .unsubscribe 5 7]).recvs.map
    (·.addr) = [2, 3] := by decide

end Verif.ParEvents
