import Verif.Spec.WaitEvent
import Mathlib.Data.List.Perm.Subperm
import Mathlib.Data.List.Nodup
import Mathlib.Data.Nat.ModEq

/-!
# Lemmas about waiting for events
-/

namespace Verif.WaitEvent

theorem next_nil {α : Type} (k : Nat) : next k ([] : List α) = (none, []) := by simp [next]

/-- One of the events is taken, the others stay. -/
theorem next_perm {α : Type} (k : Nat) (l : List α) (h : l ≠ []) :
    ∃ e, (next k l).1 = some e ∧ (e :: (next k l).2).Perm l := by
  have hlt : k % l.length < l.length := Nat.mod_lt _ (List.length_pos_iff.2 h)
  exact ⟨l[k % l.length], by simp [next, hlt], List.getElem_cons_eraseIdx_perm hlt⟩

namespace Cond

open Spec

theorem waiting_snoc (h : List Ev) (e : Ev) : waiting (h ++ [e]) = after (waiting h) e := by
  simp [waiting, List.foldl_append]

structure Inv (s : T) : Prop where
  good : ∃ l, waiting s.log = some l ∧ l.Perm s.events
  cnt : s.fired = s.events.length
  sleep : s.phase = .asleep → s.events = [] ∧ s.waiting = true

theorem inv_new : Inv new := ⟨⟨[], rfl, .refl _⟩, rfl, by simp [new]⟩

theorem inv_fire (e : Nat) (s : T) (h : Inv s) : Inv (fire e s) := by
  obtain ⟨⟨l, hl, hp⟩, hc, hs⟩ := h
  refine ⟨⟨l ++ [e], ?_, ?_⟩, ?_, ?_⟩
  · show waiting (s.log ++ [.post e]) = _
    rw [waiting_snoc, hl]; rfl
  · exact hp.append_right _
  · show s.fired + 1 = (s.events ++ [e]).length
    rw [List.length_append, hc]; rfl
  · intro h
    change (if s.waiting && decide (s.phase = .asleep) then Phase.woken else s.phase) = .asleep at h
    split at h
    · cases h
    · next hn =>
      have := hs h
      simp [h, this.2] at hn

theorem inv_finish (k : Nat) (s : T) (h : Inv s) : Inv (finish k s) := by
  obtain ⟨⟨l, hl, hp⟩, hc, hs⟩ := h
  unfold finish
  split
  · next hf =>
    have hne : s.events ≠ [] := by
      intro h0; rw [h0] at hc; simp only [List.length_nil] at hc; omega
    obtain ⟨e, he, hpe⟩ := next_perm k s.events hne
    have hpl : l.Perm (e :: (next k s.events).2) := hp.trans hpe.symm
    have hmem : e ∈ l := hpl.mem_iff.2 List.mem_cons_self
    refine ⟨⟨l.erase e, ?_, ?_⟩, ?_, ?_⟩
    · show waiting (s.log ++ [.ret (next k s.events).1]) = _
      rw [waiting_snoc, hl, he]
      show (if e ∈ l then some (l.erase e) else none) = _
      rw [if_pos hmem]
    · show (l.erase e).Perm (next k s.events).2
      have := hpl.erase e
      rwa [List.erase_cons_head] at this
    · show s.fired - 1 = (next k s.events).2.length
      have := hpe.length_eq
      simp only [List.length_cons] at this
      omega
    · intro h; cases h
  · next hf =>
    have h0 : s.events = [] := List.eq_nil_of_length_eq_zero (by omega)
    have hl0 : l = [] := by rw [h0] at hp; exact hp.eq_nil
    refine ⟨⟨[], ?_, ?_⟩, hc, ?_⟩
    · show waiting (s.log ++ [.ret none]) = _
      rw [waiting_snoc, hl, hl0]; rfl
    · show [].Perm s.events
      rw [h0]
    · intro h; cases h

theorem inv_wait (t : Option Nat) (k : Nat) (s : T) (h : Inv s) : Inv (wait t k s) := by
  unfold wait
  split
  · next hf =>
    split
    · exact inv_finish k s h
    · exact ⟨h.good, h.cnt, fun _ => ⟨List.eq_nil_of_length_eq_zero (h.cnt ▸ hf), rfl⟩⟩
  · exact inv_finish k s h

theorem inv_step (s : T) (o : Op) (h : Inv s) : Inv (step s o) := by
  cases o with
  | fire e => exact inv_fire e s h
  | wait t k =>
    simp only [step]; split
    · exact inv_wait t k s h
    · exact h
  | wake =>
    simp only [step]; split
    · exact ⟨h.good, h.cnt, fun h => by cases h⟩
    · exact h
  | resume k =>
    simp only [step]; split
    · next hw => exact inv_finish k _ ⟨h.good, h.cnt, fun h' => by rw [show s.phase = .asleep from h'] at hw; cases hw⟩
    · exact h

theorem steps_snoc (s : T) (os : List Op) (o : Op) : steps s (os ++ [o]) = step (steps s os) o := by
  simp [steps, List.foldl_append]

theorem inv_steps (os : List Op) : ∀ s, Inv s → Inv (steps s os) := by
  induction os with
  | nil => exact fun s h => h
  | cons o os ih => exact fun s h => ih _ (inv_step s o h)

/-! Without a reason from outside the thread sleeps until it has an event. -/

/-- The thread waits without limit, and nobody but `_DoFire` wakes it up. -/
def Forever : Op → Prop
  | .wait t _ => t = none
  | .wake => False
  | _ => True

structure Inv2 (s : T) : Prop extends Inv s where
  woken : s.phase = .woken → 0 < s.fired
  never : Ev.ret none ∉ s.log

theorem finish_log (k : Nat) (s : T) (h : Inv s) (hf : 0 < s.fired) :
    ∃ e, (finish k s).log = s.log ++ [.ret (some e)] := by
  have hne : s.events ≠ [] := by
    intro h0; have := h.cnt; rw [h0] at this; simp only [List.length_nil] at this; omega
  obtain ⟨e, he, _⟩ := next_perm k s.events hne
  refine ⟨e, ?_⟩
  unfold finish
  rw [if_pos hf]
  show s.log ++ [.ret (next k s.events).1] = _
  rw [he]

theorem finish_awake (k : Nat) (s : T) : (finish k s).phase = .awake := by
  unfold finish; split <;> rfl

theorem inv2_finish (k : Nat) (s : T) (h : Inv2 s) (hf : 0 < s.fired) : Inv2 (finish k s) := by
  refine ⟨inv_finish k s h.toInv, ?_, ?_⟩
  · intro h'; rw [finish_awake] at h'; cases h'
  · obtain ⟨e, he⟩ := finish_log k s h.toInv hf
    rw [he]
    simp only [List.mem_append, not_or]
    exact ⟨h.never, by simp⟩

theorem inv2_step (s : T) (o : Op) (ho : Forever o) (h : Inv2 s) : Inv2 (step s o) := by
  refine ⟨inv_step s o h.toInv, ?_, ?_⟩
  · cases o with
    | fire e => intro _; show 0 < s.fired + 1; omega
    | wait t k =>
      simp only [step, wait]; split
      · split
        · split
          · intro h'; rw [finish_awake] at h'; cases h'
          · intro h'; cases h'
        · intro h'; rw [finish_awake] at h'; cases h'
      · exact h.woken
    | wake => exact ho.elim
    | resume k =>
      simp only [step]; split
      · intro h'; rw [finish_awake] at h'; cases h'
      · exact h.woken
  · cases o with
    | fire e =>
      show Ev.ret none ∉ s.log ++ [.post e]
      simp only [List.mem_append, not_or]
      exact ⟨h.never, by simp⟩
    | wait t k =>
      simp only [step]; split
      · unfold wait
        split
        · rw [if_neg (by rw [show t = none from ho]; simp)]
          exact h.never
        · next hf => exact (inv2_finish k s h (by omega)).never
      · exact h.never
    | wake => exact ho.elim
    | resume k =>
      simp only [step]; split
      · next hw =>
        have hi : Inv2 { s with waiting := false } :=
          ⟨⟨h.good, h.cnt, fun h' => by rw [show s.phase = .asleep from h'] at hw; cases hw⟩, h.woken, h.never⟩
        exact (inv2_finish k _ hi (h.woken hw)).never
      · exact h.never

theorem inv2_steps (os : List Op) : ∀ s, (∀ o ∈ os, Forever o) → Inv2 s → Inv2 (steps s os) := by
  induction os with
  | nil => exact fun s _ h => h
  | cons o os ih =>
    exact fun s ho h => ih _ (fun x hx => ho x (List.mem_cons_of_mem _ hx)) (inv2_step s o (ho o List.mem_cons_self) h)

theorem inv2_new : Inv2 new := ⟨inv_new, by simp [new], by simp [new]⟩

end Cond

namespace Sock

open Spec

/-! ## The set for `poll` -/

theorem entry_some (n : Nat) (a : Option Addon) (u : Ufd) :
    entry n a = some u ↔ u.indx = n ∧ n ≠ 0 ∧ (u.inp = true ∨ u.out = true) ∧ a = some ⟨true, u.inp, u.out⟩ := by
  cases a with
  | none => simp [entry]
  | some a =>
    obtain ⟨fd, i, o⟩ := a
    obtain ⟨x, y, z⟩ := u
    cases fd <;> cases i <;> cases o <;> by_cases hn : n = 0 <;> simp [entry, hn] <;>
      (cases y <;> cases z <;> simp [eq_comm])

theorem mem_ufds (l : List (Option Addon)) (u : Ufd) : u ∈ ufds l ↔ Wanted l u := by
  unfold ufds Wanted
  simp only [List.mem_filterMap, List.mem_mapIdx, id]
  constructor
  · rintro ⟨a, ⟨i, hi, rfl⟩, h⟩
    obtain ⟨h1, h2, h3, h4⟩ := (entry_some _ _ _).1 h
    subst h1
    exact ⟨h2, h3, by rw [List.getElem?_eq_getElem hi, h4]⟩
  · rintro ⟨h1, h2, h3⟩
    obtain ⟨hi, h4⟩ := List.getElem?_eq_some_iff.1 h3
    exact ⟨some u, ⟨u.indx, hi, (entry_some _ _ _).2 ⟨rfl, h1, h2, h4⟩⟩, rfl⟩

theorem nodup_aux (l : List (Option Addon)) : ∀ (f : Nat → Nat), (∀ i j, f i = f j → i = j) →
    (((l.mapIdx fun i a => entry (f i) a).filterMap id).map Ufd.indx).Nodup ∧
    ∀ x ∈ ((l.mapIdx fun i a => entry (f i) a).filterMap id).map Ufd.indx, ∃ i, x = f i := by
  induction l with
  | nil => intro f _; simp
  | cons a l ih =>
    intro f hf
    obtain ⟨h1, h2⟩ := ih (fun i => f (i + 1)) (fun i j h => by have := hf _ _ h; omega)
    rw [List.mapIdx_cons]
    cases he : entry (f 0) a with
    | none =>
      rw [List.filterMap_cons_none rfl]
      exact ⟨h1, fun x hx => by obtain ⟨i, hi⟩ := h2 x hx; exact ⟨i + 1, hi⟩⟩
    | some u =>
      rw [List.filterMap_cons_some (show id (some u) = some u from rfl), List.map_cons]
      have hu := ((entry_some _ _ _).1 he).1
      refine ⟨List.nodup_cons.2 ⟨?_, h1⟩, ?_⟩
      · intro hm
        obtain ⟨i, hi⟩ := h2 _ hm
        have := hf 0 (i + 1) (hu ▸ hi)
        omega
      · intro x hx
        rcases List.mem_cons.1 hx with rfl | hx
        · exact ⟨0, hu⟩
        · obtain ⟨i, hi⟩ := h2 x hx; exact ⟨i + 1, hi⟩

theorem nodup_ufds (l : List (Option Addon)) : ((ufds l).map Ufd.indx).Nodup :=
  (nodup_aux l id (fun _ _ h => h)).1

/-! ## The loop over the sockets -/

theorem order_perm (m bal : Nat) : (order m bal).Perm (List.range m) := by
  have hnd : (order m bal).Nodup := by
    refine List.Nodup.map_on ?_ List.nodup_range
    intro x hx y hy h
    have hx := List.mem_range.1 hx
    have hy := List.mem_range.1 hy
    have h1 : x + (1 + bal) ≡ y + (1 + bal) [MOD m] := by
      show (x + (1 + bal)) % m = (y + (1 + bal)) % m
      rw [← Nat.add_assoc, ← Nat.add_assoc]; exact h
    have h2 : x ≡ y [MOD m] := Nat.ModEq.add_right_cancel' _ h1
    have : x % m = y % m := h2
    rwa [Nat.mod_eq_of_lt hx, Nat.mod_eq_of_lt hy] at this
  have hsub : order m bal ⊆ List.range m := by
    intro x hx
    obtain ⟨y, hy, rfl⟩ := List.mem_map.1 hx
    have hy := List.mem_range.1 hy
    exact List.mem_range.2 (Nat.mod_lt _ (by omega))
  exact (List.subperm_of_subset hnd hsub).perm_of_length_le (by simp [order])

/-- The events of the socket with number `j`. -/
def evs (set : List Ufd) (rev : Nat → Rev) (j : Nat) : List Ev :=
  match set[j]? with
  | none => []
  | some u => found u.indx (rev u.indx)

theorem visit_fst (set : List Ufd) (rev : Nat → Rev) (js : List Nat) : ∀ p,
    (js.foldl (visit set rev) p).1 = p.1 ++ (js.map (evs set rev)).flatten := by
  induction js with
  | nil => intro p; simp
  | cons j js ih =>
    intro p
    rw [List.foldl_cons, ih, List.map_cons, List.flatten_cons, ← List.append_assoc]
    congr 1
    unfold visit evs
    cases set[j]? <;> simp

theorem map_range (set : List Ufd) (rev : Nat → Rev) :
    (List.range set.length).map (evs set rev) = set.map fun u => found u.indx (rev u.indx) := by
  apply List.ext_getElem
  · simp
  · intro i h1 h2
    simp only [List.length_map, List.length_range] at h1
    simp [evs, h1]

theorem visited_perm (set : List Ufd) (rev : Nat → Rev) (bal : Nat) (a : List (Option Addon)) :
    ((order set.length bal).foldl (visit set rev) ([], a)).1.Perm
      (set.map fun u => found u.indx (rev u.indx)).flatten := by
  rw [visit_fst, List.nil_append, ← map_range]
  exact ((order_perm _ _).map _).flatten

theorem found_means (i : Nat) (r : Rev) : found i r = means i r := by
  obtain ⟨a, b, c⟩ := r
  cases a <;> cases b <;> cases c <;> rfl

theorem mark_mark (r : Rev) (a : Addon) : mark r (mark r a) = mark r a := by
  obtain ⟨x, y, z⟩ := r; obtain ⟨f, i, o⟩ := a
  cases x <;> cases y <;> cases z <;> cases i <;> cases o <;> rfl

theorem visit_snd (set : List Ufd) (rev : Nat → Rev) (js : List Nat) (i : Nat) : ∀ p,
    (js.foldl (visit set rev) p).2[i]? =
      if ∃ j ∈ js, (set[j]?).map Ufd.indx = some i then (p.2[i]?).map (Option.map (mark (rev i))) else p.2[i]? := by
  induction js with
  | nil => intro p; simp
  | cons j js ih =>
    intro p
    rw [List.foldl_cons, ih]
    have hv : (visit set rev p j).2[i]? =
        if (set[j]?).map Ufd.indx = some i then (p.2[i]?).map (Option.map (mark (rev i))) else p.2[i]? := by
      unfold visit
      split
      · next h => simp [h]
      · next u h =>
        simp only [h, Option.map_some, List.getElem?_modify, Option.some.injEq]
        by_cases hu : u.indx = i
        · subst hu; simp
        · simp [hu]
    rw [hv]
    by_cases h1 : (set[j]?).map Ufd.indx = some i
    · rw [if_pos h1, if_pos (show ∃ j' ∈ j :: js, (set[j']?).map Ufd.indx = some i from ⟨j, List.mem_cons_self, h1⟩)]
      split
      · cases p.2[i]? with
        | none => rfl
        | some a => cases a with
          | none => rfl
          | some a => simp [mark_mark]
      · rfl
    · rw [if_neg h1]
      have : (∃ j' ∈ j :: js, (set[j']?).map Ufd.indx = some i) ↔ ∃ j' ∈ js, (set[j']?).map Ufd.indx = some i := by
        simp only [List.mem_cons, exists_eq_or_imp, h1, false_or]
      simp only [this]

theorem visited_snd (set : List Ufd) (rev : Nat → Rev) (bal : Nat) (a : List (Option Addon)) (i : Nat) :
    ((order set.length bal).foldl (visit set rev) ([], a)).2[i]? =
      if i ∈ set.map Ufd.indx then (a[i]?).map (Option.map (mark (rev i))) else a[i]? := by
  rw [visit_snd]
  have : (∃ j ∈ order set.length bal, (set[j]?).map Ufd.indx = some i) ↔ i ∈ set.map Ufd.indx := by
    constructor
    · rintro ⟨j, _, h⟩
      cases hj : set[j]? with
      | none => rw [hj] at h; cases h
      | some u =>
        rw [hj] at h
        exact List.mem_map.2 ⟨u, List.mem_of_getElem? hj, Option.some.inj h⟩
    · intro h
      obtain ⟨u, hu, rfl⟩ := List.mem_map.1 h
      obtain ⟨j, hj⟩ := List.mem_iff_getElem?.1 hu
      have hlt : j < set.length := (List.getElem?_eq_some_iff.1 hj).1
      exact ⟨j, (order_perm _ _).mem_iff.2 (List.mem_range.2 hlt), by rw [hj]; rfl⟩
  simp only [this]

/-! ## Invariant -/

theorem brought_snoc (h : List Rec) (e : Rec) : brought (h ++ [e]) = brought h ++ brings e := by
  simp [brought]

theorem taken_snoc (h : List Rec) (e : Rec) : taken (h ++ [e]) = taken h ++ takes e := by
  simp [taken]

/-- All events are accounted for. -/
def Once (log : List Rec) (events : List Ev) : Prop :=
  ∀ x, x ≠ .enable → (brought log).count x = (taken log).count x + events.count x

/-- Whenever `WaitEvent` returned nothing, there was nothing. -/
def Nothing (log : List Rec) : Prop :=
  ∀ h t, log = h ++ .ret none :: t → ∀ x, x ≠ .enable → (brought h).count x = (taken h).count x

theorem nothing_snoc (log : List Rec) (e : Rec) (hn : Nothing log)
    (he : e = .ret none → ∀ x, x ≠ .enable → (brought log).count x = (taken log).count x) : Nothing (log ++ [e]) := by
  intro h t heq
  rcases List.eq_nil_or_concat t with rfl | ⟨t', y, rfl⟩
  · obtain ⟨h1, h2⟩ := List.append_inj' heq rfl
    simp only [List.cons.injEq, and_true] at h2
    subst h1
    exact he h2
  · rw [List.concat_eq_append, ← List.cons_append, ← List.append_assoc] at heq
    obtain ⟨h1, _⟩ := List.append_inj' heq rfl
    exact hn h t' h1

/-- The part which holds in the middle of a step, too. -/
structure Core (s : T) : Prop where
  once : Once s.log s.events
  nothing : Nothing s.log
  unblocked : s.blocked = false
  pipe : s.pipe = if s.pipeFired then 1 else 0
  enable : s.check = false → (∃ a, some a ∈ s.addons) → .enable ∈ s.events

/-- What holds while the thread is in `poll`. -/
def Polls (s : T) : Prop :=
  match s.phase with
  | .awake => s.waitFire = false ∧ s.pipeFired = false
  | .polling set tm => s.waitFire = true ∧ set = ufds s.addons ∧ (s.events = [] ∨ tm = some 0 ∨ s.pipeFired = true)

structure Inv (s : T) : Prop extends Core s where
  polls : Polls s

theorem inv_new : Inv new :=
  ⟨⟨fun x _ => rfl, fun h t hh => by simp [new] at hh, rfl, rfl, by simp [new]⟩, rfl, rfl⟩

theorem core_fire (e : Nat) (s : T) (h : Core s) : Core (fire e s) := by
  have hc : Core (note { s with events := s.events ++ [.user e] } (.post e)) := by
    refine ⟨?_, ?_, h.unblocked, h.pipe, ?_⟩
    · intro x hx
      show (brought (s.log ++ [.post e])).count x = (taken (s.log ++ [.post e])).count x + (s.events ++ [Ev.user e]).count x
      rw [brought_snoc, taken_snoc]
      simp only [List.count_append, h.once x hx, brings, takes, List.count_nil]
      omega
    · exact nothing_snoc _ _ h.nothing (by intro h'; cases h')
    · intro h1 h2
      exact List.mem_append_left _ (h.enable h1 h2)
  unfold fire
  dsimp only
  split
  · next hw =>
    refine ⟨hc.once, hc.nothing, hc.unblocked, ?_, hc.enable⟩
    show s.pipe + 1 = 1
    have hp := h.pipe
    have : s.pipeFired = false := by
      have : (note { s with events := s.events ++ [.user e] } (.post e)).pipeFired = s.pipeFired := rfl
      simp only [Bool.and_eq_true, Bool.not_eq_true', this] at hw
      exact hw.2
    rw [this] at hp
    simp at hp
    omega
  · exact hc

theorem core_give (k : Nat) (s : T) (h : Core s) : Core (give k s) := by
  by_cases hne : s.events = []
  · have hg : give k s = note { s with events := [], check := s.check || false, phase := .awake } (.ret none) := by
      unfold give; rw [hne, next_nil]; rfl
    rw [hg]
    have h0 : ∀ x, x ≠ .enable → (brought s.log).count x = (taken s.log).count x := by
      intro x hx; have := h.once x hx; rw [hne] at this; simpa using this
    refine ⟨?_, nothing_snoc _ _ h.nothing (fun _ => h0), h.unblocked, h.pipe, ?_⟩
    · intro x hx
      show (brought (s.log ++ [.ret none])).count x = (taken (s.log ++ [.ret none])).count x + ([] : List Ev).count x
      rw [brought_snoc, taken_snoc]
      simp [brings, takes, h0 x hx]
    · intro h1 h2
      have h1 : s.check = false := by simpa [note] using h1
      have := h.enable h1 h2
      rw [hne] at this; cases this
  · obtain ⟨e, he, hp⟩ := next_perm k s.events hne
    refine ⟨?_, nothing_snoc _ _ h.nothing ?_, h.unblocked, h.pipe, ?_⟩
    · intro x hx
      show (brought (s.log ++ [.ret (next k s.events).1])).count x
        = (taken (s.log ++ [.ret (next k s.events).1])).count x + (next k s.events).2.count x
      rw [brought_snoc, taken_snoc, he]
      have h1 := h.once x hx
      have h2 := hp.count_eq x
      rw [List.count_cons] at h2
      simp only [brings, takes, List.append_nil, List.count_append, List.count_cons, List.count_nil]
      omega
    · intro h'; rw [he] at h'; simp at h'
    · intro h1 h2
      have h1 : (s.check || decide ((next k s.events).1 = some .enable)) = false := h1
      rw [he] at h1
      simp only [Bool.or_eq_false_iff, decide_eq_false_iff_not, Option.some.injEq] at h1
      have := hp.mem_iff.2 (h.enable h1.1 h2)
      rcases List.mem_cons.1 this with h3 | h3
      · exact absurd h3.symm h1.2
      · exact h3

theorem core_drain (s : T) (h : Core s) : Core (drain s) := by
  unfold drain
  split
  · next hp =>
    have hpipe := h.pipe
    rw [if_pos hp] at hpipe
    refine ⟨h.once, h.nothing, ?_, ?_, h.enable⟩
    · show (s.blocked || decide (s.pipe = 0)) = false
      rw [h.unblocked, hpipe]; rfl
    · show s.pipe - 1 = 0
      omega
  · exact h

theorem mem_visited (set : List Ufd) (rev : Nat → Rev) (bal : Nat) (a : List (Option Addon)) :
    (∃ x, some x ∈ ((order set.length bal).foldl (visit set rev) ([], a)).2) → ∃ x, some x ∈ a := by
  rintro ⟨x, hx⟩
  obtain ⟨i, hi⟩ := List.mem_iff_getElem?.1 hx
  rw [visited_snd] at hi
  split at hi
  · cases ha : a[i]? with
    | none => rw [ha] at hi; cases hi
    | some b =>
      cases b with
      | none => rw [ha] at hi; cases hi
      | some b => exact ⟨b, List.mem_of_getElem? ha⟩
  · exact ⟨x, List.mem_of_getElem? hi⟩

theorem core_collect (set : List Ufd) (res : Bool) (rev : Nat → Rev) (s : T) (h : Core s) :
    Core (collect set res rev s) := by
  unfold collect
  split
  · dsimp only
    generalize hp : (order set.length s.bal).foldl (visit set rev) ([], s.addons) = p
    have hperm := visited_perm set rev s.bal s.addons
    rw [hp] at hperm
    have hb : brings (.polled (set.map fun u => (u.indx, rev u.indx)))
        = (set.map fun u => found u.indx (rev u.indx)).flatten := by
      show ((set.map fun u => (u.indx, rev u.indx)).map fun x => means x.1 x.2).flatten = _
      rw [List.map_map]
      congr 1
      apply List.map_congr_left
      intro u _
      exact (found_means _ _).symm
    have honce : Once (s.log ++ [.polled (set.map fun u => (u.indx, rev u.indx))]) (s.events ++ p.1) := by
      intro x hx
      rw [brought_snoc, taken_snoc, hb]
      have h1 := h.once x hx
      have h2 := hperm.count_eq x
      simp only [takes, List.append_nil, List.count_append]
      omega
    have hnoth : Nothing (s.log ++ [.polled (set.map fun u => (u.indx, rev u.indx))]) :=
      nothing_snoc _ _ h.nothing (by intro h'; cases h')
    split
    · refine ⟨honce, hnoth, h.unblocked, h.pipe, ?_⟩
      intro h1 h2
      have h2 : ∃ a, some a ∈ p.2 := h2
      rw [← hp] at h2
      exact List.mem_append_left _ (h.enable h1 (mem_visited _ _ _ _ h2))
    · refine ⟨?_, hnoth, h.unblocked, h.pipe, ?_⟩
      · intro x hx
        have := honce x hx
        show _ = _ + ((s.events ++ p.1) ++ [Ev.enable]).count x
        rw [List.count_append, List.count_cons, List.count_nil]
        have hne : (Ev.enable == x) = false := by simp [Ne.symm hx]
        rw [hne]
        exact this
      · intro _ _
        exact List.mem_append_right _ List.mem_cons_self
  · exact h

theorem give_phase (k : Nat) (s : T) : (give k s).phase = .awake := rfl

theorem collect_flags (set : List Ufd) (res : Bool) (rev : Nat → Rev) (s : T) :
    (collect set res rev s).waitFire = s.waitFire ∧ (collect set res rev s).pipeFired = s.pipeFired := by
  unfold collect
  split
  · dsimp only
    split <;> exact ⟨rfl, rfl⟩
  · exact ⟨rfl, rfl⟩

theorem drain_flags (s : T) : (drain s).waitFire = s.waitFire ∧ (drain s).pipeFired = false := by
  unfold drain
  split
  · exact ⟨rfl, rfl⟩
  · next h => exact ⟨rfl, by simpa using h⟩

theorem core_congr (s s' : T) (h : Core s) (h1 : s'.log = s.log) (h2 : s'.events = s.events)
    (h3 : s'.blocked = s.blocked) (h4 : s'.pipe = s.pipe) (h5 : s'.pipeFired = s.pipeFired)
    (h6 : s'.check = s.check) (h7 : (∃ a, some a ∈ s'.addons) → ∃ a, some a ∈ s.addons) : Core s' := by
  refine ⟨?_, ?_, ?_, ?_, ?_⟩
  · rw [h1, h2]; exact h.once
  · rw [h1]; exact h.nothing
  · rw [h3]; exact h.unblocked
  · rw [h4, h5]; exact h.pipe
  · rw [h6, h2]; exact fun x y => h.enable x (h7 y)

theorem inv_fire (e : Nat) (s : T) (h : Inv s) : Inv (fire e s) := by
  refine ⟨core_fire e s h.toCore, ?_⟩
  have hp := h.polls
  obtain ⟨ev, ck, wf, pf, pi, ad, ba, ph, bl, lo⟩ := s
  cases ph with
  | awake =>
    simp only [Polls] at hp
    obtain ⟨rfl, rfl⟩ := hp
    exact ⟨rfl, rfl⟩
  | polling set tm =>
    simp only [Polls] at hp
    obtain ⟨rfl, hset, _⟩ := hp
    cases pf
    · exact ⟨rfl, hset, Or.inr (Or.inr rfl)⟩
    · exact ⟨rfl, hset, Or.inr (Or.inr rfl)⟩

theorem inv_wait (tm : Option Nat) (k : Nat) (s : T) (ha : s.phase = .awake) (h : Inv s) : Inv (wait tm k s) := by
  have hp := h.polls
  simp only [Polls, ha] at hp
  unfold wait
  split
  · refine ⟨core_give k s h.toCore, ?_⟩
    simp only [Polls, give_phase]
    exact hp
  · refine ⟨core_congr s _ h.toCore rfl rfl rfl rfl rfl rfl id, ?_⟩
    refine ⟨rfl, rfl, ?_⟩
    dsimp only
    by_cases he : s.events = []
    · exact Or.inl he
    · exact Or.inr (Or.inl (if_pos he))

theorem inv_polled (set : List Ufd) (res : Bool) (rev : Nat → Rev) (k : Nat) (s : T) (h : Inv s) :
    Inv (polled set res rev k s) := by
  unfold polled
  have h0 : Core { s with waitFire := false } := core_congr s _ h.toCore rfl rfl rfl rfl rfl rfl id
  refine ⟨core_give _ _ (core_collect _ _ _ _ (core_drain _ h0)), ?_⟩
  simp only [Polls, give_phase]
  obtain ⟨h1, h2⟩ := collect_flags set res rev (drain { s with waitFire := false })
  obtain ⟨h3, h4⟩ := drain_flags { s with waitFire := false }
  exact ⟨h1.trans h3, h2.trans h4⟩

theorem inv_step (s : T) (o : Op) (h : Inv s) : Inv (step s o) := by
  cases o with
  | fire e => exact inv_fire e s h
  | wait tm k =>
    simp only [step]; split
    · next ha => exact inv_wait tm k s ha h
    · exact h
  | poll res rev k =>
    simp only [step]; split
    · exact h
    · exact inv_polled _ res rev k s h
  | doing i a b =>
    simp only [step]; split
    · next ha =>
      have hp := h.polls
      simp only [Polls, ha] at hp
      refine ⟨core_congr s _ h.toCore rfl rfl rfl rfl rfl rfl ?_, ?_⟩
      · rintro ⟨x, hx⟩
        obtain ⟨j, hj⟩ := List.mem_iff_getElem?.1 hx
        dsimp only at hj
        rw [List.getElem?_modify] at hj
        cases hb : s.addons[j]? with
        | none => rw [hb] at hj; cases hj
        | some y =>
          cases y with
          | none => rw [hb] at hj; split at hj <;> cases hj
          | some y => exact ⟨y, List.mem_of_getElem? hb⟩
      · simp only [Polls, ha]; exact hp
    · exact h
  | change l =>
    simp only [step]; split
    · next ha =>
      have hp := h.polls
      simp only [Polls, ha] at hp
      refine ⟨⟨h.once, h.nothing, h.unblocked, h.pipe, ?_⟩, ?_⟩
      · rintro h1 ⟨a, h2⟩
        have h1 : l.any Option.isSome = false := h1
        rcases List.mem_cons.1 (show some a ∈ none :: l from h2) with h3 | h3
        · cases h3
        · have := List.any_eq_false.1 h1 _ h3
          simp at this
      · simp only [Polls, change, ha]; exact hp
    · exact h

theorem inv_steps (os : List Op) : ∀ s, Inv s → Inv (steps s os) := by
  induction os with
  | nil => exact fun s h => h
  | cons o os ih => exact fun s h => ih _ (inv_step s o h)

end Sock

end Verif.WaitEvent
