import Verif.MbsServerLemmas

/-! Further invariants of the MBS server. -/

namespace Verif.MbsServer

open Spec

/-- The client at a slot. -/
def cliAt (l : List (Option Link)) (n : Nat) : Option Nat :=
  match l[n]? with
  | some (some x) => x.cli
  | _ => none

theorem cliAt_some {l : List (Option Link)} {n k : Nat} : cliAt l n = some k ↔ ∃ items, l[n]? = some (some ⟨items, some k⟩) := by
  unfold cliAt
  split
  · rename_i x hx
    rw [hx]
    obtain ⟨items, c⟩ := x
    simp
  · rename_i hne
    constructor
    · intro h; simp at h
    · rintro ⟨items, h⟩
      exact absurd h (hne _)

theorem cliAt_set (l : List (Option Link)) (n m : Nat) (x : Option Link) (c : Option Nat) (hx : (match x with | some y => y.cli | none => none) = c)
    (hn : n < l.length) : cliAt (l.set n x) m = if n = m then c else cliAt l m := by
  unfold cliAt
  rw [List.getElem?_set]
  by_cases h : n = m
  · subst h
    rw [if_pos rfl, if_pos hn, if_pos rfl, ← hx]
    cases x <;> rfl
  · rw [if_neg h, if_neg h]

theorem cliAt_none (l : List (Option Link)) (n : Nat) : cliAt (l.map fun _ => (none : Option Link)) n = none := by
  unfold cliAt
  rw [List.getElem?_map]
  cases l[n]? <;> rfl

theorem cliAt_sendAll (cap : Nat) (b : Item) (l : List (Option Link)) (n : Nat) : cliAt (sendAll cap b l) n = cliAt l n := by
  unfold cliAt sendAll
  rw [List.getElem?_map]
  cases l[n]? with
  | none => rfl
  | some x =>
    obtain _ | x := x
    · show (match some (if canSend cap none then put cap b none else none) with | some (some x) => x.cli | _ => none) = none
      split <;> simp_all [put]
    · show (match some (if canSend cap (some x) then put cap b (some x) else some x) with | some (some x) => x.cli | _ => none) = x.cli
      by_cases h : canSend cap (some x) <;> simp [h, put]

def Ev.slot : Ev → Nat
  | .stop n => n
  | .gone n => n

/-- Events are about slots without client. -/
def Clean (s : S) : Prop := ∀ e ∈ s.evs, cliAt s.slots e.slot = none

theorem lt_of_get {l : List (Option Link)} {n : Nat} {x : Option Link} (h : l[n]? = some x) : n < l.length :=
  (List.getElem?_eq_some_iff.mp h).1

theorem cliAt_cut (s : S) (n m : Nat) : cliAt (cut s n).slots m = if n = m then none else cliAt s.slots m := by
  unfold cut
  split
  · rename_i l hl
    exact cliAt_set _ _ _ _ none rfl (lt_of_get hl)
  · rename_i hl
    split
    · rename_i e; subst e
      unfold cliAt; rw [hl]
    · rfl

theorem cut_evs (s : S) (n : Nat) : (cut s n).evs = s.evs := by unfold cut; split <;> rfl

theorem cut_closing (s : S) (n : Nat) : (cut s n).closing = s.closing := by unfold cut; split <;> rfl

theorem cut_length (s : S) (n : Nat) : (cut s n).slots.length = s.slots.length := by
  unfold cut
  split
  · exact List.length_set
  · rfl

/-- Effect on clients of everything except new connections: who is at a slot was there before, and only events, leaving and closing take
one away. -/
theorem cliAt_sendNext (s : S) (m : Nat) : (sendNext s).evs = s.evs ∧
    ((cliAt (sendNext s).slots m = cliAt s.slots m) ∨ (cliAt (sendNext s).slots m = none ∧ (sendNext s).closing = 2)) := by
  unfold sendNext
  split
  · exact ⟨rfl, Or.inl rfl⟩
  · split
    · exact ⟨rfl, Or.inl rfl⟩
    · split
      · exact ⟨rfl, Or.inl rfl⟩
      · dsimp only
        split
        · split
          · exact ⟨rfl, Or.inr ⟨cliAt_none _ _, rfl⟩⟩
          · exact ⟨rfl, Or.inl (cliAt_sendAll _ _ _ _)⟩
        · exact ⟨rfl, Or.inl (cliAt_sendAll _ _ _ _)⟩

theorem cliAt_take (s : S) (k m : Nat) : (take s k).evs = s.evs ∧ cliAt (take s k).slots m = cliAt s.slots m := by
  unfold take
  split
  · rename_i n hn
    split
    · rename_i b rest c hx
      refine ⟨rfl, ?_⟩
      show cliAt (s.slots.set n (some ⟨rest, c⟩)) m = _
      rw [cliAt_set _ _ _ _ c rfl (lt_of_get hx)]
      split
      · rename_i e; subst e
        unfold cliAt; rw [hx]
      · rfl
    · exact ⟨rfl, rfl⟩
  · split
    · exact ⟨rfl, rfl⟩
    · exact ⟨rfl, rfl⟩

theorem has_none {k : Nat} {l : List (Option Link)} (h : l.findIdx? (has k) = none) (m : Nat) : cliAt l m ≠ some k := by
  intro hc
  obtain ⟨items, hi⟩ := cliAt_some.mp hc
  have := List.findIdx?_eq_none_iff.mp h _ (List.mem_of_getElem? hi)
  simp [has] at this

/-- Either `k` is nowhere, or it is at the slot which gets free. -/
theorem leave_cases (s : S) (k : Nat) :
    ((∀ m, cliAt s.slots m ≠ some k) ∧ (leave s k).evs = s.evs ∧ (leave s k).slots = s.slots) ∨
    ∃ n, s.slots.findIdx? (has k) = some n ∧ cliAt s.slots n = some k ∧ (leave s k).evs = s.evs ++ [.gone n] ∧
      ∀ m, cliAt (leave s k).slots m = if n = m then none else cliAt s.slots m := by
  unfold leave
  cases hf : s.slots.findIdx? (has k) with
  | none => exact Or.inl ⟨has_none hf, rfl, rfl⟩
  | some n =>
    obtain ⟨items, hi⟩ := findIdx_has hf
    refine Or.inr ⟨n, rfl, cliAt_some.mpr ⟨items, hi⟩, ?_, fun m => ?_⟩
    · simp only [hi]
    · simp only [hi]
      exact cliAt_set _ _ _ _ none rfl (lt_of_get hi)

theorem clean_leave {s : S} (h : Clean s) (k : Nat) : Clean (leave s k) := by
  rcases leave_cases s k with ⟨_, he, hs⟩ | ⟨n, _, _, he, hs⟩
  · intro e h'
    rw [he] at h'; rw [hs]; exact h e h'
  · intro e h'
    rw [he] at h'
    rw [hs]
    split
    · rfl
    · rename_i hne
      rcases List.mem_append.mp h' with h' | h'
      · exact h e h'
      · simp at h'; subst h'; exact absurd rfl hne

theorem clean_destroy {s : S} (h : Clean s) (k : Nat) : Clean (destroy s k) := by
  unfold destroy
  split
  · rename_i n hn
    rcases leave_cases { s with evs := s.evs ++ [.stop n] } k with ⟨hno, _⟩ | ⟨n', hn', _, he, hs⟩
    · obtain ⟨items, hi⟩ := findIdx_has hn
      exact absurd (cliAt_some.mpr ⟨items, hi⟩) (hno n)
    · have : n' = n := by
        have hn'' : s.slots.findIdx? (has k) = some n' := hn'
        rw [hn] at hn''; simpa using hn''.symm
      subst this
      intro e h'
      rw [he] at h'
      rw [hs]
      split
      · rfl
      · rename_i hne
        simp only [List.mem_append, List.mem_singleton] at h'
        rcases h' with (h' | h') | h'
        · exact h e h'
        · subst h'; exact absurd rfl hne
        · subst h'; exact absurd rfl hne
  · exact clean_leave h k

theorem clean_step {s : S} (h : Clean s) (op : Op) (ho : ∀ f i, op = .connect f i → s.evs = []) : Clean (step s op) := by
  cases op with
  | arrive b =>
    simp only [step]
    split <;> exact h
  | turn =>
    simp only [step]
    split
    · exact h
    · intro e he
      have := cliAt_sendNext s e.slot
      rw [this.1] at he
      rcases this.2 with h' | h'
      · rw [h']; exact h e he
      · exact h'.1
  | connect f i =>
    simp only [step]
    split
    · exact h
    · have he := ho f i rfl
      have : (connect s f i).evs = [] := by
        unfold connect
        dsimp only
        repeat' split
        all_goals exact he
      intro e h'
      rw [this] at h'; simp at h'
  | take k =>
    intro e he
    have := cliAt_take s k e.slot
    simp only [step] at he ⊢
    rw [this.1] at he
    rw [this.2]; exact h e he
  | leave k => exact clean_leave h k
  | destroy k => exact clean_destroy h k
  | event =>
    simp only [step]
    split
    · exact h
    · split
      · exact h
      · rename_i n r hr
        have hcut : Clean (cut { s with evs := r } n) := by
          intro e he
          rw [cut_evs] at he
          rw [cliAt_cut]
          split
          · rfl
          · exact h e (by rw [hr]; exact List.mem_cons_of_mem _ he)
        unfold onStop
        dsimp only
        split
        · intro e _
          exact cliAt_none _ _
        · exact hcut
      · rename_i n r hr
        intro e he
        rw [cut_evs] at he
        rw [cliAt_cut]
        split
        · rfl
        · exact h e (by rw [hr]; exact List.mem_cons_of_mem _ he)

theorem clean_run : ∀ {ops : List Op} {s : S}, Clean s → Orderly s ops → Clean (run s ops) := by
  intro ops
  induction ops with
  | nil => intro s h _; exact h
  | cons op ops ih => intro s h ho; exact ih (clean_step h op ho.1) ho.2

/-- Effect of one operation on a client: it stays until it goes or the server closes. -/
theorem stays {s : S} (h : Clean s) (op : Op) (k n : Nat) (hk : cliAt s.slots n = some k) (h1 : op ≠ .leave k) (h2 : op ≠ .destroy k) :
    cliAt (step s op).slots n = some k ∨ (step s op).closing = 2 := by
  have lv : ∀ (t : S) (j : Nat), t.slots = s.slots → j ≠ k → cliAt (leave t j).slots n = some k := by
    intro t j ht hj
    rcases leave_cases t j with ⟨_, _, hs⟩ | ⟨m, _, hm, _, hs⟩
    · rw [hs, ht]; exact hk
    · rw [hs, ht]
      rw [if_neg]
      · exact hk
      · rintro rfl
        rw [ht, hk] at hm
        simp at hm; exact hj hm.symm
  cases op with
  | arrive b =>
    simp only [step]
    split <;> exact Or.inl hk
  | turn =>
    simp only [step]
    split
    · exact Or.inl hk
    · rcases (cliAt_sendNext s n).2 with h' | h'
      · rw [h']; exact Or.inl hk
      · exact Or.inr h'.2
  | connect f i =>
    simp only [step]
    split
    · exact Or.inl hk
    · left
      unfold connect
      split
      · exact hk
      · split
        · exact hk
        · split
          · exact hk
          · dsimp only
            generalize hj : s.slots.findIdx (fun l => !connected l) = j
            have key : ∀ x : Option Link, s.slots[j]? = some x → j ≠ n := by
              rintro x hx rfl
              have hlt := lt_of_get hx
              have := List.findIdx_getElem (w := hj ▸ hlt)
              subst hj
              obtain ⟨items, hi⟩ := cliAt_some.mp hk
              rw [(List.getElem?_eq_some_iff.mp hi).2] at this
              simp [connected] at this
            split
            · rename_i l hl
              show cliAt (s.slots.set _ _) n = _
              rw [cliAt_set _ _ _ _ _ rfl (lt_of_get hl), if_neg (key _ hl)]; exact hk
            · rename_i hl
              show cliAt (s.slots.set _ _) n = _
              rw [cliAt_set _ _ _ _ _ rfl (lt_of_get hl), if_neg (key _ hl)]; exact hk
            · obtain ⟨items, hi⟩ := cliAt_some.mp hk
              refine cliAt_some.mpr ⟨items, ?_⟩
              show (s.slots ++ _)[n]? = _
              rw [List.getElem?_append_left (lt_of_get hi)]; exact hi
  | take j => simp only [step]; rw [(cliAt_take s j n).2]; exact Or.inl hk
  | leave j => exact Or.inl (lv s j rfl fun e => h1 (by rw [e]))
  | destroy j =>
    simp only [step, destroy]
    split
    · exact Or.inl (lv _ j rfl fun e => h2 (by rw [e]))
    · exact Or.inl (lv _ j rfl fun e => h2 (by rw [e]))
  | event =>
    simp only [step]
    split
    · exact Or.inl hk
    · have ne : ∀ e ∈ s.evs, e.slot ≠ n := by
        intro e he hn
        have := h e he
        rw [hn, hk] at this; simp at this
      split
      · exact Or.inl hk
      · rename_i m r hr
        have : m ≠ n := ne (.stop m) (by rw [hr]; simp)
        unfold onStop
        dsimp only
        split
        · exact Or.inr rfl
        · rw [cliAt_cut, if_neg this]; exact Or.inl hk
      · rename_i m r hr
        have : m ≠ n := ne (.gone m) (by rw [hr]; simp)
        rw [cliAt_cut, if_neg this]; exact Or.inl hk

/-! ## Numbers -/

/-- Number of slots, length of queues, buffers taken. -/
structure Num (s : S) : Prop where
  lim : 0 < s.limit → s.slots.length ≤ s.limit
  cap : ∀ l, some l ∈ s.slots → l.items.length ≤ s.cap
  came : s.closing ≠ 2 → s.taken ++ s.inp = s.came
  pre : s.taken <+: s.came
  inp : s.inp.length ≤ s.icap

theorem num_close {s : S} (h : Num s) : Num (close s) := by
  refine ⟨fun hl => ?_, fun l hl => ?_, fun hc => absurd rfl hc, h.pre, Nat.zero_le _⟩
  · have := h.lim hl
    show (s.slots.map _).length ≤ _
    rw [List.length_map]; exact this
  · have : some l ∈ s.slots.map fun _ => (none : Option Link) := hl
    simp at this

theorem num_took {s : S} (hcap : 0 < s.cap) (h : Num s) {b : Item} {rest : List Item} (hi : s.inp = b :: rest) (hc : s.closing ≠ 2) :
    Num { s with inp := rest, slots := sendAll s.cap b s.slots, taken := s.taken ++ [b] } := by
  have hcame := h.came hc
  rw [hi] at hcame
  refine ⟨fun hl => ?_, fun l hl => ?_, fun _ => ?_, ?_, ?_⟩
  · show (s.slots.map _).length ≤ _
    rw [List.length_map]; exact h.lim hl
  · have hl : some l ∈ sendAll s.cap b s.slots := hl
    obtain ⟨x, hx, he⟩ := List.mem_map.mp hl
    show l.items.length ≤ s.cap
    obtain _ | x := x
    · split at he <;> simp [put] at he
    · have hx' := h.cap x hx
      split at he
      · simp [put] at he
        subst he
        dsimp only
        split
        · simp; omega
        · simp; omega
      · simp at he; subst he; exact hx'
  · show s.taken ++ [b] ++ rest = s.came
    rw [← hcame]; simp
  · exact ⟨rest, by show s.taken ++ [b] ++ rest = s.came; rw [← hcame]; simp⟩
  · have := h.inp
    rw [hi] at this
    simp at this
    show rest.length ≤ s.icap
    omega

theorem num_set {s : S} (h : Num s) (n : Nat) (x : Option Link) (hx : ∀ l, x = some l → l.items.length ≤ s.cap) (orphans : List (Nat × List Item))
    (evs : List Ev) (got : Nat → List Item) :
    Num { s with slots := s.slots.set n x, orphans := orphans, evs := evs, got := got } := by
  refine ⟨fun hl => ?_, fun l hl => ?_, h.came, h.pre, h.inp⟩
  · show (s.slots.set n x).length ≤ _
    rw [List.length_set]; exact h.lim hl
  · rcases List.mem_or_eq_of_mem_set (show some l ∈ s.slots.set n x from hl) with hl | hl
    · exact h.cap l hl
    · exact hx l hl.symm

theorem num_cut {s : S} (h : Num s) (n : Nat) (evs : List Ev) : Num (cut { s with evs := evs } n) := by
  unfold cut
  split
  · exact num_set h n none (by intro l hl; simp at hl) _ _ _
  · exact ⟨h.lim, h.cap, h.came, h.pre, h.inp⟩

theorem num_leave {s : S} (h : Num s) (k : Nat) : Num (leave s k) := by
  unfold leave
  split
  · split
    · rename_i l hl
      exact num_set h _ _ (by intro l' hl'; simp at hl'; subst hl'; exact h.cap l (List.mem_of_getElem? hl)) _ _ _
    · exact h
  · exact ⟨h.lim, h.cap, h.came, h.pre, h.inp⟩

theorem num_step {s : S} (hcap : 0 < s.cap) (h : Num s) (op : Op) : Num (step s op) := by
  cases op with
  | arrive b =>
    simp only [step]
    split
    · rename_i hc
      have := h.came hc.1
      refine ⟨h.lim, h.cap, fun _ => ?_, ?_, ?_⟩
      · show s.taken ++ (s.inp ++ [b]) = s.came ++ [b]
        rw [← this]; simp
      · exact h.pre.trans (List.prefix_append _ _)
      · show (s.inp ++ [b]).length ≤ s.icap
        rw [List.length_append]
        have := hc.2
        simp; omega
    · exact h
  | turn =>
    simp only [step]
    split
    · exact h
    · rename_i hc
      unfold sendNext
      split
      · exact h
      · rename_i b rest hi
        split
        · exact h
        · split
          · exact h
          · have h' := num_took hcap h hi hc
            dsimp only
            split
            · split
              · exact num_close h'
              · exact ⟨h'.lim, h'.cap, fun _ => h'.came hc, h'.pre, h'.inp⟩
            · exact h'
  | connect f i =>
    simp only [step]
    split
    · exact h
    · unfold connect
      split
      · exact h
      · split
        · exact h
        · rename_i hlim
          split
          · exact h
          · dsimp only
            have h' : Num { s with next := s.next + 1, born := fun j => if j = s.next then s.taken.length else s.born j } :=
              ⟨h.lim, h.cap, h.came, h.pre, h.inp⟩
            generalize hj : s.slots.findIdx (fun l => !connected l) = j
            split
            · rename_i l hl
              exact num_set h' _ _ (by intro l' hl'; simp at hl'; subst hl'; exact h.cap l (List.mem_of_getElem? hl)) _ _ _
            · exact num_set h' _ _ (by intro l' hl'; simp at hl'; subst hl'; exact Nat.zero_le _) _ _ _
            · rename_i hl
              refine ⟨fun hp => ?_, fun l hl => ?_, h.came, h.pre, h.inp⟩
              · show (s.slots ++ _).length ≤ s.limit
                have hp : 0 < s.limit := hp
                have hl : s.slots[j]? = none := hl
                have hlen : s.slots.length ≤ j := List.getElem?_eq_none_iff.mp hl
                have hall : s.slots.countP connected = s.slots.length := by
                  refine List.countP_eq_length.mpr fun x hx => ?_
                  cases hcx : connected x with
                  | true => rfl
                  | false =>
                    have := List.findIdx_lt_length_of_exists (xs := s.slots) (p := fun l => !connected l) ⟨x, hx, by simp [hcx]⟩
                    omega
                rw [List.length_append]
                simp only [List.length_cons, List.length_nil]
                omega
              · have hl : some l ∈ s.slots ++ [some ⟨[], some s.next⟩] := hl
                simp at hl
                rcases hl with hl | hl
                · exact h.cap l hl
                · subst hl; exact Nat.zero_le _
  | take k =>
    simp only [step, take]
    split
    · split
      · rename_i b rest c hx
        refine num_set h _ _ (fun l' hl' => ?_) _ _ _
        simp at hl'; subst hl'
        have := h.cap _ (List.mem_of_getElem? hx)
        simp at this ⊢
        omega
      · exact h
    · split
      · exact ⟨h.lim, h.cap, h.came, h.pre, h.inp⟩
      · exact h
  | leave k => exact num_leave h k
  | destroy k =>
    simp only [step, destroy]
    split
    · rename_i n _
      exact num_leave (s := { s with evs := s.evs ++ [.stop n] }) ⟨h.lim, h.cap, h.came, h.pre, h.inp⟩ k
    · exact num_leave h k
  | event =>
    simp only [step]
    split
    · exact h
    · split
      · exact h
      · rename_i n r _
        have := num_cut h n r
        unfold onStop
        dsimp only
        split
        · exact num_close this
        · exact this
      · exact num_cut h _ _

/-- Settings do not change. -/
theorem step_cfg (s : S) (op : Op) : (step s op).blocking = s.blocking ∧ (step s op).deliverAll = s.deliverAll ∧
    (step s op).limit = s.limit ∧ (step s op).icap = s.icap ∧ (step s op).cap = s.cap := by
  have lv : ∀ (t : S) (k : Nat), (leave t k).blocking = t.blocking ∧ (leave t k).deliverAll = t.deliverAll ∧ (leave t k).limit = t.limit ∧
      (leave t k).icap = t.icap ∧ (leave t k).cap = t.cap := by
    intro t k
    unfold leave
    repeat' split
    all_goals exact ⟨rfl, rfl, rfl, rfl, rfl⟩
  have ct : ∀ (t : S) (k : Nat), (cut t k).blocking = t.blocking ∧ (cut t k).deliverAll = t.deliverAll ∧ (cut t k).limit = t.limit ∧
      (cut t k).icap = t.icap ∧ (cut t k).cap = t.cap := by
    intro t k
    unfold cut
    repeat' split
    all_goals exact ⟨rfl, rfl, rfl, rfl, rfl⟩
  cases op with
  | arrive b => simp only [step]; split <;> exact ⟨rfl, rfl, rfl, rfl, rfl⟩
  | turn =>
    simp only [step, sendNext]
    repeat' split
    all_goals exact ⟨rfl, rfl, rfl, rfl, rfl⟩
  | connect f i =>
    simp only [step, connect]
    repeat' split
    all_goals exact ⟨rfl, rfl, rfl, rfl, rfl⟩
  | take k =>
    simp only [step, take]
    repeat' split
    all_goals exact ⟨rfl, rfl, rfl, rfl, rfl⟩
  | leave k => exact lv s k
  | destroy k =>
    simp only [step, destroy]
    split
    · exact lv _ k
    · exact lv s k
  | event =>
    simp only [step]
    split
    · exact ⟨rfl, rfl, rfl, rfl, rfl⟩
    · split
      · exact ⟨rfl, rfl, rfl, rfl, rfl⟩
      · simp only [onStop]
        split
        · exact ct _ _
        · exact ct _ _
      · exact ct _ _

theorem run_cfg : ∀ (ops : List Op) (s : S), (run s ops).blocking = s.blocking ∧ (run s ops).deliverAll = s.deliverAll ∧
    (run s ops).limit = s.limit ∧ (run s ops).icap = s.icap ∧ (run s ops).cap = s.cap := by
  intro ops
  induction ops with
  | nil => intro s; exact ⟨rfl, rfl, rfl, rfl, rfl⟩
  | cons op ops ih =>
    intro s
    have h1 := ih (step s op)
    have h2 := step_cfg s op
    show (run (step s op) ops).blocking = _ ∧ (run (step s op) ops).deliverAll = _ ∧ (run (step s op) ops).limit = _ ∧ (run (step s op) ops).icap = _ ∧ (run (step s op) ops).cap = _
    exact ⟨h1.1.trans h2.1, h1.2.1.trans h2.2.1, h1.2.2.1.trans h2.2.2.1, h1.2.2.2.1.trans h2.2.2.2.1, h1.2.2.2.2.trans h2.2.2.2.2⟩

theorem num_run : ∀ {ops : List Op} {s : S}, 0 < s.cap → Num s → Num (run s ops) := by
  intro ops
  induction ops with
  | nil => intro s _ h; exact h
  | cons op ops ih => intro s hc h; exact ih (by rw [(step_cfg s op).2.2.2.2]; exact hc) (num_step hc h op)

theorem num_new (b d : Bool) (lim icap cap : Nat) : Num (new b d lim icap cap) :=
  ⟨fun _ => Nat.zero_le _, fun l hl => by simp [new] at hl, fun _ => rfl, ⟨[], rfl⟩, Nat.zero_le _⟩

end Verif.MbsServer
