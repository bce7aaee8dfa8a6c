import Verif.StreamRunEnd
/-!
# C112: the parallel analysis sees every buffer once
-/

namespace Verif.StreamRun

/-! ### Distribution -/

/-- In all runs: what was taken from the input was given, in order, to the parallel modules; each of them has analysed a part of its
share in order and has the rest in its queue, which is never overfilled.  The counters agree. -/
theorem C112_distribution (caps : List Nat) (acts : List Act) (s : St) (h : run (init caps) acts = some s) :
    (∃ c, arrived acts = c ++ s.inp ∧ dataOf c = s.sent.map (·.2)) ∧
    s.slaves.map (·.cap) = caps ∧ (∀ p ∈ s.sent, p.1 < caps.length) ∧
    (∀ n x, s.slaves[n]? = some x → share n s.sent = x.done ++ dataOf x.queue ∧ x.queue.length ≤ x.cap ∧
      x.totalSize = (x.done.map (·.size)).sum ∧ x.totalEvnts = (x.done.map (·.analysed)).sum) ∧
    s.totalSize = (s.sent.map (·.2.size)).sum ∧ s.totalEvnts = (s.sent.map (·.2.events)).sum := by
  have hi := inv_run h
  refine ⟨hi.taken, hi.len, ?_, ?_, hi.total⟩
  · intro p hp
    have := hi.idx p hp
    rw [← hi.len, List.length_map]; exact this
  · intro n x hx
    have hm := List.mem_iff_getElem?.2 ⟨n, hx⟩
    exact ⟨hi.parts n x hx, hi.fits x hm, hi.sizes x hm⟩

example : ∃ s, run (init [2, 1]) [.arrive (.data ⟨10, 3, 3⟩), .arrive (.data ⟨20, 1, 1⟩), .recv, .iter, .iter, .work 0] = some s ∧
    s.sent = [(0, ⟨10, 3, 3⟩), (0, ⟨20, 1, 1⟩)] := by
  refine ⟨_, rfl, ?_⟩; decide

/-- A buffer is given to the first of the modules with the most free places, of which there is at least one. -/
theorem C112_balance (s s' : St) (k : Nat) (b : Buf) (h : step s .iter = some s') (hs : s'.sent = s.sent ++ [(k, b)]) :
    s.inp.head? = some (.data b) ∧ s'.inp = s.inp.tail ∧ free s k > 0 ∧ ∀ m, free s m ≤ free s k ∧ (m < k → free s m < free s k) := by
  have h : iter s = s' := by
    unfold StreamRun.step at h
    dsimp only at h
    split at h
    · exact Option.some.inj h
    · exact absurd h (by simp)
  subst h
  have hne : ∀ (l : List (Nat × Buf)) (x : Nat × Buf), l ≠ l ++ [x] := by
    intro l x e
    have := congrArg List.length e
    simp at this
  rcases iter_cases s with e | ⟨inp, e1, e2, e⟩ | ⟨b', inp, k', x, e1, e2, e3, e4, e⟩
  · rw [e] at hs; exact absurd hs (hne _ _)
  · rw [e] at hs
    have : (leave (generate true { s with inp := inp })).sent = s.sent := by
      simp only [leave, generate]
      split <;> rfl
    rw [this] at hs
    exact absurd hs (hne _ _)
  · rw [e] at hs ⊢
    have : (k', b') = (k, b) := by
      have := List.append_cancel_left hs
      simpa using this
    cases this
    have hx : free s k = x.room := by simp only [free, e2, Slave.room]
    refine ⟨by rw [e1]; rfl, by rw [e1]; rfl, by rw [hx]; exact e3, ?_⟩
    intro m
    rw [hx]
    cases hm : s.slaves[m]? with
    | none =>
      have : free s m = 0 := by simp only [free, hm]
      exact ⟨by omega, fun _ => by omega⟩
    | some y =>
      have : free s m = y.room := by simp only [free, hm, Slave.room]
      rw [this]
      exact e4 m y hm

example : ∃ s s', run (init [1, 2]) [.arrive (.data ⟨10, 3, 3⟩), .recv] = some s ∧ step s .iter = some s' ∧
    s'.sent = s.sent ++ [(1, ⟨10, 3, 3⟩)] := by
  refine ⟨_, _, rfl, rfl, ?_⟩; decide

/-! ### The end -/

theorem conn_step {s s' : St} {a : Act} (h : step s a = some s') (ha : a ≠ .disconnect) : s'.conn = s.conn := by
  have hg : ∀ (b : Bool) (t : St), (generate b t).conn = t.conn := by
    intro b t; unfold generate; split <;> rfl
  have hm : ∀ t : St, (merge t).conn = t.conn := by
    intro t; unfold merge; split <;> rfl
  cases a with
  | disconnect => exact absurd rfl ha
  | iter =>
    unfold StreamRun.step at h
    dsimp only at h
    split at h
    · obtain rfl := Option.some.inj h
      rcases iter_cases s with e | ⟨inp, e1, e2, e⟩ | ⟨b', inp, k', x, e1, e2, e3, e4, e⟩
      · rw [e]; rfl
      · rw [e]; show (generate _ _).conn = _; rw [hg]
      · rw [e]
    · exact absurd h (by simp)
  | check b =>
    simp only [StreamRun.step, Option.ite_none_right_eq_some, Option.some.injEq] at h
    obtain ⟨_, rfl⟩ := h
    unfold check
    dsimp only
    split
    · exact hg _ _
    · rfl
  | work n =>
    unfold StreamRun.step at h
    dsimp only at h
    split at h
    · exact absurd h (by simp)
    · split at h
      · obtain rfl := Option.some.inj h; rfl
      · exact absurd h (by simp)
  | finished =>
    simp only [StreamRun.step, Option.ite_none_right_eq_some, Option.some.injEq] at h
    obtain ⟨_, rfl⟩ := h
    unfold finished
    dsimp only
    split
    · exact hm _
    · rfl
  | stop =>
    simp only [StreamRun.step, Option.ite_none_right_eq_some, Option.some.injEq] at h
    obtain ⟨_, rfl⟩ := h
    exact hm _
  | arrive i =>
    simp only [StreamRun.step, Option.ite_none_right_eq_some, Option.some.injEq] at h
    obtain ⟨_, rfl⟩ := h; rfl
  | recv =>
    simp only [StreamRun.step, Option.ite_none_right_eq_some, Option.some.injEq] at h
    obtain ⟨_, rfl⟩ := h; rfl
  | timer =>
    simp only [StreamRun.step, Option.ite_none_right_eq_some, Option.some.injEq] at h
    obtain ⟨_, rfl⟩ := h; rfl

def Live (acts : List Act) (s : St) : Prop := (Before acts s ∧ s.conn = true) ∨ After acts s

theorem ends_of_append {l : List Item} {i : List Item} (h : EndsWithEof (l ++ i)) : EndsWithEof l := by
  induction i generalizing l with
  | nil => simpa using h
  | cons x xs ih =>
    have : EndsWithEof ((l ++ [x]) ++ xs) := by simpa using h
    obtain ⟨d, hd⟩ := ends_prefix (ih this)
    exact ⟨d, Or.inl hd⟩

theorem live_run {caps : List Nat} (hn : caps ≠ []) {acts : List Act} {s : St} (h : run (init caps) acts = some s)
    (he : EndsWithEof (arrived acts)) (hs : Act.stop ∉ acts) (hd : EndTakenFirst caps acts) : Live acts s := by
  have key : run (init caps) acts = some s ∧ (EndsWithEof (arrived acts) → Act.stop ∉ acts → EndTakenFirst caps acts → Live acts s) := by
    refine run_ind (P := fun acts s => run (init caps) acts = some s ∧
      (EndsWithEof (arrived acts) → Act.stop ∉ acts → EndTakenFirst caps acts → Live acts s)) ?_ ?_ h
    · exact ⟨rfl, fun _ _ _ => Or.inl ⟨before_init caps, rfl⟩⟩
    · intro acts s a s' ⟨hr, hp⟩ hst
      refine ⟨by rw [run_append, hr]; simp [run, hst], ?_⟩
      intro he hs hd
      have he' : EndsWithEof (arrived acts) := by rw [arrived_append] at he; exact ends_of_append he
      have hs' : Act.stop ∉ acts := fun h => hs (by simp [h])
      have ha : a ≠ .stop := fun h => hs (by simp [h])
      have hd' : EndTakenFirst caps acts := by
        intro p q e
        exact hd p (q ++ [a]) (by rw [e]; simp)
      have hsl : s.slaves ≠ [] := by
        have := (inv_run hr).len
        intro e; rw [e] at this; exact hn (by simpa using this.symm)
      rcases hp he' hs' hd' with ⟨h1, h2⟩ | h1
      · rcases h1.step h2 hsl he hst ha with h3 | h3
        · left
          refine ⟨h3, ?_⟩
          by_cases e : a = .disconnect
          · exfalso
            subst e
            obtain ⟨t, ht, h4, h5⟩ := hd acts [] rfl
            rw [hr] at ht; obtain rfl := Option.some.inj ht
            rw [h1.arr, h4] at h5
            simp at h5
          · rw [conn_step hst e]; exact h2
        · exact Or.inr h3
      · exact Or.inr (h1.step he hst ha)
  exact key.2 he hs hd

theorem dataOf_map (l : List Buf) : dataOf (l.map Item.data) = l := by
  induction l with
  | nil => rfl
  | cons b l ih => simp [dataOf, ih]

/-- When data end with the end mark, and the input is not disconnected before the main module has taken it, then histograms are summed up
only after all data were analysed: the results are those of a division of all the data. -/
theorem C112_complete_partial (caps : List Nat) (hn : caps ≠ []) (acts : List Act) (s : St) (h : run (init caps) acts = some s)
    (he : EndsWithEof (arrived acts)) (hs : Act.stop ∉ acts) (hd : EndTakenFirst caps acts) (m : List (List Buf))
    (hm : s.merged = some m) : Item.eof ∈ arrived acts ∧ Divided caps.length (dataOf (arrived acts)) m := by
  rcases live_run hn h he hs hd with ⟨h1, _⟩ | h1
  · rw [h1.merged] at hm; exact absurd hm (by simp)
  · have hi := inv_run h
    obtain ⟨h0, rfl⟩ := h1.merged m hm
    have hz : sumOf Slave.eofs s.slaves = 0 := by have := h1.mode; omega
    have hlen : s.slaves.length = caps.length := by rw [← hi.len, List.length_map]
    refine ⟨by rw [h1.arr]; simp, s.sent, ?_, ?_, ?_⟩
    · rw [h1.arr, dataOf_append]
      have : s.sent.map (fun p => Item.data p.2) = (s.sent.map (·.2)).map Item.data := by simp [Function.comp_def]
      rw [this, dataOf_map]; simp [dataOf]
    · intro p hp; rw [← hlen]; exact hi.idx p hp
    · apply List.ext_getElem?
      intro n
      simp only [List.getElem?_map, List.getElem?_range]
      by_cases hlt : n < caps.length
      · rw [List.getElem?_range hlt]
        obtain ⟨x, hx⟩ : ∃ x, s.slaves[n]? = some x := ⟨_, List.getElem?_eq_getElem (by omega)⟩
        have hmem := List.mem_iff_getElem?.2 ⟨n, hx⟩
        have hq : x.queue = [] := by
          rcases h1.queues x hmem with ⟨d, hq⟩ | hq
          · have := sumOf_pos hz x hmem
            simp [Slave.eofs, hq] at this
          · exact hq
        rw [hx]
        have := hi.parts n x hx
        rw [hq] at this
        simp only [Option.map_some, this, dataOf, List.append_nil]
      · rw [List.getElem?_eq_none (by omega), List.getElem?_eq_none (by simp; omega)]
        rfl

/-- Data of two modules and the end. -/
def exRun : List Act := [.arrive (.data ⟨10, 3, 3⟩), .arrive (.data ⟨20, 1, 1⟩), .arrive .eof, .recv, .iter, .iter, .work 0, .work 1, .iter,
  .disconnect, .timer, .iter, .check true, .work 0, .work 1, .finished, .finished]

example : ∃ s, run (init [1, 1]) exRun = some s ∧ EndsWithEof (arrived exRun) ∧ Act.stop ∉ exRun ∧ EndTakenFirst [1, 1] exRun ∧
    s.merged = some [[⟨10, 3, 3⟩], [⟨20, 1, 1⟩]] := by
  refine ⟨_, rfl, ⟨[⟨10, 3, 3⟩, ⟨20, 1, 1⟩], Or.inr rfl⟩, by decide, ?_, by decide⟩
  intro p q e
  have hp : p = exRun.take 9 := by
    have hl : p.length = 9 := by
      have h1 : exRun[p.length]? = some .disconnect := by rw [e]; simp
      have h2 : ∀ n, n < 17 → exRun[n]? = some Act.disconnect → n = 9 := by decide
      have h3 : p.length < 17 := by
        have := congrArg List.length e
        have h4 : exRun.length = 17 := rfl
        simp at this
        omega
      exact h2 _ h3 h1
    have := congrArg (List.take p.length) e
    rw [hl] at this
    rw [this, ← hl]
    simp
  subst hp
  exact ⟨_, rfl, rfl, by decide⟩

/-- The histograms are summed up at most once, and modules are stopped then. -/
theorem C112_once (s s' : St) (acts : List Act) (m : List (List Buf)) (h : run s acts = some s') (hm : s.merged = some m) :
    s'.merged = some m := by
  have hg : ∀ (b : Bool) (t : St), (generate b t).merged = t.merged := by
    intro b t; unfold generate; split <;> rfl
  have hmg : ∀ t : St, t.merged = some m → (merge t).merged = some m := by
    intro t ht; unfold merge; rw [ht]; exact ht
  refine run_ind (P := fun _ t => t.merged = some m) hm ?_ h
  intro _ s a s' hm h
  cases a with
  | iter =>
    unfold StreamRun.step at h
    dsimp only at h
    split at h
    · obtain rfl := Option.some.inj h
      rcases iter_cases s with e | ⟨inp, e1, e2, e⟩ | ⟨b', inp, k', x, e1, e2, e3, e4, e⟩
      · rw [e]; exact hm
      · rw [e]; show (generate _ _).merged = _; rw [hg]; exact hm
      · rw [e]; exact hm
    · exact absurd h (by simp)
  | check b =>
    simp only [StreamRun.step, Option.ite_none_right_eq_some, Option.some.injEq] at h
    obtain ⟨_, rfl⟩ := h
    unfold check
    dsimp only
    split
    · rw [hg]; exact hm
    · exact hm
  | work n =>
    unfold StreamRun.step at h
    dsimp only at h
    split at h
    · exact absurd h (by simp)
    · split at h
      · obtain rfl := Option.some.inj h; exact hm
      · exact absurd h (by simp)
  | finished =>
    simp only [StreamRun.step, Option.ite_none_right_eq_some, Option.some.injEq] at h
    obtain ⟨_, rfl⟩ := h
    unfold finished
    dsimp only
    split
    · exact hmg _ hm
    · exact hm
  | stop =>
    simp only [StreamRun.step, Option.ite_none_right_eq_some, Option.some.injEq] at h
    obtain ⟨_, rfl⟩ := h
    exact hmg _ hm
  | disconnect =>
    simp only [StreamRun.step, Option.ite_none_right_eq_some, Option.some.injEq] at h
    obtain ⟨_, rfl⟩ := h; exact hm
  | arrive i =>
    simp only [StreamRun.step, Option.ite_none_right_eq_some, Option.some.injEq] at h
    obtain ⟨_, rfl⟩ := h; exact hm
  | recv =>
    simp only [StreamRun.step, Option.ite_none_right_eq_some, Option.some.injEq] at h
    obtain ⟨_, rfl⟩ := h; exact hm
  | timer =>
    simp only [StreamRun.step, Option.ite_none_right_eq_some, Option.some.injEq] at h
    obtain ⟨_, rfl⟩ := h; exact hm

example : ∃ s, run (init [1]) [.stop] = some s ∧ s.merged = some [[]] := by
  refine ⟨_, rfl, ?_⟩; decide

/-! ### The analysis ends -/

def bulk (s : St) : Nat :=
  (2 * s.slaves.length + 3) * s.inp.length + 2 * sumOf (fun x => x.queue.length) s.slaves + s.cmds

def place : Pc → List Item → Nat
  | .loop _, [] => 2
  | .tail, [] => 1
  | .idle, [] => 0
  | .loop _, _ :: _ => 0
  | .tail, _ :: _ => 2
  | .idle, _ :: _ => 1

def weight (s : St) : Nat := 3 * bulk s + place s.pc s.inp

theorem place_le (p : Pc) (l : List Item) : place p l ≤ 2 := by
  cases p <;> cases l <;> simp [place]

theorem weight_bulk {s s' : St} (h : bulk s' < bulk s) : weight s' < weight s := by
  have h1 := place_le s.pc s.inp
  have h2 := place_le s'.pc s'.inp
  unfold weight
  omega

theorem sum_append_one (i : Item) (l : List Slave) : sumOf (fun x => x.queue.length) (l.map (fun x => x.put i)) =
    sumOf (fun x => x.queue.length) l + l.length := by
  induction l with
  | nil => rfl
  | cons x xs ih =>
    simp only [List.map_cons, sumOf, List.length_cons, Slave.put, List.length_append, List.length_nil] at *
    omega

theorem all_empty {l : List Slave} : (∃ (n : Nat) (x : Slave), l[n]? = some x ∧ x.queue ≠ []) ∨ ∀ x ∈ l, x.queue = [] := by
  by_cases h : ∃ (n : Nat) (x : Slave), l[n]? = some x ∧ x.queue ≠ []
  · exact Or.inl h
  · right
    intro x hx
    obtain ⟨n, hn⟩ := List.mem_iff_getElem?.1 hx
    by_cases hq : x.queue = []
    · exact hq
    · exact absurd ⟨n, x, hn, hq⟩ h

theorem advance {caps : List Nat} (hn : caps ≠ []) (hc : ∀ c ∈ caps, c > 0) {acts : List Act} {s : St} (hi : Inv caps acts s)
    (hl : Live acts s) (ha : Item.eof ∈ arrived acts) (hm : s.merged = none) :
    ∃ a s', a.own = true ∧ step s a = some s' ∧ weight s' < weight s := by
  have hrun : s.running = true ∧ ∀ x ∈ s.slaves, x.running = true := by
    rcases hl with ⟨h, _⟩ | h
    · exact ⟨h.running, fun x hx => (h.slaves x hx).2⟩
    · exact (h.open' hm).2
  rcases all_empty (l := s.slaves) with ⟨n, x, hx, hq⟩ | hq
  · have hxr := hrun.2 x (List.mem_iff_getElem?.2 ⟨n, hx⟩)
    refine ⟨.work n, { s with slaves := upd (fun x => x.next.1) n s.slaves, cmds := if x.next.2 then s.cmds + 1 else s.cmds }, rfl, ?_, ?_⟩
    · unfold StreamRun.step
      dsimp only
      rw [hx]
      dsimp only
      rw [if_pos ⟨hxr, hq⟩]
    · apply weight_bulk
      have hs := sumOf_upd (fun x => x.queue.length) (fun x => x.next.1) s.slaves n x hx
      have hx2 : 2 * x.next.1.queue.length + (if x.next.2 then 1 else 0) < 2 * x.queue.length := by
        unfold Slave.next
        split
        · rename_i e; exact absurd e hq
        · rename_i q e; simp [e]; omega
        · rename_i b q e; simp [e]
      simp only [bulk, upd_length]
      split at hx2 <;> rename_i hb
      · rw [if_pos hb]; omega
      · rw [if_neg hb]; omega
  · have hroom : ∀ x ∈ s.slaves, x.room > 0 := by
      intro x hx
      have : x.cap ∈ caps := by rw [← hi.len]; exact List.mem_map.2 ⟨x, hx, rfl⟩
      have := hc _ this
      simp only [Slave.room, hq x hx, List.length_nil]
      omega
    have hz : sumOf (fun x => x.queue.length) s.slaves = 0 := sumOf_zero (fun x hx => by rw [hq x hx]; rfl)
    cases hpc : s.pc with
    | tail =>
      refine ⟨.check true, check true s, rfl, by simp only [StreamRun.step, hpc, if_pos], ?_⟩
      have hcheck : check true s = { s with pc := .idle } := by
        unfold check
        rcases hl with ⟨_, h⟩ | h
        · rw [if_neg (by rw [h]; simp)]
        · have : generate true s = s := by
            have := h.mode
            unfold generate
            rw [if_pos (by omega)]
          rw [this]; split <;> rfl
      rw [hcheck]
      simp only [weight, bulk, hpc]
      cases s.inp <;> simp [place]
    | loop t =>
      refine ⟨.iter, iter s, rfl, by simp only [StreamRun.step, hpc], ?_⟩
      cases hinp : s.inp with
      | nil =>
        have : iter s = leave s := by unfold iter; rw [hinp]
        rw [this]
        simp only [weight, bulk, leave, hpc, hinp]
        cases t <;> simp [place]
      | cons i inp =>
        have hne : ∃ x, x ∈ s.slaves := by
          cases hsl : s.slaves with
          | nil => have := hi.len; rw [hsl] at this; exact absurd (by simpa using this.symm) hn
          | cons x xs => exact ⟨x, by simp⟩
        rcases hp : pick 0 0 10 0 s.slaves with ⟨k, mx, mn⟩
        have hsp := pick_spec _ _ _ _ _ _ _ _ hp
        have hmn : mn ≠ 0 := hsp.2.2 ⟨by omega, hroom⟩
        have hmx : mx ≠ 0 := by
          rcases hsp.1 with ⟨_, _, e⟩ | ⟨_, _, _, _, _, e, _⟩
          · obtain ⟨x, hx⟩ := hne
            have h1 := e x hx
            have h2 := hroom x hx
            omega
          · omega
        apply weight_bulk
        cases i with
        | data b =>
          obtain ⟨x, hx, _, _⟩ := pick_main hp hmx
          have hit : iter s = { s with inp := inp, totalSize := s.totalSize + b.size, totalEvnts := s.totalEvnts + b.events,
                                       slaves := upd (Slave.put (.data b)) k s.slaves, sent := s.sent ++ [(k, b)] } := by
            unfold iter
            simp only [hinp, hp]
            rw [if_neg hmx]
          rw [hit]
          have hs := sumOf_upd (fun x => x.queue.length) (Slave.put (.data b)) s.slaves k x hx
          simp only [Slave.put, List.length_append, List.length_cons, List.length_nil] at hs
          simp only [bulk, upd_length, hinp, List.length_cons, Nat.mul_add]
          have : sumOf (fun x => x.queue.length) (upd (Slave.put (.data b)) k s.slaves) =
            sumOf (fun x => x.queue.length) (upd (fun x => { x with queue := x.queue ++ [Item.data b] }) k s.slaves) := rfl
          omega
        | eof =>
          have hmode : s.stopMode = -1111 := by
            rcases hl with ⟨h, _⟩ | h
            · exact h.mode
            · rw [h.inp] at hinp; exact absurd hinp (by simp)
          have hall : sendAll .eof s.slaves = s.slaves.map (fun x => x.put .eof) := by
            unfold sendAll
            apply List.map_congr_left
            intro x hx
            rw [if_pos (hroom x hx)]
          have hit : iter s = leave { s with inp := inp, slaves := s.slaves.map (fun x => x.put .eof), stopMode := s.slaves.length } := by
            unfold iter
            simp only [hinp, hp]
            rw [if_neg hmx, if_neg hmn]
            simp only [generate, hmode, hall]
            simp
          rw [hit]
          have h1 := sum_append_one .eof s.slaves
          simp only [bulk, leave, List.length_map, hinp, List.length_cons, Nat.mul_add, h1]
          omega
    | idle =>
      cases hinp : s.inp with
      | cons i inp =>
        refine ⟨.recv, _, rfl, by simp only [StreamRun.step]; rw [if_pos ⟨hpc, hrun.1, by rw [hinp]; simp⟩], ?_⟩
        simp only [weight, bulk, hpc, hinp, place]
        omega
      | nil =>
        rcases hl with ⟨h, _⟩ | h
        · exfalso
          rw [h.arr, hinp] at ha
          simp at ha
        · have h0 : sumOf Slave.eofs s.slaves = 0 := sumOf_zero (fun x hx => by simp [Slave.eofs, hq x hx])
          have hcm : s.cmds > 0 := by have h1 := h.mode; have h2 := (h.open' hm).1; omega
          refine ⟨.finished, _, rfl, by simp only [StreamRun.step]; rw [if_pos ⟨hpc, hcm⟩], ?_⟩
          apply weight_bulk
          unfold finished
          dsimp only
          split
          · simp only [merge, hm]
            simp only [Option.isSome_none, Bool.false_eq_true, if_false, bulk, List.length_map, sumOf_map]
            omega
          · simp only [bulk]; omega

theorem own_arrived {a : Act} (h : a.own = true) : arrived [a] = [] := by
  cases a <;> simp_all [Act.own, arrived]

/-- Under the same conditions, when the end mark was delivered and the queues have places at all, the modules can always reach the end by
their own steps: nothing has to come from outside. -/
theorem C112_progress_partial (caps : List Nat) (hn : caps ≠ []) (hc : ∀ c ∈ caps, c > 0) (acts : List Act) (s : St)
    (h : run (init caps) acts = some s) (he : EndsWithEof (arrived acts)) (hs : Act.stop ∉ acts) (hd : EndTakenFirst caps acts)
    (ha : Item.eof ∈ arrived acts) :
    ∃ more s', (∀ a ∈ more, a.own = true) ∧ run s more = some s' ∧ s'.merged.isSome = true := by
  have hl := live_run hn h he hs hd
  have hi := inv_run h
  clear h hs hd
  generalize hw : weight s = w
  induction w using Nat.strongRecOn generalizing s acts with
  | ind w ih =>
    cases hm : s.merged with
    | some m => exact ⟨[], s, by simp, rfl, by rw [hm]; rfl⟩
    | none =>
      obtain ⟨a, s1, ho, hst, hlt⟩ := advance hn hc hi hl ha hm
      have harr : arrived (acts ++ [a]) = arrived acts := by rw [arrived_append, own_arrived ho, List.append_nil]
      have hne : a ≠ .stop := by intro e; rw [e] at ho; simp [Act.own] at ho
      have hnd : a ≠ .disconnect := by intro e; rw [e] at ho; simp [Act.own] at ho
      have hsl : s.slaves ≠ [] := by
        have := hi.len
        intro e; rw [e] at this; exact hn (by simpa using this.symm)
      have hl' : Live (acts ++ [a]) s1 := by
        rcases hl with ⟨h1, h2⟩ | h1
        · rcases h1.step h2 hsl (by rw [harr]; exact he) hst hne with h3 | h3
          · exact Or.inl ⟨h3, by rw [conn_step hst hnd]; exact h2⟩
          · exact Or.inr h3
        · exact Or.inr (h1.step (by rw [harr]; exact he) hst hne)
      obtain ⟨more, s', h1, h2, h3⟩ := ih (weight s1) (by omega) (acts ++ [a]) s1 (by rw [harr]; exact he) (by rw [harr]; exact ha)
        hl' (hi.step hst) rfl
      refine ⟨a :: more, s', ?_, ?_, h3⟩
      · intro b hb
        rcases List.mem_cons.1 hb with e | e
        · rw [e]; exact ho
        · exact h1 b e
      · simp only [run, hst, Option.bind_some]; exact h2

example : ∃ s, run (init [1, 1]) [.arrive (.data ⟨10, 3, 3⟩), .arrive .eof] = some s ∧
    EndsWithEof (arrived [.arrive (.data ⟨10, 3, 3⟩), .arrive .eof]) ∧ EndTakenFirst [1, 1] [.arrive (.data ⟨10, 3, 3⟩), .arrive .eof] := by
  refine ⟨_, rfl, ⟨[⟨10, 3, 3⟩], Or.inr rfl⟩, ?_⟩
  intro p q e
  have : Act.disconnect ∈ [Act.arrive (.data ⟨10, 3, 3⟩), .arrive .eof] := by rw [e]; simp
  exact absurd this (by decide)

/-! ### What goes wrong -/

/-- Fewer end marks than are waited for. -/
def Stuck (s : St) : Prop := s.stopMode > s.cmds + sumOf Slave.eofs s.slaves ∧ s.merged = none

theorem eofs_next (x : Slave) : x.next.1.eofs + (if x.next.2 then 1 else 0) = x.eofs := by
  unfold Slave.next
  split
  · simp
  · rename_i q e; simp [Slave.eofs, e]
  · rename_i b q e; simp [Slave.eofs, e]

theorem Stuck.step {s s' : St} {a : Act} (h : Stuck s) (hs : step s a = some s') (ha : a ≠ .stop) : Stuck s' := by
  obtain ⟨h1, h2⟩ := h
  have hg : ∀ (b : Bool) (t : St), t.stopMode ≥ 0 → generate b t = t := by
    intro b t ht
    unfold generate
    rw [if_pos (by omega)]
  cases a with
  | stop => exact absurd rfl ha
  | iter =>
    unfold StreamRun.step at hs
    dsimp only at hs
    split at hs
    · obtain rfl := Option.some.inj hs
      rcases iter_cases s with e | ⟨inp, e1, e2, e⟩ | ⟨b', inp, k', x, e1, e2, e3, e4, e⟩
      · rw [e]; exact ⟨h1, h2⟩
      · rw [e, hg _ _ (by show s.stopMode ≥ 0; omega)]; exact ⟨h1, h2⟩
      · rw [e]
        refine ⟨?_, h2⟩
        have := sumOf_upd Slave.eofs (Slave.put (.data b')) s.slaves k' x e2
        have hx : (Slave.put (.data b') x).eofs = x.eofs := by simp [Slave.eofs, Slave.put]
        show s.stopMode > s.cmds + sumOf Slave.eofs (upd _ k' s.slaves)
        omega
    · exact absurd hs (by simp)
  | check b =>
    simp only [StreamRun.step, Option.ite_none_right_eq_some, Option.some.injEq] at hs
    obtain ⟨_, rfl⟩ := hs
    have : check b s = { s with pc := .idle } := by
      unfold check
      rw [hg _ _ (by omega)]
      split <;> rfl
    rw [this]; exact ⟨h1, h2⟩
  | work n =>
    unfold StreamRun.step at hs
    dsimp only at hs
    split at hs
    · exact absurd hs (by simp)
    · rename_i x hx
      split at hs
      · obtain rfl := Option.some.inj hs
        refine ⟨?_, h2⟩
        have hs := sumOf_upd Slave.eofs (fun x => x.next.1) s.slaves n x hx
        have hx := eofs_next x
        show s.stopMode > ((if x.next.2 = true then s.cmds + 1 else s.cmds : Nat) : Int) + _
        dsimp only at hs ⊢
        split at hx <;> rename_i hb
        · rw [if_pos hb]; omega
        · rw [if_neg hb]; omega
      · exact absurd hs (by simp)
  | finished =>
    simp only [StreamRun.step, Option.ite_none_right_eq_some, Option.some.injEq] at hs
    obtain ⟨hc, rfl⟩ := hs
    unfold finished
    dsimp only
    rw [if_neg (by omega)]
    refine ⟨?_, h2⟩
    show s.stopMode - 1 > ((s.cmds - 1 : Nat) : Int) + sumOf Slave.eofs s.slaves
    omega
  | disconnect =>
    simp only [StreamRun.step, Option.ite_none_right_eq_some, Option.some.injEq] at hs
    obtain ⟨_, rfl⟩ := hs; exact ⟨h1, h2⟩
  | arrive i =>
    simp only [StreamRun.step, Option.ite_none_right_eq_some, Option.some.injEq] at hs
    obtain ⟨_, rfl⟩ := hs; exact ⟨h1, h2⟩
  | recv =>
    simp only [StreamRun.step, Option.ite_none_right_eq_some, Option.some.injEq] at hs
    obtain ⟨_, rfl⟩ := hs; exact ⟨h1, h2⟩
  | timer =>
    simp only [StreamRun.step, Option.ite_none_right_eq_some, Option.some.injEq] at hs
    obtain ⟨_, rfl⟩ := hs; exact ⟨h1, h2⟩

/-- The usual end of a file: data, the end mark, then the input is closed.  When the queues are full at that moment and the timer fires,
the main module makes the end mark on its own, sends it to nobody, and later drops the one which was delivered: the histograms are never
summed up, whatever happens, until the application stops the module. -/
theorem C112_lost_end_counterexample (buf : Bool) : ∃ acts s, run (init [1, 1]) acts = some s ∧ EndsWithEof (arrived acts) ∧
    Item.eof ∈ arrived acts ∧ Act.stop ∉ acts ∧
    ∀ more s', Act.stop ∉ more → run s more = some s' → s'.merged = none := by
  refine ⟨[.arrive (.data ⟨10, 3, 3⟩), .arrive (.data ⟨20, 1, 1⟩), .arrive .eof, .disconnect, .timer, .iter, .iter, .iter, .check buf], _,
    rfl, ⟨[⟨10, 3, 3⟩, ⟨20, 1, 1⟩], Or.inr rfl⟩, by cases buf <;> decide, by cases buf <;> decide, ?_⟩
  intro more s' hm hr
  have h0 : ∀ t : St, Stuck t → run t more = some s' → Act.stop ∉ more → Stuck s' := by
    clear hr hm
    induction more with
    | nil => intro t ht hr _; simp only [run, Option.some.injEq] at hr; rw [← hr]; exact ht
    | cons a as ih =>
      intro t ht hr hm
      simp only [run, Option.bind_eq_some_iff] at hr
      obtain ⟨t', h1, h2⟩ := hr
      exact ih t' (ht.step h1 (fun e => hm (by simp [e]))) h2 (fun e => hm (by simp [e]))
  refine (h0 _ ?_ hr hm).2
  cases buf <;> exact ⟨by decide, by decide⟩

/-- The connection is lost while data wait in the input: the end mark made by the timer may overtake them, and then the histograms are
summed up without these data. -/
theorem C112_overtaken_counterexample : ∃ acts s, run (init [1, 1]) acts = some s ∧ Act.stop ∉ acts ∧
    dataOf (arrived acts) = [⟨10, 3, 3⟩, ⟨20, 1, 1⟩, ⟨30, 2, 2⟩] ∧ s.merged = some [[⟨10, 3, 3⟩], [⟨20, 1, 1⟩]] := by
  refine ⟨[.arrive (.data ⟨10, 3, 3⟩), .arrive (.data ⟨20, 1, 1⟩), .arrive (.data ⟨30, 2, 2⟩), .recv, .iter, .iter, .iter, .disconnect,
    .timer, .iter, .work 0, .work 1, .check true, .work 0, .work 1, .recv, .iter, .iter, .finished, .finished], _, rfl, by decide, by decide,
    by decide⟩

/-- The application stops the module: the histograms are summed up without the data still in the queues. -/
theorem C112_stop_counterexample : ∃ acts s, run (init [1]) acts = some s ∧ s.sent ≠ [] ∧ s.merged = some [[]] := by
  refine ⟨[.arrive (.data ⟨10, 3, 3⟩), .recv, .iter, .iter, .stop], _, rfl, by decide, by decide⟩

end Verif.StreamRun
