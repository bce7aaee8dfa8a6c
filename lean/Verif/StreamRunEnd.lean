import Verif.StreamRunInv
/-!
# The end of the data in the parallel analysis
-/

namespace Verif.StreamRun

/-- Number of end marks in the queue. -/
def Slave.eofs (x : Slave) : Nat := x.queue.count .eof

theorem data_no_eof (d : List Buf) : Item.eof ∉ d.map Item.data := by
  induction d with
  | nil => simp
  | cons b d ih => simp

theorem ends_prefix {l : List Item} {i : Item} (h : EndsWithEof (l ++ [i])) : ∃ d : List Buf, l = d.map Item.data := by
  obtain ⟨d, h | h⟩ := h
  · rcases List.eq_nil_or_concat d with e | ⟨d', b, e⟩
    · subst e; simp at h
    · subst e
      rw [List.concat_eq_append, List.map_append] at h
      exact ⟨d', (List.append_inj' h rfl).1⟩
  · exact ⟨d, (List.append_inj' h rfl).1⟩

/-- Data and one end mark. -/
def Closed (q : List Item) : Prop := ∃ d : List Buf, q = d.map Item.data ++ [Item.eof]

structure Before (acts : List Act) (s : St) : Prop where
  mode : s.stopMode = -1111
  cmds : s.cmds = 0
  merged : s.merged = none
  slaves : ∀ x ∈ s.slaves, Item.eof ∉ x.queue ∧ x.running = true
  running : s.running = true
  arr : arrived acts = s.sent.map (fun p => Item.data p.2) ++ s.inp

structure After (acts : List Act) (s : St) : Prop where
  mode : s.stopMode = s.cmds + sumOf Slave.eofs s.slaves
  queues : ∀ x ∈ s.slaves, Closed x.queue ∨ x.queue = []
  inp : s.inp = []
  arr : arrived acts = s.sent.map (fun p => Item.data p.2) ++ [Item.eof]
  open' : s.merged = none → s.stopMode > 0 ∧ s.running = true ∧ ∀ x ∈ s.slaves, x.running = true
  merged : ∀ m, s.merged = some m → s.stopMode = 0 ∧ m = s.slaves.map (·.done)

theorem after_same {acts : List Act} {a : Act} {s s' : St} (h : After acts s) (ha : arrived [a] = []) (h1 : s'.stopMode = s.stopMode)
    (h2 : s'.cmds = s.cmds) (h3 : s'.slaves = s.slaves) (h4 : s'.inp = s.inp) (h5 : s'.sent = s.sent) (h6 : s'.merged = s.merged)
    (h7 : s'.running = s.running) : After (acts ++ [a]) s' := by
  constructor
  · rw [h1, h2, h3]; exact h.mode
  · rw [h3]; exact h.queues
  · rw [h4]; exact h.inp
  · rw [arrived_append, ha, List.append_nil, h5]; exact h.arr
  · rw [h6, h1, h7, h3]; exact h.open'
  · rw [h6, h1, h3]; exact h.merged

theorem before_same {acts : List Act} {a : Act} {s s' : St} (h : Before acts s) (ha : arrived [a] = []) (h1 : s'.stopMode = s.stopMode)
    (h2 : s'.cmds = s.cmds) (h3 : s'.slaves = s.slaves) (h4 : s'.inp = s.inp) (h5 : s'.sent = s.sent) (h6 : s'.merged = s.merged)
    (h7 : s'.running = s.running) : Before (acts ++ [a]) s' := by
  constructor
  · rw [h1]; exact h.mode
  · rw [h2]; exact h.cmds
  · rw [h6]; exact h.merged
  · rw [h3]; exact h.slaves
  · rw [h7]; exact h.running
  · rw [arrived_append, ha, List.append_nil, h4, h5]; exact h.arr

theorem queue_is_data {q : List Item} (h : Item.eof ∉ q) : ∃ d : List Buf, q = d.map Item.data := by
  induction q with
  | nil => exact ⟨[], rfl⟩
  | cons i q ih =>
    simp only [List.mem_cons, not_or] at h
    obtain ⟨d, rfl⟩ := ih h.2
    cases i with
    | eof => exact absurd rfl h.1
    | data b => exact ⟨b :: d, rfl⟩

theorem leave_eq (s : St) : ∃ p, leave s = { s with pc := p } := ⟨_, rfl⟩

theorem before_init (caps : List Nat) : Before [] (init caps) where
  mode := rfl
  cmds := rfl
  merged := rfl
  slaves := by simp [init]
  running := rfl
  arr := rfl

/-- Until the end mark is taken, with the input connected. -/
theorem Before.step {acts : List Act} {s s' : St} {a : Act} (h : Before acts s) (hc : s.conn = true) (hn : s.slaves ≠ [])
    (he : EndsWithEof (arrived (acts ++ [a]))) (hs : step s a = some s') (ha : a ≠ .stop) :
    Before (acts ++ [a]) s' ∨ After (acts ++ [a]) s' := by
  cases a with
  | arrive i =>
    simp only [StreamRun.step, Option.ite_none_right_eq_some, Option.some.injEq] at hs
    obtain ⟨_, rfl⟩ := hs
    left
    refine ⟨h.mode, h.cmds, h.merged, h.slaves, h.running, ?_⟩
    rw [arrived_append, h.arr]; simp [arrived]
  | disconnect =>
    simp only [StreamRun.step, Option.ite_none_right_eq_some, Option.some.injEq] at hs
    obtain ⟨_, rfl⟩ := hs
    exact Or.inl (before_same h rfl rfl rfl rfl rfl rfl rfl rfl)
  | recv =>
    simp only [StreamRun.step, Option.ite_none_right_eq_some, Option.some.injEq] at hs
    obtain ⟨_, rfl⟩ := hs
    exact Or.inl (before_same h rfl rfl rfl rfl rfl rfl rfl rfl)
  | timer =>
    simp only [StreamRun.step, Option.ite_none_right_eq_some, Option.some.injEq] at hs
    obtain ⟨_, rfl⟩ := hs
    exact Or.inl (before_same h rfl rfl rfl rfl rfl rfl rfl rfl)
  | check buf =>
    simp only [StreamRun.step, Option.ite_none_right_eq_some, Option.some.injEq] at hs
    obtain ⟨_, rfl⟩ := hs
    have : ¬ (s.totalEvnts > 0 ∧ s.conn = false) := by rw [hc]; simp
    simp only [check, if_neg this]
    exact Or.inl (before_same h rfl rfl rfl rfl rfl rfl rfl rfl)
  | iter =>
    have hs : iter s = s' := by
      unfold StreamRun.step at hs
      dsimp only at hs
      split at hs
      · exact Option.some.inj hs
      · exact absurd hs (by simp)
    rw [← hs]
    rcases iter_cases s with e | ⟨inp, e1, e2, e⟩ | ⟨b, inp, k, x, e1, e2, e3, _, e⟩
    · rw [e]; exact Or.inl (before_same h rfl rfl rfl rfl rfl rfl rfl rfl)
    · right
      have harr := h.arr
      rw [e1] at harr
      have hinp : inp = [] := by
        rcases List.eq_nil_or_concat inp with e | ⟨l, i, e⟩
        · exact e
        · exfalso
          rw [List.concat_eq_append] at e
          subst e
          rw [arrived_append, harr] at he
          simp only [arrived, List.append_nil] at he
          rw [← List.cons_append, ← List.append_assoc] at he
          obtain ⟨d, hd⟩ := ends_prefix he
          have := data_no_eof d
          rw [← hd] at this
          simp at this
      subst hinp
      have hgen : iter s = leave { s with inp := [], slaves := sendAll .eof s.slaves, stopMode := s.slaves.length } := by
        rw [e]
        simp only [generate, h.mode]
        simp
      rw [hgen]
      have hall : ∀ y ∈ sendAll .eof s.slaves, ∃ x ∈ s.slaves, y = x.put .eof := by
        intro y hy
        simp only [sendAll, List.mem_map] at hy
        obtain ⟨x, hx, rfl⟩ := hy
        exact ⟨x, hx, by rw [if_pos (e2 x hx)]⟩
      have hlen : (sendAll .eof s.slaves).length = s.slaves.length := by simp [sendAll]
      have hone : sumOf Slave.eofs (sendAll .eof s.slaves) = s.slaves.length := by
        rw [sumOf_one, hlen]
        intro y hy
        obtain ⟨x, hx, rfl⟩ := hall y hy
        have := (h.slaves x hx).1
        simp [Slave.eofs, Slave.put, List.count_eq_zero_of_not_mem this]
      refine ⟨?_, ?_, rfl, ?_, ?_, ?_⟩
      · show (s.slaves.length : Int) = s.cmds + sumOf Slave.eofs (sendAll .eof s.slaves)
        rw [hone, h.cmds]; simp
      · intro y hy
        obtain ⟨x, hx, rfl⟩ := hall y hy
        obtain ⟨d, hd⟩ := queue_is_data (h.slaves x hx).1
        exact Or.inl ⟨d, by simp [Slave.put, hd]⟩
      · rw [arrived_append, harr]; simp [arrived, leave]
      · intro _
        refine ⟨?_, h.running, ?_⟩
        · show (s.slaves.length : Int) > 0
          have := List.length_pos_iff.2 hn
          omega
        · intro y hy
          obtain ⟨x, hx, rfl⟩ := hall y hy
          exact (h.slaves x hx).2
      · intro m hm
        have : s.merged = some m := hm
        rw [h.merged] at this
        exact absurd this (by simp)
    · rw [e]
      left
      refine ⟨h.mode, h.cmds, h.merged, ?_, h.running, ?_⟩
      · intro y hy
        rcases mem_upd hy with h1 | ⟨z, hz, rfl⟩
        · exact h.slaves y h1
        · have := h.slaves z (List.mem_iff_getElem?.2 ⟨k, hz⟩)
          refine ⟨?_, this.2⟩
          simp [Slave.put, this.1]
      · rw [arrived_append, h.arr, e1]; simp [arrived]
  | work n =>
    unfold StreamRun.step at hs
    dsimp only at hs
    split at hs
    · exact absurd hs (by simp)
    · rename_i x hx
      split at hs
      · rename_i hq
        obtain rfl := Option.some.inj hs
        left
        have hm := h.slaves x (List.mem_iff_getElem?.2 ⟨n, hx⟩)
        have hnext : x.next.2 = false ∧ Item.eof ∉ x.next.1.queue ∧ x.next.1.running = x.running := by
          unfold Slave.next
          split
          · exact ⟨rfl, hm.1, rfl⟩
          · rename_i q hq'; rw [hq'] at hm; simp at hm
          · rename_i b q hq'
            refine ⟨rfl, ?_, rfl⟩
            have := hm.1
            rw [hq'] at this
            simp at this
            exact this
        refine ⟨h.mode, ?_, h.merged, ?_, h.running, ?_⟩
        · show (if x.next.2 = true then _ else _) = _
          rw [hnext.1]; exact h.cmds
        · intro y hy
          rcases mem_upd hy with h1 | ⟨z, hz, rfl⟩
          · exact h.slaves y h1
          · rw [hx] at hz; obtain rfl := Option.some.inj hz
            exact ⟨hnext.2.1, by rw [hnext.2.2]; exact hm.2⟩
        · rw [arrived_append, h.arr]; simp [arrived]
      · exact absurd hs (by simp)
  | finished =>
    simp only [StreamRun.step, Option.ite_none_right_eq_some, Option.some.injEq, h.cmds] at hs
    exact absurd hs.1.2 (by simp)
  | stop => exact absurd rfl ha

theorem next_closed {x : Slave} (hq : Closed x.queue) : (Closed x.next.1.queue ∨ x.next.1.queue = []) ∧
    x.next.1.eofs + (if x.next.2 then 1 else 0) = x.eofs ∧ x.next.1.running = x.running := by
  obtain ⟨d, hd⟩ := hq
  unfold Slave.next
  cases d with
  | nil =>
    simp only [List.map_nil, List.nil_append] at hd
    simp only [hd]
    simp [Slave.eofs, hd]
  | cons b d =>
    simp only [List.map_cons, List.cons_append] at hd
    simp only [hd]
    exact ⟨Or.inl ⟨d, rfl⟩, by simp [Slave.eofs, hd], trivial⟩

/-- After the end mark is taken. -/
theorem After.step {acts : List Act} {s s' : St} {a : Act} (h : After acts s)
    (he : EndsWithEof (arrived (acts ++ [a]))) (hs : step s a = some s') (ha : a ≠ .stop) : After (acts ++ [a]) s' := by
  cases a with
  | arrive i =>
    exfalso
    rw [arrived_append] at he
    obtain ⟨d, hd⟩ := ends_prefix he
    have := data_no_eof d
    rw [← hd, h.arr] at this
    simp at this
  | disconnect =>
    simp only [StreamRun.step, Option.ite_none_right_eq_some, Option.some.injEq] at hs
    obtain ⟨_, rfl⟩ := hs
    exact after_same h rfl rfl rfl rfl rfl rfl rfl rfl
  | recv =>
    simp only [StreamRun.step, Option.ite_none_right_eq_some, Option.some.injEq] at hs
    obtain ⟨_, rfl⟩ := hs
    exact after_same h rfl rfl rfl rfl rfl rfl rfl rfl
  | timer =>
    simp only [StreamRun.step, Option.ite_none_right_eq_some, Option.some.injEq] at hs
    obtain ⟨_, rfl⟩ := hs
    exact after_same h rfl rfl rfl rfl rfl rfl rfl rfl
  | check buf =>
    simp only [StreamRun.step, Option.ite_none_right_eq_some, Option.some.injEq] at hs
    obtain ⟨_, rfl⟩ := hs
    have hg : generate buf s = s := by
      have := h.mode
      unfold generate
      rw [if_pos (by omega)]
    have : check buf s = { s with pc := .idle } := by
      unfold check
      rw [hg]
      split <;> rfl
    rw [this]
    exact after_same h rfl rfl rfl rfl rfl rfl rfl rfl
  | iter =>
    have hs : iter s = s' := by
      unfold StreamRun.step at hs
      dsimp only at hs
      split at hs
      · exact Option.some.inj hs
      · exact absurd hs (by simp)
    rw [← hs]
    rcases iter_cases s with e | ⟨inp, e1, e2, e⟩ | ⟨b, inp, k, x, e1, e2, e3, _, e⟩
    · rw [e]; exact after_same h rfl rfl rfl rfl rfl rfl rfl rfl
    · rw [h.inp] at e1; exact absurd e1 (by simp)
    · rw [h.inp] at e1; exact absurd e1 (by simp)
  | work n =>
    unfold StreamRun.step at hs
    dsimp only at hs
    split at hs
    · exact absurd hs (by simp)
    · rename_i x hx
      split at hs
      · rename_i hq
        obtain rfl := Option.some.inj hs
        have hmem := List.mem_iff_getElem?.2 ⟨n, hx⟩
        have hcl : Closed x.queue := (h.queues x hmem).resolve_right hq.2
        obtain ⟨h1, h2, h3⟩ := next_closed hcl
        have hsum := sumOf_upd Slave.eofs (fun x => x.next.1) s.slaves n x hx
        have hmode := h.mode
        have hnone : s.merged = none := by
          cases hm : s.merged with
          | none => rfl
          | some m =>
            exfalso
            have := (h.merged m hm).1
            have : sumOf Slave.eofs s.slaves = 0 := by omega
            have := sumOf_pos this x hmem
            obtain ⟨d, hd⟩ := hcl
            simp [Slave.eofs, hd] at this
        refine ⟨?_, ?_, h.inp, ?_, ?_, ?_⟩
        · show s.stopMode = ((if x.next.2 = true then s.cmds + 1 else s.cmds : Nat) : Int) + _
          dsimp only at hsum ⊢
          split at h2 <;> rename_i hb
          · rw [if_pos hb]; omega
          · rw [if_neg hb]; omega
        · intro y hy
          rcases mem_upd hy with e | ⟨z, hz, rfl⟩
          · exact h.queues y e
          · rw [hx] at hz; obtain rfl := Option.some.inj hz
            exact h1
        · rw [arrived_append, h.arr]; simp [arrived]
        · intro _
          obtain ⟨o1, o2, o3⟩ := h.open' hnone
          refine ⟨o1, o2, ?_⟩
          intro y hy
          rcases mem_upd hy with e | ⟨z, hz, rfl⟩
          · exact o3 y e
          · rw [hx] at hz; obtain rfl := Option.some.inj hz
            rw [h3]; exact o3 x hmem
        · intro m hm
          have : s.merged = some m := hm
          rw [hnone] at this
          exact absurd this (by simp)
      · exact absurd hs (by simp)
  | finished =>
    simp only [StreamRun.step, Option.ite_none_right_eq_some, Option.some.injEq] at hs
    obtain ⟨hc, rfl⟩ := hs
    have hmode := h.mode
    have hnone : s.merged = none := by
      cases hm : s.merged with
      | none => rfl
      | some m => have := (h.merged m hm).1; omega
    obtain ⟨o1, o2, o3⟩ := h.open' hnone
    unfold finished
    dsimp only
    split
    · rename_i hz
      have h0 : sumOf Slave.eofs s.slaves = 0 := by omega
      have hmg : merge { s with cmds := s.cmds - 1, stopMode := s.stopMode - 1 } =
          { s with cmds := s.cmds - 1, stopMode := s.stopMode - 1, merged := some (s.slaves.map (·.done)),
                   slaves := s.slaves.map (fun x => { x with running := false }) } := by
        unfold merge
        simp [hnone]
      rw [hmg]
      refine ⟨?_, ?_, h.inp, ?_, ?_, ?_⟩
      · show s.stopMode - 1 = ((s.cmds - 1 : Nat) : Int) + sumOf Slave.eofs (s.slaves.map _)
        rw [sumOf_map]
        have : sumOf (fun x => Slave.eofs { x with running := false }) s.slaves = sumOf Slave.eofs s.slaves := rfl
        rw [this]; omega
      · intro y hy
        simp only [List.mem_map] at hy
        obtain ⟨x, hx, rfl⟩ := hy
        exact h.queues x hx
      · rw [arrived_append, h.arr]; simp [arrived]
      · intro hm; exact absurd hm (by simp)
      · intro m hm
        simp only [Option.some.injEq] at hm
        refine ⟨hz, ?_⟩
        rw [← hm]; simp [Function.comp_def]
    · rename_i hz
      refine ⟨?_, h.queues, h.inp, ?_, ?_, ?_⟩
      · show s.stopMode - 1 = ((s.cmds - 1 : Nat) : Int) + sumOf Slave.eofs s.slaves
        omega
      · rw [arrived_append, h.arr]; simp [arrived]
      · intro _
        exact ⟨by show s.stopMode - 1 > 0; omega, o2, o3⟩
      · intro m hm
        have : s.merged = some m := hm
        rw [hnone] at this
        exact absurd this (by simp)
  | stop => exact absurd rfl ha

end Verif.StreamRun
