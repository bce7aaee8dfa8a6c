import Verif.Spec.Profiler
/-! # C126: the profiler accounts time of each section once -/

namespace Verif.Profiler
open Verif.Bytes

theorem setName_length (l : List Entry) (n : Nat) (o : Option (List Byte)) :
    (setName l n o).length = l.length := by
  unfold setName
  split <;> simp

theorem setName_sum (l : List Entry) (n : Nat) (o : Option (List Byte)) (k : Nat) :
    ((setName l n o)[k]?).map Entry.sum = (l[k]?).map Entry.sum := by
  unfold setName
  split
  · rfl
  · rw [List.getElem?_modify]
    cases l[k]? with
    | none => rfl
    | some e =>
      by_cases hk : n = k
      · by_cases he : e.name = [] <;> simp [hk, he]
      · simp [hk]

/-- The slots stay. -/
theorem next_length (p : Prof) (g : Guard) (c : Call) :
    (next p g c.name c.lvl c.now).1.entries.length = p.entries.length ∧
    (next p g c.name c.lvl c.now).1.active = p.active ∧
    (next p g c.name c.lvl c.now).1.last = p.last := by
  unfold next
  split
  · exact ⟨rfl, rfl, rfl⟩
  · simp [setName_length]

theorem next_sum {p : Prof} (ha : p.active = true) {g : Guard} (hg : g.cnt < p.entries.length)
    (c : Call) (k : Nat) :
    ((next p g c.name c.lvl c.now).1.entries[k]?).map Entry.sum
      = (p.entries[k]?).map fun e => e.sum + (if g.cnt = k then c.now - g.last else 0) := by
  unfold next
  rw [if_neg (by simp [ha]; omega)]
  simp only [setName_sum, List.getElem?_modify]
  cases p.entries[k]? with
  | none => rfl
  | some e =>
    by_cases hk : g.cnt = k <;> simp [hk]

theorem next_guard {p : Prof} (ha : p.active = true) {g : Guard} (hg : g.cnt < p.entries.length)
    (c : Call) : (next p g c.name c.lvl c.now).2
      = ⟨if c.lvl = 0 then g.cnt + 1 else c.lvl, c.now⟩ := by
  unfold next
  rw [if_neg (by simp [ha]; omega)]
  by_cases h : c.lvl = 0 <;> simp [h]

theorem next_out {p : Prof} {g : Guard} (hg : p.entries.length ≤ g.cnt) (c : Call) :
    next p g c.name c.lvl c.now = (p, g) := by
  unfold next
  rw [if_pos (by simp [hg])]

theorem nexts_out {p : Prof} {g : Guard} (hg : p.entries.length ≤ g.cnt) :
    ∀ l : List Call, nexts p g l = (p, g)
  | [] => rfl
  | c :: l => by rw [nexts, next_out hg]; exact nexts_out hg l

theorem nexts_sum : ∀ (l : List Call) {p : Prof} {g : Guard} {ps : List (Nat × Clk)} {e : Clk},
    p.active = true → Periods p.entries.length g.cnt g.last l ps e → ∀ k,
    ((nexts p g l).1.entries[k]?).map Entry.sum
      = (p.entries[k]?).map fun x => x.sum + timeIn k ps
  | [], p, g, ps, e, _, h, k => by
    have : ps = [] := by cases h <;> rfl
    subst this
    simp [nexts, timeIn]
  | c :: l, p, g, ps, e, ha, h, k => by
    have hl := next_length p g c
    have key : ∀ ps', g.cnt < p.entries.length →
        Periods p.entries.length (if c.lvl = 0 then g.cnt + 1 else c.lvl) c.now l ps' e →
        ((nexts p g (c :: l)).1.entries[k]?).map Entry.sum
          = (p.entries[k]?).map fun x => x.sum + timeIn k ((g.cnt, c.now - g.last) :: ps') := by
      intro ps' hg hp
      rw [nexts]
      have hgd := next_guard ha hg c
      have ih := nexts_sum l (p := (next p g c.name c.lvl c.now).1)
        (g := (next p g c.name c.lvl c.now).2) (ps := ps') (e := e) (by rw [hl.2.1]; exact ha)
        (by rw [hl.1, hgd]; exact hp) k
      rw [ih]
      have hs := next_sum ha hg c k
      cases h1 : (next p g c.name c.lvl c.now).1.entries[k]? with
      | none =>
        rw [h1] at hs
        cases h2 : p.entries[k]? with
        | none => rfl
        | some x => rw [h2] at hs; cases hs
      | some y =>
        rw [h1] at hs
        cases h2 : p.entries[k]? with
        | none => rw [h2] at hs; cases hs
        | some x =>
          rw [h2] at hs
          simp only [Option.map_some, Option.some.injEq] at hs ⊢
          rw [hs]
          simp only [timeIn, List.foldr_cons]
          split
          · rw [BitVec.add_assoc]
          · exact congrArg (· + _) (BitVec.add_zero x.sum)
    cases h with
    | out hg =>
      rw [nexts_out hg]
      simp [timeIn]
    | next hg hz hp => exact key _ hg (by rw [if_pos hz]; exact hp)
    | jump hg hz hp => exact key _ hg (by rw [if_neg hz]; exact hp)

theorem open_eq {p : Prof} (ha : p.active = true) {name : Option (List Byte)} {lvl : Nat} {now : Clk}
    (hl : lvl < p.entries.length) : openGuard p name lvl now
      = ({ p with entries := setName p.entries lvl name }, ⟨lvl, now⟩) := by
  unfold openGuard
  rw [if_neg (by simp [ha]; omega)]

/-- Every slot gets exactly the time of the periods which the guard spent in it. -/
theorem C126_slots {p : Prof} (ha : p.active = true) {name : Option (List Byte)} {lvl : Nat}
    {now : Clk} (hl : lvl < p.entries.length) {l : List Call} {ps : List (Nat × Clk)} {e : Clk}
    (h : Periods p.entries.length lvl now l ps e) (k : Nat) :
    ((guarded p name lvl now l).entries[k]?).map Entry.sum
      = (p.entries[k]?).map fun x => x.sum + timeIn k ps := by
  unfold guarded
  rw [open_eq ha hl]
  have := nexts_sum l (p := { p with entries := setName p.entries lvl name }) (g := ⟨lvl, now⟩)
    (ps := ps) (e := e) ha (by rw [setName_length]; exact h) k
  rw [this]
  have hs := setName_sum p.entries lvl name k
  show Option.map _ (setName p.entries lvl name)[k]? = _
  have e2 : ∀ o : Option Entry, o.map (fun x => x.sum + timeIn k ps)
      = (o.map Entry.sum).map (· + timeIn k ps) := fun o => by cases o <;> rfl
  rw [e2, hs, ← e2]

/-- Every sequence of calls has such periods, and they sum up to the time from the begin of the
guard to the end of the account: nothing is counted twice or left out in between. -/
theorem C126_total (size : Nat) : ∀ (l : List Call) (n : Nat) (t : Clk),
    ∃ ps e, Periods size n t l ps e ∧ total ps = e - t
  | [], n, t => ⟨[], t, .nil, by simp [total]⟩
  | c :: l, n, t => by
    by_cases hn : size ≤ n
    · exact ⟨[], t, .out hn, by simp [total]⟩
    · have arith : ∀ e : Clk, c.now - t + (e - c.now) = e - t := by
        intro e
        rw [BitVec.sub_eq_add_neg, BitVec.sub_eq_add_neg, BitVec.sub_eq_add_neg]
        have : c.now + -t + (e + -c.now) = (e + -t) + (c.now + -c.now) := by ac_rfl
        rw [this, ← BitVec.sub_eq_add_neg c.now, BitVec.sub_self, BitVec.add_zero]
      by_cases hz : c.lvl = 0
      · obtain ⟨ps, e, h1, h2⟩ := C126_total size l (n + 1) c.now
        refine ⟨_, e, .next (by omega) hz h1, ?_⟩
        show c.now - t + total ps = _
        rw [h2, arith]
      · obtain ⟨ps, e, h1, h2⟩ := C126_total size l c.lvl c.now
        refine ⟨_, e, .jump (by omega) hz h1, ?_⟩
        show c.now - t + total ps = _
        rw [h2, arith]

theorem foldr_sum_eq (l : List Entry) :
    l.foldr (fun e s => e.sum + s) (0 : Clk) = (l.map Entry.sum).foldr (· + ·) 0 := by
  rw [List.foldr_map]

theorem foldr_modify (d : Clk) : ∀ (l : List Entry) (n : Nat), n < l.length →
    (l.modify n fun e => { e with sum := e.sum + d }).foldr (fun e s => e.sum + s) (0 : Clk)
      = l.foldr (fun e s => e.sum + s) 0 + d
  | [], _, h => by cases h
  | e :: l, 0, _ => by
    simp only [List.modify_zero_cons, List.foldr_cons]
    ac_rfl
  | e :: l, n + 1, h => by
    simp only [List.modify_succ_cons, List.foldr_cons]
    rw [foldr_modify d l n (by simpa using h)]
    ac_rfl

theorem setName_all (l : List Entry) (n : Nat) (o : Option (List Byte)) :
    (setName l n o).foldr (fun e s => e.sum + s) (0 : Clk) = l.foldr (fun e s => e.sum + s) 0 := by
  rw [foldr_sum_eq, foldr_sum_eq]
  congr 1
  apply List.ext_getElem?
  intro k
  rw [List.getElem?_map, List.getElem?_map]
  exact setName_sum l n o k

theorem nexts_all : ∀ (l : List Call) {p : Prof} {g : Guard} {ps : List (Nat × Clk)} {e : Clk},
    p.active = true → Periods p.entries.length g.cnt g.last l ps e →
    allSums (nexts p g l).1 = allSums p + total ps
  | [], p, g, ps, e, _, h => by
    have : ps = [] := by cases h <;> rfl
    subst this
    simp [nexts, total]
  | c :: l, p, g, ps, e, ha, h => by
    have hl := next_length p g c
    have key : ∀ ps', g.cnt < p.entries.length →
        Periods p.entries.length (if c.lvl = 0 then g.cnt + 1 else c.lvl) c.now l ps' e →
        allSums (nexts p g (c :: l)).1 = allSums p + total ((g.cnt, c.now - g.last) :: ps') := by
      intro ps' hg hp
      rw [nexts]
      have hgd := next_guard ha hg c
      rw [nexts_all l (p := (next p g c.name c.lvl c.now).1)
        (g := (next p g c.name c.lvl c.now).2) (ps := ps') (e := e) (by rw [hl.2.1]; exact ha)
        (by rw [hl.1, hgd]; exact hp)]
      have : allSums (next p g c.name c.lvl c.now).1 = allSums p + (c.now - g.last) := by
        unfold next allSums
        rw [if_neg (by simp [ha]; omega)]
        simp only [setName_all]
        exact foldr_modify _ _ _ hg
      rw [this, BitVec.add_assoc]
      rfl
    cases h with
    | out hg =>
      rw [nexts_out hg]
      simp [total]
    | next hg hz hp => exact key _ hg (by rw [if_pos hz]; exact hp)
    | jump hg hz hp => exact key _ hg (by rw [if_neg hz]; exact hp)

/-- All slots together get the time of all periods; with `C126_total` this is the time from the
begin of the guard to the end of the account. -/
theorem C126_all {p : Prof} (ha : p.active = true) {name : Option (List Byte)} {lvl : Nat}
    {now : Clk} (hl : lvl < p.entries.length) {l : List Call} {ps : List (Nat × Clk)} {e : Clk}
    (h : Periods p.entries.length lvl now l ps e) :
    allSums (guarded p name lvl now l) = allSums p + total ps := by
  unfold guarded
  rw [open_eq ha hl]
  rw [nexts_all l (p := { p with entries := setName p.entries lvl name }) (g := ⟨lvl, now⟩)
    (ps := ps) (e := e) ha (by rw [setName_length]; exact h)]
  congr 1
  exact setName_all _ _ _

/-- If all slots exist the account ends with the last call, from the destructor. -/
theorem C126_to_the_end {size n : Nat} {t : Clk} {l : List Call} {ps : List (Nat × Clk)} {e : Clk}
    (h : Periods size n t l ps e) (hlen : ps.length = l.length) :
    e = (l.map Call.now).getLastD t := by
  induction h with
  | nil => rfl
  | @out n t l _ =>
    cases l with
    | nil => rfl
    | cons => cases hlen
  | @next n t c l ps e _ _ _ ih =>
    rw [ih (by simpa using hlen)]
    cases l <;> rfl
  | @jump n t c l ps e _ _ _ ih =>
    rw [ih (by simpa using hlen)]
    cases l <;> rfl

theorem setName_keeps {l : List Entry} {n k : Nat} {o : Option (List Byte)} {e : Entry}
    (h : l[k]? = some e) (hn : e.name ≠ []) : (setName l n o)[k]? = some e := by
  unfold setName
  split
  · exact h
  · rw [List.getElem?_modify, h]
    simp [hn]

/-- The first name of a slot stays. -/
theorem C126_names {p : Prof} {name : Option (List Byte)} {lvl : Nat} {now : Clk} {l : List Call}
    {k : Nat} {t : List Byte} (ht : t ≠ []) (h : (p.entries[k]?).map Entry.name = some t) :
    ((guarded p name lvl now l).entries[k]?).map Entry.name = some t := by
  have h1 : ∀ (q : List Entry) (n : Nat) (o : Option (List Byte)),
      (q[k]?).map Entry.name = some t → ((setName q n o)[k]?).map Entry.name = some t := by
    intro q n o hq
    obtain ⟨e, he, hn⟩ := Option.map_eq_some_iff.mp hq
    rw [setName_keeps he (by rw [hn]; exact ht)]
    exact congrArg some hn
  have h2 : ∀ (l : List Call) (p : Prof) (g : Guard), (p.entries[k]?).map Entry.name = some t →
      ((nexts p g l).1.entries[k]?).map Entry.name = some t := by
    intro l
    induction l with
    | nil => intro p g hp; exact hp
    | cons c l ih =>
      intro p g hp
      rw [nexts]
      apply ih
      unfold next
      split
      · exact hp
      · apply h1
        rw [List.getElem?_modify]
        obtain ⟨e, he, hn⟩ := Option.map_eq_some_iff.mp hp
        rw [he]
        by_cases hk : g.cnt = k <;> simp [hk, hn]
  unfold guarded
  apply h2
  unfold openGuard
  split
  · exact h
  · exact h1 _ _ _ h

/-- A slot without name gets the name with which a guard enters it. -/
theorem C126_named {p : Prof} (ha : p.active = true) {t : List Byte} {lvl : Nat} {now : Clk}
    {e : Entry} (h : p.entries[lvl]? = some e) (he : e.name = []) :
    ((openGuard p (some t) lvl now).1.entries[lvl]?).map Entry.name = some t := by
  have hl : lvl < p.entries.length := (List.getElem?_eq_some_iff.mp h).1
  rw [open_eq ha hl]
  simp [setName, h, he]

/-- The same when the guard changes the slot. -/
theorem C126_next_named {p : Prof} (ha : p.active = true) {g : Guard}
    (hg : g.cnt < p.entries.length) {t : List Byte} {lvl : Nat} {now : Clk} {k : Nat}
    (hk : k = if lvl = 0 then g.cnt + 1 else lvl)
    {e : Entry} (h : p.entries[k]? = some e) (he : e.name = []) :
    ((next p g (some t) lvl now).1.entries[k]?).map Entry.name = some t := by
  unfold next
  rw [if_neg (by simp [ha]; omega)]
  have hc : (if lvl ≠ 0 then lvl else g.cnt + 1) = k := by
    rw [hk]
    by_cases hz : lvl = 0 <;> simp [hz]
  simp only [hc, setName, List.getElem?_modify, h]
  by_cases hz : g.cnt = k <;> simp [hz, he]

/-- Only slots which are entered get a name. -/
theorem C126_next_unnamed {p : Prof} {g : Guard} {o : Option (List Byte)} {lvl : Nat} {now : Clk}
    {k : Nat} (hk : o = none ∨ k ≠ if lvl = 0 then g.cnt + 1 else lvl) :
    ((next p g o lvl now).1.entries[k]?).map Entry.name = (p.entries[k]?).map Entry.name := by
  unfold next
  split
  · rfl
  · have hm : ((p.entries.modify g.cnt fun e => { e with sum := e.sum + (now - g.last) })[k]?).map
        Entry.name = (p.entries[k]?).map Entry.name := by
      rw [List.getElem?_modify]
      cases p.entries[k]? with
      | none => rfl
      | some e => by_cases hz : g.cnt = k <;> simp [hz]
    have hc : (if lvl ≠ 0 then lvl else g.cnt + 1) = if lvl = 0 then g.cnt + 1 else lvl := by
      by_cases hz : lvl = 0 <;> simp [hz]
    simp only [hc]
    unfold setName
    split
    · exact hm
    · rename_i t
      rcases hk with hk | hk
      · cases hk
      · rw [List.getElem?_modify]
        simp only [if_neg (Ne.symm hk)]
        simpa using hm

/-- `Reserve` adds empty slots and keeps those which exist. -/
theorem C126_reserve (p : Prof) (num : Nat) :
    (reserve p num).entries.length = max num p.entries.length ∧
    (∀ k, k < p.entries.length → (reserve p num).entries[k]? = p.entries[k]?) ∧
    (∀ k e, p.entries.length ≤ k → (reserve p num).entries[k]? = some e →
      e.sum = 0 ∧ e.name = []) := by
  refine ⟨by simp [reserve]; omega, fun k hk => ?_, fun k e hk he => ?_⟩
  · simp [reserve, List.getElem?_append_left hk]
  · simp only [reserve, List.getElem?_append_right hk] at he
    have := List.eq_of_mem_replicate (List.mem_of_getElem? he)
    subst this
    exact ⟨rfl, rfl⟩

/-- A profiler which is not active is not changed. -/
theorem C126_inactive {p : Prof} (ha : p.active = false) (name : Option (List Byte)) (lvl : Nat)
    (now : Clk) : ∀ l : List Call, guarded p name lvl now l = p := by
  have h2 : ∀ (l : List Call) (g : Guard), nexts p g l = (p, g) := by
    intro l
    induction l with
    | nil => intro g; rfl
    | cons c l ih =>
      intro g
      have : next p g c.name c.lvl c.now = (p, g) := by simp [next, ha]
      rw [nexts, this]
      exact ih g
  intro l
  have : openGuard p name lvl now = (p, ⟨lvl, 0⟩) := by simp [openGuard, ha]
  rw [guarded, this, h2]

/-- Statistic after a statistic: the ratio of each slot is its time divided by the time since
then, and the account begins again from zero. -/
theorem C126_statistic {p : Prof} (h0 : p.last ≠ 0) {now : Clk} (hn : now ≠ p.last) {k : Nat}
    {e : Entry} (h : p.entries[k]? = some e) :
    (makeStatistic p now).entries[k]? = some ⟨0, (e.sum.toNat, (now - p.last).toNat), e.name⟩ ∧
      (makeStatistic p now).last = now ∧ 0 < (now - p.last).toNat := by
  have hd : now - p.last ≠ 0 := by
    intro hz
    apply hn
    have := congrArg (· + p.last) hz
    simpa [BitVec.sub_add_cancel] using this
  refine ⟨?_, rfl, ?_⟩
  · unfold makeStatistic
    simp only [if_pos h0, if_pos hd, List.getElem?_map, h]
    rfl
  · rcases Nat.eq_zero_or_pos (now - p.last).toNat with hz | hz
    · exact absurd (BitVec.eq_of_toNat_eq (by simpa using hz)) hd
    · exact hz

/-- The first statistic only takes the time. -/
theorem C126_first {p : Prof} (h0 : p.last = 0) (now : Clk) :
    makeStatistic p now = { p with last := now } := by
  simp [makeStatistic, h0]

/-! ## Deviations and examples -/

/-- A guard made while the profiler is not active: after activation the absolute value of the clock
is counted. -/
theorem C126_activated_counterexample (t : Clk) :
    ((next { init with active := true } (openGuard { init with active := false } none 0 t).2 none 0
      (t + 1)).1.entries[0]?).map Entry.sum = some (t + 1) := by
  simp [init, reserve, openGuard, next, setName]

/-- The first statistic keeps what was counted before it: in the second one a slot can have more
time than has passed. -/
theorem C126_first_counterexample :
    let p := guarded init none 0 100 [⟨none, 0, 200⟩]
    ((makeStatistic (makeStatistic p 300) 310).entries[0]?).map Entry.ratio = some (100, 10) := by
  decide

example : Periods 10 0 5 [⟨none, 0, 8⟩, ⟨none, 4, 9⟩, ⟨none, 0, 20⟩] [(0, 3), (1, 1), (4, 11)] 20 :=
  .next (by decide) rfl (.jump (by decide) (by decide) (.next (by decide) rfl .nil))

/-- The theorems apply to a new profiler. -/
example : allSums (guarded init (some [65]) 0 5 [⟨none, 0, 8⟩, ⟨some [66], 4, 9⟩, ⟨none, 0, 20⟩])
    = 15 := by decide

/-- Statistic after statistic. -/
example : (makeStatistic init 7).last ≠ 0 ∧ (9 : Clk) ≠ (makeStatistic init 7).last := by decide

example : init.active = true ∧ init.entries.length = 10 := by decide

end Verif.Profiler
