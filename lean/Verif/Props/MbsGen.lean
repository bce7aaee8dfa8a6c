import Verif.Spec.MbsGen
/-!
# C114: the MBS generator produces numbered events
-/

namespace Verif.MbsGen

theorem range'_get (a k n : Nat) : (List.range' a k)[n]? = if n < k then some (a + n) else none := by
  split
  · rename_i h
    rw [List.getElem?_range' h]
    simp
  · rename_i h
    rw [List.getElem?_eq_none_iff, List.length_range']
    omega

theorem raw_le (c : Cfg) : c.raw ≤ c.size := by
  unfold Cfg.raw
  split <;> omega

theorem written_le (c : Cfg) (h : c.go4 = true ∨ c.size % 4 = 0) : c.written ≤ c.size := by
  unfold Cfg.written
  cases hg : c.go4 with
  | true => simp; omega
  | false =>
    have : c.size % 4 = 0 := by rcases h with h | h; · rw [hg] at h; cases h
                                · exact h
    simp only [Bool.false_eq_true, if_false]
    split <;> split <;> omega

/-- Subevents `n …` of one event. -/
def subsFrom (c : Cfg) (num n k : Nat) : List Sub := (List.range' n k).map (mkSub c num)

theorem subLoop_spec (c : Cfg) (num : Nat) : ∀ k n place, ∃ j, j ≤ k ∧ (subLoop c num k n place).subs = subsFrom c num n j ∧
    ((subLoop c num k n place).done = true ↔ j = k) ∧
    (subLoop c num k n place).rest + ((subLoop c num k n place).subs.map Sub.bytes).sum = place ∧
    ((c.go4 = true ∨ c.size % 4 = 0) → (subLoop c num k n place).over = false) := by
  intro k
  induction k with
  | zero => intro n place; exact ⟨0, by omega, rfl, by simp [subLoop], by simp [subLoop], fun _ => rfl⟩
  | succ k ih =>
    intro n place
    unfold subLoop
    split
    · exact ⟨0, by omega, rfl, by simp, by simp, fun _ => rfl⟩
    · rename_i hp
      dsimp only
      have hb : (mkSub c num n).bytes ≤ place := by
        have := raw_le c
        simp only [Sub.bytes, mkSub]
        omega
      obtain ⟨j, h1, h2, h3, h4, h5⟩ := ih (n + 1) (place - (mkSub c num n).bytes)
      refine ⟨j + 1, by omega, ?_, ?_, ?_, ?_⟩
      · rw [h2]; simp [subsFrom, List.range'_succ]
      · rw [h3]; omega
      · simp only [List.map_cons, List.sum_cons]; omega
      · intro h
        have hw := written_le c h
        rw [h5 h]
        simp only [Bool.or_false, decide_eq_false_iff_not]
        omega

theorem evLoop_spec (c : Cfg) : ∀ fuel place count, place ≤ fuel → ∃ full tail, (evLoop c fuel place count).events = full ++ tail ∧
    full = (List.range' count full.length).map (fun n => Ev.mk n (subsFrom c n 0 c.numsub)) ∧
    (evLoop c fuel place count).count = count + full.length ∧
    (tail = [] ∨ ∃ j, j < c.numsub ∧ tail = [⟨count + full.length, subsFrom c (count + full.length) 0 j⟩]) ∧
    (((full ++ tail).map Ev.bytes).sum ≤ place) ∧
    ((c.go4 = true ∨ c.size % 4 = 0) → (evLoop c fuel place count).over = false) := by
  intro fuel
  induction fuel with
  | zero =>
    intro place count _
    exact ⟨[], [], rfl, rfl, rfl, Or.inl rfl, by simp, fun _ => rfl⟩
  | succ fuel ih =>
    intro place count hf
    unfold evLoop
    split
    · exact ⟨[], [], rfl, rfl, rfl, Or.inl rfl, by simp, fun _ => rfl⟩
    · rename_i hp
      dsimp only
      obtain ⟨j, h1, h2, h3, h4, h5⟩ := subLoop_spec c count c.numsub 0 (place - 16)
      split
      · rename_i hd
        have hj := h3.1 hd
        subst hj
        obtain ⟨full, tail, e1, e2, e3, e4, e5, e6⟩ := ih (subLoop c count c.numsub 0 (place - 16)).rest (count + 1) (by omega)
        refine ⟨⟨count, (subLoop c count c.numsub 0 (place - 16)).subs⟩ :: full, tail, ?_, ?_, ?_, ?_, ?_, ?_⟩
        · rw [e1]; rfl
        · rw [List.length_cons, List.range'_succ, List.map_cons, ← e2, h2]
        · rw [e3, List.length_cons]; omega
        · rcases e4 with e | ⟨j, e, e'⟩
          · exact Or.inl e
          · refine Or.inr ⟨j, e, ?_⟩
            rw [e', List.length_cons]
            have : count + 1 + full.length = count + (full.length + 1) := by omega
            rw [this]
        · simp only [List.cons_append, List.map_cons, List.sum_cons, Ev.bytes] at *
          omega
        · intro h; rw [h5 h, e6 h]; rfl
      · rename_i hd
        have hj : j ≠ c.numsub := fun e => hd (h3.2 e)
        refine ⟨[], if (subLoop c count c.numsub 0 (place - 16)).rest = 0 then [] else
          [⟨count, (subLoop c count c.numsub 0 (place - 16)).subs⟩], rfl, rfl, rfl, ?_, ?_, h5⟩
        · split
          · exact Or.inl rfl
          · refine Or.inr ⟨j, by omega, ?_⟩
            rw [h2]; rfl
        · split
          · simp
          · simp only [List.nil_append, List.map_cons, List.map_nil, List.sum_singleton, Ev.bytes]
            omega

/-- Events of one buffer: all but perhaps the last are complete, numbered one after another from the current count, with subevents which
have the configured ids and sizes; the count is advanced by the number of complete events; all fits into the buffer. -/
theorem C114_events (c : Cfg) (size count : Nat) : ∃ full tail, (complete c size count).events = full ++ tail ∧
    (complete c size count).count = count + full.length ∧
    (∀ n e, full[n]? = some e → e.num = count + n ∧ e.whole c) ∧
    (tail = [] ∨ ∃ e, tail = [e] ∧ e.num = count + full.length ∧ e.subs.length < c.numsub) ∧
    (∀ e ∈ full ++ tail, ∀ n x, e.subs[n]? = some x → x.size = c.raw ∧
      ((c.fullid = 0 ∨ c.numsub ≠ 1) → x.proc = (c.procid + n) % 65536 ∧ x.crate = (c.procid + n + 1) % 256) ∧
      (c.fullid ≠ 0 ∧ c.numsub = 1 → x.id = c.fullid) ∧ (c.go4 = false → 4 < c.size → x.words = [e.num, c.procid + n])) ∧
    ((full ++ tail).map Ev.bytes).sum ≤ size ∧
    ((c.go4 = true ∨ c.size % 4 = 0) → (complete c size count).over = false) := by
  have hsub : ∀ num j n x, (subsFrom c num 0 j)[n]? = some x → x = mkSub c num n := by
    intro num j n x hx
    simp only [subsFrom, List.getElem?_map, Option.map_eq_some_iff] at hx
    obtain ⟨m, hm, rfl⟩ := hx
    rw [range'_get] at hm
    split at hm
    · simp at hm; rw [hm]
    · cases hm
  have hid : ∀ num n, (mkSub c num n).size = c.raw ∧
      ((c.fullid = 0 ∨ c.numsub ≠ 1) → (mkSub c num n).proc = (c.procid + n) % 65536 ∧ (mkSub c num n).crate = (c.procid + n + 1) % 256) ∧
      (c.fullid ≠ 0 ∧ c.numsub = 1 → (mkSub c num n).id = c.fullid) ∧
      (c.go4 = false → 4 < c.size → (mkSub c num n).words = [num, c.procid + n]) := by
    intro num n
    refine ⟨rfl, ?_, ?_, ?_⟩
    · intro h
      have : ¬ (c.fullid ≠ 0 ∧ c.numsub = 1) := by omega
      simp only [Sub.proc, Sub.crate, mkSub, if_neg this]
      omega
    · intro h
      simp only [mkSub, if_pos h]
    · intro hg h
      have h0 : c.size > 0 := by omega
      simp [mkSub, hg, h, h0]
  have key : ∃ full tail, (complete c size count).events = full ++ tail ∧
      full = (List.range' count full.length).map (fun n => Ev.mk n (subsFrom c n 0 c.numsub)) ∧
      (complete c size count).count = count + full.length ∧
      (tail = [] ∨ ∃ j, j < c.numsub ∧ tail = [⟨count + full.length, subsFrom c (count + full.length) 0 j⟩]) ∧
      (((full ++ tail).map Ev.bytes).sum ≤ size) ∧ ((c.go4 = true ∨ c.size % 4 = 0) → (complete c size count).over = false) := by
    unfold complete
    split
    · exact ⟨[], [], rfl, rfl, rfl, Or.inl rfl, by simp, fun _ => rfl⟩
    · exact evLoop_spec c size size count (Nat.le_refl _)
  obtain ⟨full, tail, e1, e2, e3, e4, e5, e6⟩ := key
  have hfull : ∀ (n : Nat) (e : Ev), full[n]? = some e → e = Ev.mk (count + n) (subsFrom c (count + n) 0 c.numsub) := by
    intro n e he
    rw [e2] at he
    simp only [List.getElem?_map, Option.map_eq_some_iff] at he
    obtain ⟨m, hm, rfl⟩ := he
    rw [range'_get] at hm
    split at hm
    · simp at hm; rw [hm]
    · cases hm
  refine ⟨full, tail, e1, e3, ?_, ?_, ?_, e5, e6⟩
  · intro n e he
    rw [hfull n e he]
    exact ⟨rfl, by simp [Ev.whole, subsFrom]⟩
  · rcases e4 with e | ⟨j, h1, h2⟩
    · exact Or.inl e
    · exact Or.inr ⟨⟨count + full.length, subsFrom c (count + full.length) 0 j⟩, h2, rfl, by simpa [subsFrom] using h1⟩
  · intro e he n x hx
    rcases List.mem_append.1 he with h | h
    · obtain ⟨m, hm⟩ := List.mem_iff_getElem?.1 h
      rw [hfull m e hm] at hx ⊢
      rw [hsub _ _ _ _ hx]
      exact hid _ _
    · rcases e4 with h0 | ⟨j, h1, h2⟩
      · rw [h0] at h; cases h
      · rw [h2, List.mem_singleton] at h
        rw [h] at hx ⊢
        rw [hsub _ _ _ _ hx]
        exact hid _ _

/-! ### Exact numbers -/

theorem subLoop_exact (c : Cfg) (h4 : c.size % 4 = 0) (num : Nat) : ∀ k n place,
    (subLoop c num k n place).subs.length = min k (place / (12 + c.size)) ∧
    ((subLoop c num k n place).done = true ↔ k * (12 + c.size) ≤ place) ∧
    (subLoop c num k n place).rest = place - (min k (place / (12 + c.size))) * (12 + c.size) := by
  have hraw : c.raw = c.size := by unfold Cfg.raw; split <;> omega
  intro k
  induction k with
  | zero => intro n place; simp [subLoop]
  | succ k ih =>
    intro n place
    unfold subLoop
    split
    · rename_i hp
      have hlt : place < 12 + c.size := by omega
      rw [Nat.div_eq_of_lt hlt]
      refine ⟨by simp, ?_, by simp⟩
      simp only [Bool.false_eq_true, false_iff, Nat.add_mul]
      omega
    · rename_i hp
      dsimp only
      have hb : (mkSub c num n).bytes = 12 + c.size := by simp only [Sub.bytes, mkSub, hraw]
      rw [hb]
      obtain ⟨i1, i2, i3⟩ := ih (n + 1) (place - (12 + c.size))
      have hdiv : place / (12 + c.size) = (place - (12 + c.size)) / (12 + c.size) + 1 := by
        rw [← Nat.add_div_right _ (by omega)]
        congr 1
        omega
      refine ⟨?_, ?_, ?_⟩
      · rw [List.length_cons, i1, hdiv]; omega
      · rw [i2, Nat.add_mul]; omega
      · rw [i3, hdiv, Nat.succ_min_succ, Nat.succ_mul]; omega

theorem evLoop_exact (c : Cfg) (h4 : c.size % 4 = 0) : ∀ fuel place count, place ≤ fuel →
    (evLoop c fuel place count).count = count + place / evSize c ∧
    ((evLoop c fuel place count).events.map (fun e => e.subs.length)) = List.replicate (place / evSize c) c.numsub ++
      if place % evSize c < 16 ∨ (place % evSize c - 16) % (12 + c.size) = 0 then []
      else [(place % evSize c - 16) / (12 + c.size)] := by
  have hE : evSize c ≥ 16 := by unfold evSize; omega
  intro fuel
  induction fuel with
  | zero =>
    intro place count h
    have : place = 0 := by omega
    subst this
    simp [evLoop]
  | succ fuel ih =>
    intro place count hf
    unfold evLoop
    split
    · rename_i hp
      rw [Nat.div_eq_of_lt (by omega), Nat.mod_eq_of_lt (by omega)]
      simp [hp]
    · rename_i hp
      dsimp only
      obtain ⟨s1, s2, s3⟩ := subLoop_exact c h4 count c.numsub 0 (place - 16)
      split
      · rename_i hd
        have hfit := s2.1 hd
        have hmin : min c.numsub ((place - 16) / (12 + c.size)) = c.numsub := by
          apply Nat.min_eq_left
          rw [Nat.le_div_iff_mul_le (by omega)]
          exact hfit
        rw [hmin] at s1 s3
        have hrest : (subLoop c count c.numsub 0 (place - 16)).rest = place - evSize c := by rw [s3]; unfold evSize; omega
        have hge : evSize c ≤ place := by unfold evSize; omega
        rw [hrest]
        obtain ⟨i1, i2⟩ := ih (place - evSize c) (count + 1) (by omega)
        have hdiv : place / evSize c = (place - evSize c) / evSize c + 1 := by
          rw [← Nat.add_div_right _ (by omega)]
          congr 1
          omega
        have hmod : place % evSize c = (place - evSize c) % evSize c := by
          rw [← Nat.add_mod_right (place - evSize c)]
          congr 1
          omega
        rw [hdiv, hmod]
        refine ⟨by rw [i1]; omega, ?_⟩
        rw [List.map_cons, i2, s1, List.replicate_succ]
        rfl
      · rename_i hd
        have hnf : ¬ c.numsub * (12 + c.size) ≤ place - 16 := fun h => hd (s2.2 h)
        have hlt : place < evSize c := by unfold evSize; omega
        have hmin : min c.numsub ((place - 16) / (12 + c.size)) = (place - 16) / (12 + c.size) := by
          apply Nat.min_eq_right
          have := (Nat.div_lt_iff_lt_mul (show 0 < 12 + c.size by omega)).2 (show place - 16 < c.numsub * (12 + c.size) by omega)
          omega
        rw [hmin] at s1 s3
        rw [Nat.div_eq_of_lt hlt, Nat.mod_eq_of_lt hlt]
        refine ⟨rfl, ?_⟩
        have hr : (subLoop c count c.numsub 0 (place - 16)).rest = (place - 16) % (12 + c.size) := by
          rw [s3, Nat.mod_eq_sub_div_mul]
        rw [hr]
        by_cases h0 : (place - 16) % (12 + c.size) = 0
        · simp [h0]
        · rw [if_neg h0, if_neg (by omega)]
          simp [s1]

/-- How many subevents the events in one buffer have, when the size of raw data is a multiple of four: as many complete events as fit, and
then one more with the subevents which fit into the rest, unless these fill it exactly. -/
theorem C114_exact (c : Cfg) (h4 : c.size % 4 = 0) (size count : Nat) (hs : 28 ≤ size) :
    (complete c size count).count = count + size / evSize c ∧
    (complete c size count).events.map (fun e => e.subs.length) = List.replicate (size / evSize c) c.numsub ++
      if size % evSize c < 16 ∨ (size % evSize c - 16) % (12 + c.size) = 0 then []
      else [(size % evSize c - 16) / (12 + c.size)] := by
  unfold complete
  rw [if_neg (by omega)]
  exact evLoop_exact c h4 size size count (Nat.le_refl _)

example : ({} : Cfg).size % 4 = 0 ∧ 28 ≤ 65536 ∧ 65536 / evSize {} = 630 := by decide

/-! ### Several buffers -/

/-- Over all buffers, the complete events are numbered one after another, each number occurs once. -/
theorem C114_numbers (c : Cfg) (count : Nat) (bs : List Nat) :
    ((buffers c count bs).1.flatten.filter (fun e => e.whole c)).map (·.num) =
      List.range' count ((buffers c count bs).2 - count) ∧ count ≤ (buffers c count bs).2 := by
  induction bs generalizing count with
  | nil => simp [buffers]
  | cons b bs ih =>
    unfold buffers
    dsimp only
    obtain ⟨full, tail, e1, e3, e2, e4, _⟩ := C114_events c b count
    obtain ⟨i1, i2⟩ := ih (complete c b count).count
    have hf : full.filter (fun e => e.whole c) = full := by
      rw [List.filter_eq_self]
      intro e he
      obtain ⟨n, hn⟩ := List.mem_iff_getElem?.1 he
      exact decide_eq_true (e2 n e hn).2
    have ht : tail.filter (fun e => e.whole c) = [] := by
      rcases e4 with e | ⟨e, h1, h2, h3⟩
      · rw [e]; rfl
      · rw [h1]
        have : ¬ e.whole c := by unfold Ev.whole; omega
        simp [this]
    have hn : full.map (·.num) = List.range' count full.length := by
      apply List.ext_getElem?
      intro n
      rw [List.getElem?_map, range'_get]
      cases hfn : full[n]? with
      | none =>
        have := List.getElem?_eq_none_iff.1 hfn
        rw [if_neg (by omega)]; rfl
      | some e =>
        have := (List.getElem?_eq_some_iff.1 hfn).1
        rw [if_pos this]
        simp [(e2 n e hfn).1]
    refine ⟨?_, by omega⟩
    rw [List.flatten_cons, List.filter_append, List.map_append, e1, List.filter_append, hf, ht, List.append_nil, hn, i1, e3]
    rw [e3] at i2
    have hsum : (buffers c (count + full.length) bs).2 - count =
        full.length + ((buffers c (count + full.length) bs).2 - (count + full.length)) := by omega
    rw [hsum, List.range'_append_1]

example : (buffers {} 0 [208, 208]).1.flatten.map (·.num) = [0, 1, 2, 3] := by decide

/-- With incomplete events numbers occur twice: the last event of a buffer has fewer subevents than configured and the number of the first
event in the next buffer. -/
theorem C114_duplicate_counterexample : ∃ b, (buffers {} 0 [b, b]).1.flatten.map (fun e => (e.num, e.subs.length)) =
    [(0, 2), (1, 1), (1, 2), (2, 1)] := by
  refine ⟨180, ?_⟩; decide

/-- Which sizes of buffers have an incomplete event (and so a number which occurs twice). -/
theorem C114_incomplete_iff (c : Cfg) (h4 : c.size % 4 = 0) (size count : Nat) (hs : 28 ≤ size) :
    (∃ e ∈ (complete c size count).events, ¬ e.whole c) ↔
      16 ≤ size % evSize c ∧ (size % evSize c - 16) % (12 + c.size) ≠ 0 := by
  obtain ⟨_, h2⟩ := C114_exact c h4 size count hs
  have hlt : size % evSize c < evSize c := Nat.mod_lt _ (by unfold evSize; omega)
  constructor
  · rintro ⟨e, he, hw⟩
    have hm : e.subs.length ∈ (complete c size count).events.map (fun e => e.subs.length) := List.mem_map.2 ⟨e, he, rfl⟩
    rw [h2, List.mem_append] at hm
    rcases hm with h | h
    · exact absurd (List.eq_of_mem_replicate h) hw
    · split at h
      · cases h
      · omega
  · rintro ⟨h16, hr⟩
    rw [if_neg (by omega)] at h2
    have hm : (size % evSize c - 16) / (12 + c.size) ∈ (complete c size count).events.map (fun e => e.subs.length) := by
      rw [h2]; simp
    obtain ⟨e, he, hl⟩ := List.mem_map.1 hm
    refine ⟨e, he, ?_⟩
    have := (Nat.div_lt_iff_lt_mul (show 0 < 12 + c.size by omega)).2
      (show size % evSize c - 16 < c.numsub * (12 + c.size) by unfold evSize at *; omega)
    unfold Ev.whole
    omega

/-- With the default options there is none in a buffer of 64 kB, as just the header of one more event fits. -/
example : ¬ (16 ≤ 65536 % evSize {} ∧ (65536 % evSize {} - 16) % (12 + ({} : Cfg).size) ≠ 0) := by decide
example : 16 ≤ 180 % evSize {} ∧ (180 % evSize {} - 16) % (12 + ({} : Cfg).size) ≠ 0 := by decide

/-- Without the go4 format whole words are written: for a raw data size of one byte this may be behind the end of the buffer. -/
theorem C114_overrun_counterexample : ∃ c size, c.go4 = false ∧ (complete c size 0).over = true := by
  refine ⟨{ numsub := 1, size := 1, go4 := false }, 29, rfl, ?_⟩; decide

end Verif.MbsGen
