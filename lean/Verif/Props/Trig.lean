import Verif.Spec.Trig

/-! # C34, C37: difference and order of trigger numbers -/

namespace Verif.Trig

theorem toInt_small {w : Word} (h : w.toNat < 2 ^ 31) : w.toInt = w.toNat := by
  rw [BitVec.toInt_eq_toNat_cond, if_pos (by omega)]

theorem toInt_cond (w : Word) : w.toInt = if w.toNat < 2 ^ 31 then (w.toNat : Int) else w.toNat - 2 ^ 32 := by
  rw [BitVec.toInt_eq_toNat_cond]
  by_cases h : w.toNat < 2 ^ 31
  · rw [if_pos h, if_pos (by omega)]
  · rw [if_neg h, if_neg (by omega)]
    rfl

/-- The difference as numbers. -/
theorem diff_eq {R a b : Word} (hR : R.toNat < 2 ^ 31) (ha : a.toNat < R.toNat) (hb : b.toNat < R.toNat) :
    diff R a b = if (b.toNat : Int) - a.toNat > R.toNat / 2 then (b.toNat : Int) - a.toNat - R.toNat
      else if (b.toNat : Int) - a.toNat < -(R.toNat / 2) then (b.toNat : Int) - a.toNat + R.toNat else (b.toNat : Int) - a.toNat := by
  have h1 : (b - a).toInt = (b.toNat : Int) - a.toNat := by
    rw [toInt_cond, BitVec.toNat_sub]
    split <;> omega
  have h2 : R.toInt = R.toNat := toInt_small hR
  have h3 : (R.toNat : Int).tdiv 2 = R.toNat / 2 := Int.tdiv_eq_ediv_of_nonneg (by omega)
  have h4 : (R.toNat : Int).tdiv (-2) = -((R.toNat : Int) / 2) := by rw [Int.tdiv_neg, h3]
  unfold diff
  dsimp only
  rw [h1, h2, h3, h4]
  by_cases c1 : (b.toNat : Int) - a.toNat > R.toNat / 2
  · rw [if_pos c1, if_pos c1, toInt_cond, BitVec.toNat_sub, BitVec.toNat_sub]
    split <;> omega
  · rw [if_neg c1, if_neg c1]
    by_cases c2 : (b.toNat : Int) - a.toNat < -(R.toNat / 2)
    · rw [if_pos c2, if_pos c2, toInt_cond, BitVec.toNat_add, BitVec.toNat_sub]
      split <;> omega
    · rw [if_neg c2, if_neg c2]

/-- **C34** (distance). For every range below 2^31 the difference leads from the first to the second trigger number on the
circle, and not further than half of it. Partial: see `C34_range_counterexample`. -/
theorem C34_distance_partial {R a b : Word} (hR : R.toNat < 2 ^ 31) (ha : a.toNat < R.toNat) (hb : b.toNat < R.toNat) :
    Leads R.toNat a.toNat b.toNat (diff R a b) ∧ 2 * diff R a b ≤ R.toNat ∧ -(R.toNat : Int) ≤ 2 * diff R a b := by
  rw [diff_eq hR ha hb]
  unfold Leads
  split
  · refine ⟨?_, by omega, by omega⟩
    rw [show (a.toNat : Int) + ((b.toNat : Int) - a.toNat - R.toNat) = b.toNat + R.toNat * (-1) by omega, Int.add_mul_emod_self_left, Int.emod_eq_of_lt (by omega) (by omega)]
  · split
    · refine ⟨?_, by omega, by omega⟩
      rw [show (a.toNat : Int) + ((b.toNat : Int) - a.toNat + R.toNat) = b.toNat + R.toNat * 1 by omega, Int.add_mul_emod_self_left, Int.emod_eq_of_lt (by omega) (by omega)]
    · refine ⟨?_, by omega, by omega⟩
      rw [show (a.toNat : Int) + ((b.toNat : Int) - a.toNat) = b.toNat by omega, Int.emod_eq_of_lt (by omega) (by omega)]

/-- **C34** (the only one). A shorter way than half of the circle is the difference. -/
theorem C34_unique {R a b : Word} (hR : R.toNat < 2 ^ 31) (ha : a.toNat < R.toNat) (hb : b.toNat < R.toNat) {d : Int}
    (h : Leads R.toNat a.toNat b.toNat d) (h1 : 2 * d < R.toNat) (h2 : -(R.toNat : Int) < 2 * d) : diff R a b = d := by
  have hd : d = (b.toNat : Int) - a.toNat ∨ d = (b.toNat : Int) - a.toNat - R.toNat ∨ d = (b.toNat : Int) - a.toNat + R.toNat := by
    unfold Leads at h
    have hq := Int.emod_add_mul_ediv ((a.toNat : Int) + d) R.toNat
    rw [h] at hq
    have hk : -1 ≤ ((a.toNat : Int) + d) / R.toNat ∧ ((a.toNat : Int) + d) / R.toNat ≤ 1 := by
      generalize ((a.toNat : Int) + d) / R.toNat = k at hq
      constructor
      · by_cases hc : -1 ≤ k
        · exact hc
        · have : (R.toNat : Int) * k ≤ R.toNat * (-2) := Int.mul_le_mul_of_nonneg_left (by omega) (by omega)
          omega
      · by_cases hc : k ≤ 1
        · exact hc
        · have : (R.toNat : Int) * 2 ≤ R.toNat * k := Int.mul_le_mul_of_nonneg_left (by omega) (by omega)
          omega
    generalize ((a.toNat : Int) + d) / R.toNat = k at hq hk
    have : k = -1 ∨ k = 0 ∨ k = 1 := by omega
    rcases this with rfl | rfl | rfl <;> omega
  rw [diff_eq hR ha hb]
  rcases hd with rfl | rfl | rfl
  · rw [if_neg (by omega), if_neg (by omega)]
  · rw [if_pos (by omega)]
  · rw [if_neg (by omega), if_pos (by omega)]

/-- **C34** (both directions). -/
theorem C34_antisymmetric {R a b : Word} (hR : R.toNat < 2 ^ 31) (ha : a.toNat < R.toNat) (hb : b.toNat < R.toNat) :
    diff R b a = -diff R a b := by
  rw [diff_eq hR ha hb, diff_eq hR hb ha]
  by_cases c1 : (b.toNat : Int) - a.toNat > R.toNat / 2
  · rw [if_pos c1, if_neg (by omega), if_pos (by omega)]
    omega
  · rw [if_neg c1]
    by_cases c2 : (b.toNat : Int) - a.toNat < -(R.toNat / 2)
    · rw [if_pos c2, if_pos (by omega)]
      omega
    · rw [if_neg c2, if_neg (by omega), if_neg (by omega)]
      omega

/-- **C34** (zero). -/
theorem C34_zero {R a b : Word} (hR : R.toNat < 2 ^ 31) (ha : a.toNat < R.toNat) (hb : b.toNat < R.toNat) :
    diff R a b = 0 ↔ a = b := by
  rw [diff_eq hR ha hb]
  constructor
  · intro h
    apply BitVec.eq_of_toNat_eq
    split at h
    · omega
    · split at h
      · omega
      · omega
  · rintro rfl
    rw [if_neg (by omega), if_neg (by omega)]
    omega

/-- **C34** (all 32 bits). With the range 0, as 2^32 is written in 32 bits, the difference is the shortest way on the circle of
all numbers. -/
theorem C34_full (a b : Word) : diff 0 a b = (b - a).toInt := by
  unfold diff
  dsimp only
  split
  · simp
  · split
    · simp
    · rfl

/-- With the range 2^31 the difference of neighbours is wrong. -/
theorem C34_range_counterexample : diff 0x80000000 0 1 = -2147483647 := by decide

example : diff 0x1000000 0xfffffe 3 = 5 ∧ diff 0x1000000 3 0xfffffe = -5 := by decide

/-- In a window the difference is the one of the steps. -/
theorem diff_window {R : Word} (hR : R.toNat < 2 ^ 31) {t0 : Nat} {l : List Word} (h : Window R.toNat t0 l) {a b : Word} (ha : a ∈ l) (hb : b ∈ l) :
    diff R a b = (steps R.toNat t0 b.toNat : Int) - steps R.toNat t0 a.toNat := by
  obtain ⟨h0, h⟩ := h
  obtain ⟨ha1, ha2⟩ := h a ha
  obtain ⟨hb1, hb2⟩ := h b hb
  have st : ∀ t : Nat, t < R.toNat → steps R.toNat t0 t = if t0 ≤ t then t - t0 else t + R.toNat - t0 := by
    intro t ht
    unfold steps
    split
    · rw [show t + R.toNat - t0 = t - t0 + R.toNat by omega, Nat.add_mod_right, Nat.mod_eq_of_lt (by omega)]
    · rw [Nat.mod_eq_of_lt (by omega)]
  rw [st _ ha1] at ha2 ⊢
  rw [st _ hb1] at hb2 ⊢
  rw [diff_eq hR ha1 hb1]
  by_cases ca : t0 ≤ a.toNat
  · rw [if_pos ca] at ha2 ⊢
    by_cases cb : t0 ≤ b.toNat
    · rw [if_pos cb] at hb2 ⊢
      rw [if_neg (by omega), if_neg (by omega)]
      omega
    · rw [if_neg cb] at hb2 ⊢
      rw [if_neg (by omega), if_pos (by omega)]
      omega
  · rw [if_neg ca] at ha2 ⊢
    by_cases cb : t0 ≤ b.toNat
    · rw [if_pos cb] at hb2 ⊢
      rw [if_pos (by omega)]
      omega
    · rw [if_neg cb] at hb2 ⊢
      rw [if_neg (by omega), if_neg (by omega)]
      omega

/-- **C37** (order). In a window of less than half of the circle the comparison of the sorter is the order of the steps from the
begin of the window. -/
theorem C37_order {R : Word} (hR : R.toNat < 2 ^ 31) {t0 : Nat} {l : List Word} (h : Window R.toNat t0 l) {a b : Word} (ha : a ∈ l) (hb : b ∈ l) :
    comp R a b = true ↔ steps R.toNat t0 a.toNat < steps R.toNat t0 b.toNat := by
  unfold comp
  rw [decide_eq_true_iff, diff_window hR h ha hb]
  omega

/-- **C37** (requirements of `std::sort`). The comparison is a strict weak order there: irreflexive, transitive, and so is
not being comparable. -/
theorem C37_weak_order {R : Word} (hR : R.toNat < 2 ^ 31) {t0 : Nat} {l : List Word} (h : Window R.toNat t0 l) {a b c : Word} (ha : a ∈ l) (hb : b ∈ l) (hc : c ∈ l) :
    comp R a a = false ∧ (comp R a b = true → comp R b c = true → comp R a c = true) ∧
      (comp R a b = false → comp R b a = false → comp R b c = false → comp R c b = false → comp R a c = false ∧ comp R c a = false) := by
  have e : ∀ {x y : Word}, x ∈ l → y ∈ l → (comp R x y = false ↔ ¬ steps R.toNat t0 x.toNat < steps R.toNat t0 y.toNat) := by
    intro x y hx hy
    rw [← C37_order hR h hx hy, Bool.not_eq_true]
  rw [e ha ha, C37_order hR h ha hb, C37_order hR h hb hc, C37_order hR h ha hc, e ha hb, e hb ha, e hb hc, e hc hb, e ha hc, e hc ha]
  refine ⟨by omega, by omega, by omega⟩

theorem steps_inj {R t0 a b : Nat} (h0 : t0 < R) (ha : a < R) (hb : b < R) (h : steps R t0 a = steps R t0 b) : a = b := by
  have st : ∀ t : Nat, t < R → steps R t0 t = if t0 ≤ t then t - t0 else t + R - t0 := by
    intro t ht
    unfold steps
    split
    · rw [show t + R - t0 = t - t0 + R by omega, Nat.add_mod_right, Nat.mod_eq_of_lt (by omega)]
    · rw [Nat.mod_eq_of_lt (by omega)]
  rw [st a ha, st b hb] at h
  split at h <;> split at h <;> omega

/-- **C37** (result). Whatever algorithm sorts: two results, that have the same numbers and no number in front of a smaller one
in terms of the comparison, are equal, and rise from the begin of the window. -/
theorem C37_result {R : Word} (hR : R.toNat < 2 ^ 31) {t0 : Nat} {l : List Word} (h : Window R.toNat t0 l) {x y : List Word} (hx : x.Perm l) (hy : y.Perm l)
    (sx : x.Pairwise fun a b => comp R b a = false) (sy : y.Pairwise fun a b => comp R b a = false) :
    x = y ∧ x.Pairwise fun a b => steps R.toNat t0 a.toNat ≤ steps R.toNat t0 b.toNat := by
  have key : ∀ z : List Word, z.Perm l → z.Pairwise (fun a b => comp R b a = false) → z.Pairwise fun a b => steps R.toNat t0 a.toNat ≤ steps R.toNat t0 b.toNat := by
    intro z hz sz
    refine List.Pairwise.imp_of_mem ?_ sz
    intro a b ha hb hab
    have := C37_order hR h (hz.mem_iff.mp hb) (hz.mem_iff.mp ha)
    rw [hab] at this
    simp only [Bool.false_eq_true, false_iff] at this
    omega
  refine ⟨?_, key x hx sx⟩
  refine List.Perm.eq_of_pairwise (le := fun a b => steps R.toNat t0 a.toNat ≤ steps R.toNat t0 b.toNat) ?_ (key x hx sx) (key y hy sy) (hx.trans hy.symm)
  intro a b ha hb h1 h2
  exact BitVec.eq_of_toNat_eq (steps_inj h.1 (h.2 a (hx.mem_iff.mp ha)).1 (h.2 b (hy.mem_iff.mp hb)).1 (by omega))

/-- Without such a window the comparison runs in a circle. -/
theorem C37_cycle_counterexample : comp 0x1000000 0 0x555555 = true ∧ comp 0x1000000 0x555555 0xaaaaaa = true ∧ comp 0x1000000 0xaaaaaa 0 = true := by
  decide

example : Window 0x1000000 0xfffffe [3, 0xfffffe, 0xffffff, 0, 3] := by
  refine ⟨by decide, ?_⟩
  intro t ht
  simp only [List.mem_cons, List.not_mem_nil, or_false] at ht
  rcases ht with rfl | rfl | rfl | rfl | rfl <;> decide

end Verif.Trig
