import Verif.Spec.Statistic
import Mathlib.Algebra.BigOperators.Group.List.Basic
import Mathlib.Algebra.Order.BigOperators.Group.List
import Mathlib.Tactic.FieldSimp
import Mathlib.Tactic.Ring
import Mathlib.Tactic.Linarith
import Mathlib.Data.Nat.Cast.Order.Field
import Mathlib.Data.List.Induction

/-!
# C99: averages, rates and utilisation
-/

namespace Verif.Statistic
open Verif.Statistic.Spec

/-! ## Average -/

/-- What an `Average` knows about the values. -/
structure Knows (a : Avg) (zs : List ℚ) : Prop where
  num : a.num = zs.length
  sum1 : a.sum1 = zs.sum
  sum2 : a.sum2 = (zs.map fun z => z * z).sum
  lo : zs ≠ [] → a.min ∈ zs ∧ ∀ z ∈ zs, a.min ≤ z
  hi : zs ≠ [] → a.max ∈ zs ∧ ∀ z ∈ zs, z ≤ a.max

theorem Knows.fill {a : Avg} {zs : List ℚ} (k : Knows a zs) (z : ℚ) : Knows (a.fill z) (zs ++ [z]) := by
  refine ⟨by simp [Avg.fill, k.num], by simp [Avg.fill, k.sum1], by simp [Avg.fill, k.sum2], fun _ => ?_, fun _ => ?_⟩
  · by_cases h : zs = []
    · subst h
      have : a.num = 0 := k.num
      simp [Avg.fill, this]
    · have hn : a.num ≠ 0 := by rw [k.num]; simpa using h
      obtain ⟨h1, h2⟩ := k.lo h
      obtain ⟨h3, h4⟩ := k.hi h
      simp only [Avg.fill, if_neg hn]
      have hmm : a.min ≤ a.max := h2 _ h3
      by_cases c : z > a.max
      · rw [if_pos c]
        refine ⟨by simp [h1], fun y hy => ?_⟩
        rcases List.mem_append.1 hy with hy | hy
        · exact h2 y hy
        · rw [List.mem_singleton] at hy; subst hy; linarith
      · rw [if_neg c]
        by_cases d : z < a.min
        · rw [if_pos d]
          refine ⟨by simp, fun y hy => ?_⟩
          rcases List.mem_append.1 hy with hy | hy
          · have := h2 y hy; linarith
          · rw [List.mem_singleton] at hy; subst hy; exact le_refl _
        · rw [if_neg d]
          refine ⟨by simp [h1], fun y hy => ?_⟩
          rcases List.mem_append.1 hy with hy | hy
          · exact h2 y hy
          · rw [List.mem_singleton] at hy; subst hy; linarith
  · by_cases h : zs = []
    · subst h
      have : a.num = 0 := k.num
      simp [Avg.fill, this]
    · have hn : a.num ≠ 0 := by rw [k.num]; simpa using h
      obtain ⟨h3, h4⟩ := k.hi h
      simp only [Avg.fill, if_neg hn]
      by_cases c : z > a.max
      · rw [if_pos c]
        refine ⟨by simp, fun y hy => ?_⟩
        rcases List.mem_append.1 hy with hy | hy
        · have := h4 y hy; linarith
        · rw [List.mem_singleton] at hy; subst hy; exact le_refl _
      · rw [if_neg c]
        refine ⟨by simp [h3], fun y hy => ?_⟩
        rcases List.mem_append.1 hy with hy | hy
        · exact h4 y hy
        · rw [List.mem_singleton] at hy; subst hy; linarith

theorem knows_fills {a : Avg} (ys : List ℚ) : ∀ {zs : List ℚ} {a : Avg}, Knows a zs → Knows (fills a ys) (zs ++ ys) := by
  induction ys with
  | nil => intro zs a k; simpa [fills] using k
  | cons y ys ih =>
    intro zs a k
    have := ih (k.fill y)
    rwa [List.append_assoc] at this

theorem knows_zero (a : Avg) : Knows a.reset [] := ⟨rfl, rfl, rfl, fun h => absurd rfl h, fun h => absurd rfl h⟩

theorem knows_reset (a : Avg) (zs : List ℚ) : Knows (fills a.reset zs) zs := by simpa using knows_fills (a := a) zs (knows_zero a)

theorem var_sum (zs : List ℚ) (c : ℚ) : (zs.map fun z => (z - c) * (z - c)).sum = (zs.map fun z => z * z).sum - 2 * c * zs.sum + zs.length * (c * c) := by
  induction zs with
  | nil => simp
  | cons z zs ih =>
    simp only [List.map_cons, List.sum_cons, ih, List.length_cons, Nat.cast_add, Nat.cast_one]
    ring

/-- **C99, average.** After `Reset` and any values: number, mean, extremal values and (the square of) the deviation are those
of the values; the deviation is the square root of a number which is not negative; the mean is between the extremal values. -/
theorem C99_average (a : Avg) (zs : List ℚ) (hz : zs ≠ []) :
    (fills a.reset zs).num = zs.length ∧ (fills a.reset zs).mean = meanOf zs ∧ (fills a.reset zs).dev2 = varOf zs ∧ 0 ≤ (fills a.reset zs).dev2 ∧
      ((fills a.reset zs).min ∈ zs ∧ ∀ z ∈ zs, (fills a.reset zs).min ≤ z) ∧ ((fills a.reset zs).max ∈ zs ∧ ∀ z ∈ zs, z ≤ (fills a.reset zs).max) ∧
      (fills a.reset zs).min ≤ (fills a.reset zs).mean ∧ (fills a.reset zs).mean ≤ (fills a.reset zs).max := by
  have k := knows_reset a zs
  generalize fills a.reset zs = b at k
  have hl : 0 < zs.length := List.length_pos_iff.2 hz
  have hq : (0 : ℚ) < zs.length := by exact_mod_cast hl
  have hmean : b.mean = meanOf zs := by
    unfold Avg.mean meanOf
    rw [k.num, if_pos hl, k.sum1]
  have hvar : b.dev2 = varOf zs := by
    unfold Avg.dev2 varOf
    rw [hmean, var_sum, k.num, k.sum2]
    by_cases h1 : zs.length ≤ 1
    · rw [if_pos h1]
      have : zs.length = 1 := by omega
      obtain ⟨z, rfl⟩ := List.length_eq_one_iff.1 this
      simp [meanOf]
      ring
    · rw [if_neg h1]
      unfold meanOf
      field_simp
      ring
  have hnn : 0 ≤ varOf zs := by
    unfold varOf
    apply div_nonneg _ hq.le
    apply List.sum_nonneg
    intro x hx
    obtain ⟨z, -, rfl⟩ := List.mem_map.1 hx
    exact mul_self_nonneg _
  have hb : ∀ (l : List ℚ) (c : ℚ), (∀ z ∈ l, c ≤ z) → c * l.length ≤ l.sum := by
    intro l c h
    induction l with
    | nil => simp
    | cons z l ih =>
      simp only [List.sum_cons, List.length_cons, Nat.cast_add, Nat.cast_one]
      have := ih (fun y hy => h y (by simp [hy]))
      have := h z (by simp)
      linarith
  have ht : ∀ (l : List ℚ) (c : ℚ), (∀ z ∈ l, z ≤ c) → l.sum ≤ c * l.length := by
    intro l c h
    induction l with
    | nil => simp
    | cons z l ih =>
      simp only [List.sum_cons, List.length_cons, Nat.cast_add, Nat.cast_one]
      have := ih (fun y hy => h y (by simp [hy]))
      have := h z (by simp)
      linarith
  refine ⟨k.num, hmean, hvar, hvar ▸ hnn, k.lo hz, k.hi hz, ?_, ?_⟩
  · rw [hmean, meanOf, le_div_iff₀ hq]
    exact hb zs _ (k.lo hz).2
  · rw [hmean, meanOf, div_le_iff₀ hq]
    exact ht zs _ (k.hi hz).2

example : (fills Avg.new.reset [3, 1, 2]).mean = 2 ∧ (fills Avg.new.reset [3, 1, 2]).min = 1 ∧ (fills Avg.new.reset [3, 1, 2]).max = 3 := by
  refine ⟨?_, ?_, ?_⟩ <;> norm_num [fills, Avg.fill, Avg.new, Avg.reset, Avg.mean]

theorem lrint_near {q : ℚ} {n : ℤ} (h1 : (n : ℚ) - 1 / 2 < q) (h2 : q < n + 1 / 2) : lrint q = n := by
  unfold lrint
  have hf1 := Int.floor_le q
  have hf2 := Int.lt_floor_add_one q
  by_cases c : (n : ℚ) ≤ q
  · have hf : ⌊q⌋ = n := Int.floor_eq_iff.2 ⟨c, by linarith⟩
    rw [hf, if_pos (by linarith)]
  · have hf : ⌊q⌋ = n - 1 := Int.floor_eq_iff.2 ⟨by push_cast; linarith, by push_cast; linarith⟩
    rw [hf, if_neg (by push_cast; linarith), if_pos (by push_cast; linarith)]
    omega

/-- Position of a value in units of bins. -/
theorem scaled {lo hi z : ℚ} {n : Nat} (hn : 0 < n) (hlt : lo < hi) : (z - lo) / (hi - lo) * n = (z - lo) / ((hi - lo) / n) := by
  have : (0 : ℚ) < n := by exact_mod_cast hn
  have : hi - lo ≠ 0 := by linarith
  field_simp

/-- **C99, bins of the histogram (partial).** A value strictly inside of a bin is counted there, a value below or above in the first or
last element.  Missing: the borders of bins, see the counterexample. -/
theorem C99_bin_partial (a : Avg) (lo hi : ℚ) (n : Nat) (hn : 0 < n) (hlt : lo < hi) (zs : List ℚ) (z : ℚ) :
    (∀ i, inside lo hi n i z → (fills (a.allocate n lo hi) zs).bin z = some i) ∧
      (z < lo → (fills (a.allocate n lo hi) zs).bin z = some 0) ∧ (hi ≤ z → (fills (a.allocate n lo hi) zs).bin z = some (n + 1)) := by
  have hkeep : ∀ (zs : List ℚ) (b : Avg), b.lo = lo → b.hi = hi → b.hist.length = n + 2 →
      (fills b zs).lo = lo ∧ (fills b zs).hi = hi ∧ (fills b zs).hist.length = n + 2 := by
    intro zs
    induction zs with
    | nil => intro b h1 h2 h3; exact ⟨h1, h2, h3⟩
    | cons y ys ih =>
      intro b h1 h2 h3
      refine ih (b.fill y) h1 h2 ?_
      have : b.hist ≠ [] := by intro e; rw [e] at h3; simp at h3
      simp only [Avg.fill, if_neg this]
      split
      · rw [List.length_modify]; exact h3
      · exact h3
  have hpos : ((n : Int) > 0) ∧ hi > lo := ⟨by exact_mod_cast hn, hlt⟩
  obtain ⟨h1, h2, h3⟩ := hkeep zs (a.allocate n lo hi) (by simp only [Avg.allocate, if_pos hpos]) (by simp only [Avg.allocate, if_pos hpos])
    (by simp only [Avg.allocate, if_pos hpos]; simp)
  generalize fills (a.allocate n lo hi) zs = b at h1 h2 h3
  have hnh : b.nhist = n := by unfold Avg.nhist; omega
  have hq : (0 : ℚ) < n := by exact_mod_cast hn
  have hw : 0 < (hi - lo) / n := div_pos (by linarith) hq
  refine ⟨fun i hi' => ?_, fun hz => ?_, fun hz => ?_⟩
  · obtain ⟨i1, i2, i3, i4⟩ := hi'
    have hiq : (i : ℚ) ≤ n := by exact_mod_cast i2
    have hi1 : (1 : ℚ) ≤ i := by exact_mod_cast i1
    have hz1 : ¬ z < lo := by
      have : 0 ≤ ((i : ℚ) - 1) * ((hi - lo) / n) := mul_nonneg (by linarith) hw.le
      linarith
    have hz2 : ¬ z ≥ hi := by
      have h5 : (i : ℚ) * ((hi - lo) / n) ≤ n * ((hi - lo) / n) := mul_le_mul_of_nonneg_right hiq hw.le
      have h6 : (n : ℚ) * ((hi - lo) / n) = hi - lo := by field_simp
      linarith
    unfold Avg.bin
    rw [h1, h2, hnh, if_neg hz1, if_neg hz2]
    dsimp only
    have hb : lrint ((z - lo) / (hi - lo) * n + 1 / 2) = (i : ℤ) := by
      rw [scaled hn hlt]
      apply lrint_near
      · have : (i : ℚ) - 1 < (z - lo) / ((hi - lo) / n) := by rw [lt_div_iff₀ hw]; linarith
        push_cast
        linarith
      · have : (z - lo) / ((hi - lo) / n) < i := by rw [div_lt_iff₀ hw]; linarith
        push_cast
        linarith
    rw [hb, if_pos ⟨by exact_mod_cast i1, by exact_mod_cast i2⟩]
    simp
  · unfold Avg.bin
    rw [h1, if_pos hz]
  · unfold Avg.bin
    rw [h1, h2, if_neg (by linarith), if_pos hz, hnh]

example : inside 0 10 5 2 3 := by norm_num [inside]

/-- **C99, histogram (partial).** When no value is on a border of a bin, every element of the histogram is the number of values which
belong to it; `p` gives the place of a value. -/
theorem C99_hist_partial (a : Avg) (lo hi : ℚ) (n : Nat) (hn : 0 < n) (hlt : lo < hi) (p : ℚ → Nat) (zs : List ℚ)
    (hp : ∀ z ∈ zs, (z < lo ∧ p z = 0) ∨ (hi ≤ z ∧ p z = n + 1) ∨ inside lo hi n (p z) z) (i : Nat) (hi' : i < n + 2) :
    (fills (a.allocate n lo hi) zs).hist[i]? = some (zs.countP fun z => decide (p z = i)) := by
  induction zs using List.reverseRecOn with
  | nil =>
    have hpos : ((n : Int) > 0) ∧ hi > lo := ⟨by exact_mod_cast hn, hlt⟩
    simp only [fills, List.foldl_nil, Avg.allocate, if_pos hpos, List.countP_nil]
    rw [List.getElem?_replicate, if_pos (by simpa using hi')]
  | append_singleton zs z ih =>
    have ih := ih (fun y hy => hp y (List.mem_append_left _ hy))
    have e : fills (a.allocate n lo hi) (zs ++ [z]) = (fills (a.allocate n lo hi) zs).fill z := by
      simp [fills, List.foldl_append]
    have hb : (fills (a.allocate n lo hi) zs).bin z = some (p z) := by
      obtain ⟨b1, b2, b3⟩ := C99_bin_partial a lo hi n hn hlt zs z
      rcases hp z (by simp) with ⟨h1, h2⟩ | ⟨h1, h2⟩ | h1
      · rw [h2]; exact b2 h1
      · rw [h2]; exact b3 h1
      · exact b1 _ h1
    have hne : (fills (a.allocate n lo hi) zs).hist ≠ [] := by
      intro c
      rw [c] at ih
      simp at ih
    rw [e]
    simp only [Avg.fill, if_neg hne, hb]
    rw [List.getElem?_modify, ih, List.countP_append, List.countP_singleton]
    by_cases c : p z = i <;> simp [c]

example : ∃ p : ℚ → Nat, ∀ z ∈ [(3 : ℚ), -1, 12], (z < 0 ∧ p z = 0) ∨ (10 ≤ z ∧ p z = 5 + 1) ∨ inside 0 10 5 (p z) z :=
  ⟨fun z => if z < 0 then 0 else if 10 ≤ z then 6 else 2, by
    intro z hz
    simp only [List.mem_cons, List.not_mem_nil, or_false] at hz
    rcases hz with rfl | rfl | rfl <;> norm_num [inside]⟩

/-- **C99 counterexample, lower border.** A value equal to the lower border of the histogram is counted nowhere. -/
theorem C99_lower_counterexample (a : Avg) (lo hi : ℚ) (n : Nat) (hn : 0 < n) (hlt : lo < hi) :
    ((a.allocate n lo hi).fill lo).hist = (a.allocate n lo hi).hist := by
  have hpos : ((n : Int) > 0) ∧ hi > lo := ⟨by exact_mod_cast hn, hlt⟩
  have hb : (a.allocate n lo hi).bin lo = none := by
    unfold Avg.bin
    simp only [Avg.allocate, if_pos hpos]
    rw [if_neg (lt_irrefl _), if_neg (by linarith)]
    have : lrint ((lo - lo) / (hi - lo) * (⟨a.num, a.sum1, a.sum2, a.min, a.max, List.replicate ((n : Int).toNat + 2) 0, lo, hi⟩ : Avg).nhist + 1 / 2) = 0 := by
      rw [sub_self, zero_div, zero_mul, zero_add]
      have hf : ⌊(1 / 2 : ℚ)⌋ = 0 := Int.floor_eq_iff.2 ⟨by norm_num, by norm_num⟩
      unfold lrint
      rw [hf]
      norm_num
    rw [this]
    simp
  simp only [Avg.fill]
  rw [hb]
  have : (a.allocate n lo hi).hist ≠ [] := by
    simp only [Avg.allocate, if_pos hpos]
    simp
  rw [if_neg this]

/-- **C99 counterexample, borders.** "+0.5 to set integer value in the middle of interval": of 4 bins between 0 and 4, the values 1 and
2 are counted in the same bin, no integer is counted in the bins 1 and 3. -/
theorem C99_border_counterexample (a : Avg) :
    (a.allocate 4 0 4).bin 0 = none ∧ (a.allocate 4 0 4).bin 1 = some 2 ∧ (a.allocate 4 0 4).bin 2 = some 2 ∧ (a.allocate 4 0 4).bin 3 = some 4 := by
  have e : a.allocate 4 0 4 = ⟨a.num, a.sum1, a.sum2, a.min, a.max, [0, 0, 0, 0, 0, 0], 0, 4⟩ := by
    unfold Avg.allocate
    rw [if_pos (by norm_num)]
    rfl
  have hf : ∀ k : ℤ, ⌊((k : ℚ) + 1 / 2)⌋ = k := fun k => Int.floor_eq_iff.2 ⟨by linarith, by linarith⟩
  have hl : ∀ k : ℤ, lrint ((k : ℚ) + 1 / 2) = if k % 2 = 0 then k else k + 1 := by
    intro k
    unfold lrint
    rw [hf k]
    norm_num
  have h0 := hl 0
  have h1 := hl 1
  have h2 := hl 2
  have h3 := hl 3
  norm_num at h0 h1 h2 h3
  rw [e]
  refine ⟨?_, ?_, ?_, ?_⟩
  all_goals
    first
    | (norm_num [Avg.bin, Avg.nhist, h0, h1, h2, h3]; done)
    | (norm_num [Avg.bin, Avg.nhist, h0, h1, h2, h3]; rfl)

/-! ## Ratemeter -/

theorem packet_first {r : Rate} (hf : 0 < r.first) (s : Int) (t : ℚ) : (r.packet s t).first = r.first ∧ (r.packet s t).interval = r.interval := by
  unfold Rate.packet
  dsimp only
  rw [if_neg (by linarith)]
  repeat' split
  all_goals exact ⟨rfl, rfl⟩

theorem packet_counts {r : Rate} (hf : 0 < r.first) (s : Int) (t : ℚ) :
    (r.packet s t).num = r.num + (if r.first ≤ t then 1 else 0) ∧ (r.packet s t).total = r.total + (if r.first ≤ t then s else 0) ∧
      (r.packet s t).last = (if r.first ≤ t then t else r.last) := by
  unfold Rate.packet
  dsimp only
  rw [if_neg (by linarith)]
  by_cases c : r.first ≤ t
  · rw [if_pos c, if_pos c, if_pos c, if_pos (show t ≥ r.first from c)]
    repeat' split
    all_goals exact ⟨rfl, rfl, rfl⟩
  · rw [if_neg c, if_neg c, if_neg c, if_neg (show ¬ t ≥ r.first from c)]
    simp

theorem packets_counts (ps : List (Int × ℚ)) : ∀ {r : Rate}, 0 < r.first →
    (packets r ps).first = r.first ∧ (packets r ps).num = r.num + (after r.first ps).length ∧
      (packets r ps).total = r.total + ((after r.first ps).map (·.1)).sum ∧
      (packets r ps).last = (((after r.first ps).getLast?.map (·.2)).getD r.last) := by
  induction ps with
  | nil => intro r _; simp [packets, after]
  | cons p ps ih =>
    intro r hf
    obtain ⟨c1, c2, c3⟩ := packet_counts hf p.1 p.2
    obtain ⟨f1, -⟩ := packet_first hf p.1 p.2
    obtain ⟨i1, i2, i3, i4⟩ := ih (r := r.packet p.1 p.2) (by rw [f1]; exact hf)
    rw [f1] at i1 i2 i3 i4
    have e : packets r (p :: ps) = packets (r.packet p.1 p.2) ps := rfl
    have ea : after r.first (p :: ps) = if r.first ≤ p.2 then p :: after r.first ps else after r.first ps := by
      simp only [after, List.filter_cons, decide_eq_true_eq]
    rw [e, i1, i2, i3, i4, c1, c2, c3, ea]
    by_cases c : r.first ≤ p.2
    · simp only [if_pos c]
      refine ⟨trivial, by rw [List.length_cons]; omega, by rw [List.map_cons, List.sum_cons]; omega, ?_⟩
      cases hl : after r.first ps with
      | nil => simp
      | cons q qs =>
        rw [List.getLast?_cons_cons]
        rw [List.getLast?_cons]
        simp
    · simp only [if_neg c]
      simp

/-- **C99, rate.** The first packet starts the measurement and is not counted; all further packets which are not older are counted: the
rate is their total size divided by the time between the first and the last packet. -/
theorem C99_rate (r : Rate) (hr : r.first ≤ 0) (s0 : Int) (t0 : ℚ) (ht : 0 < t0) (ps : List (Int × ℚ)) :
    (packets r ((s0, t0) :: ps)).num = (after t0 ps).length ∧ (packets r ((s0, t0) :: ps)).total = ((after t0 ps).map (·.1)).sum ∧
      (∀ p, (after t0 ps).getLast? = some p → 2 ≤ (after t0 ps).length → t0 < p.2 →
        (packets r ((s0, t0) :: ps)).rate = ((after t0 ps).map (·.1)).sum / (p.2 - t0)) := by
  have h1 : (r.packet s0 t0).first = t0 ∧ (r.packet s0 t0).num = 0 ∧ (r.packet s0 t0).total = 0 ∧ (r.packet s0 t0).last = 0 := by
    unfold Rate.packet
    dsimp only
    rw [if_pos hr]
    repeat' split
    all_goals exact ⟨rfl, rfl, rfl, rfl⟩
  obtain ⟨f, n, t, l⟩ := h1
  obtain ⟨i1, i2, i3, i4⟩ := packets_counts ps (r := r.packet s0 t0) (by rw [f]; exact ht)
  have e : packets r ((s0, t0) :: ps) = packets (r.packet s0 t0) ps := rfl
  rw [f] at i1 i2 i3 i4
  rw [e]
  refine ⟨by rw [i2, n]; omega, by rw [i3, t]; omega, fun p hp h2 h3 => ?_⟩
  unfold Rate.rate Rate.time
  rw [i1, i4, hp, i2, n, i3, t]
  simp only [Option.map_some, Option.getD_some]
  rw [if_neg]
  · simp
  · rintro (h | h)
    · omega
    · linarith

example : (packets Rate.new [(100, 1), (10, 2), (20, 3)]).rate = 15 := by
  have h := (C99_rate Rate.new (le_refl _) 100 1 (by norm_num) [(10, 2), (20, 3)]).2.2 (20, 3) (by norm_num [after]) (by norm_num [after]) (by norm_num)
  rw [h]
  norm_num [after]

/-- **C99 counterexample, points of a measurement.** The size of the first packet is added to the first point but not to the total size:
points and rate do not agree. -/
theorem C99_points_counterexample (s : Int) (n : Nat) (iv t : ℚ) (hi : 0 < iv) :
    ((Rate.measure iv (n + 1) 0).packet s t).total = 0 ∧ ((Rate.measure iv (n + 1) 0).packet s t).points = (s / iv) :: List.replicate n 0 := by
  have hl : lrint ((t - t) / iv) = 0 := by
    rw [sub_self, zero_div]
    apply lrint_near <;> norm_num
  unfold Rate.packet Rate.measure
  dsimp only
  rw [if_pos (le_refl _), if_pos hi, hl]
  simp [List.replicate_succ]

/-! ## CPU -/

theorem sub_le {a b : Nat} (h : b ≤ a) (ha : a < W) : sub a b = a - b := by
  unfold sub
  have : a + (W - b) = W + (a - b) := by omega
  rw [this, Nat.add_mod_left, Nat.mod_eq_of_lt (by omega)]

/-- **C99, utilisation.** When the counters do not decrease (and fit into their type), the utilisation is the part of the time which
was not idle: between 0 and 1, the sum of both parts, 0 for the first measurement. -/
theorem C99_cpu_partial (c : Cpu) (u n s i : Nat) (hu : u + n < W) (hs : s < W) (hi : i < W) (h1 : c.user ≤ u + n) (h2 : c.sys ≤ s) (h3 : c.idle ≤ i)
    (hd : (u + n - c.user) + (s - c.sys) + (i - c.idle) < W) :
    (Cpu.next (some c) u n s i).cpuUtil = (Cpu.next (some c) u n s i).userUtil + (Cpu.next (some c) u n s i).sysUtil ∧
    0 ≤ (Cpu.next (some c) u n s i).userUtil ∧ 0 ≤ (Cpu.next (some c) u n s i).sysUtil ∧ (Cpu.next (some c) u n s i).cpuUtil ≤ 1 ∧
    (Cpu.next (some c) u n s i).cpuUtil * ((u + n - c.user) + (s - c.sys) + (i - c.idle) : Nat) = ((u + n - c.user) + (s - c.sys) : Nat) := by
  unfold Cpu.next
  dsimp only
  rw [Nat.mod_eq_of_lt hu, sub_le h1 hu, sub_le h2 hs, sub_le h3 hi, Nat.mod_eq_of_lt hd, Nat.mod_eq_of_lt (by omega)]
  generalize u + n - c.user = a at *
  generalize s - c.sys = b at *
  generalize i - c.idle = d at *
  by_cases ht : a + b + d > 0
  · rw [if_pos ht]
    dsimp only
    have hq : (0 : ℚ) < ((a + b + d : Nat) : ℚ) := by exact_mod_cast ht
    refine ⟨by push_cast; ring, by positivity, by positivity, ?_, ?_⟩
    · rw [div_le_one hq]
      push_cast
      have : (0 : ℚ) ≤ d := by positivity
      linarith
    · field_simp
  · rw [if_neg ht]
    have : a = 0 ∧ b = 0 ∧ d = 0 := by omega
    obtain ⟨rfl, rfl, rfl⟩ := this
    simp

example : (Cpu.next (some ⟨10, 5, 100, 0, 0, 0⟩) 12 4 7 192).cpuUtil = 2 / 25 := by
  norm_num [Cpu.next, sub, W]

/-- The first measurement gives 0. -/
theorem C99_cpu_first (u n s i : Nat) : (Cpu.next none u n s i).cpuUtil = 0 := by
  simp [Cpu.next]

/-- **C99 counterexample, utilisation.** When the counter of the idle time decreases by `d` while the others grow by more, the utilisation
is above 1. -/
theorem C99_cpu_counterexample (c : Cpu) (x d : Nat) (hd : 0 < d) (hx : d < x) (h1 : c.user + x < W) (h2 : c.sys < W) (h3 : d ≤ c.idle) (h4 : c.idle < W) :
    1 < (Cpu.next (some c) (c.user + x) 0 c.sys (c.idle - d)).cpuUtil := by
  have e1 : sub (c.user + x) c.user = x := by rw [sub_le (by omega) h1]; omega
  have e2 : sub c.sys c.sys = 0 := by rw [sub_le (le_refl _) h2]; omega
  have e3 : sub (c.idle - d) c.idle = W - d := by
    unfold sub
    rw [show c.idle - d + (W - c.idle) = W - d by omega, Nat.mod_eq_of_lt (by omega)]
  have e4 : (x + 0 + (W - d)) % W = x - d := by
    rw [show x + 0 + (W - d) = W + (x - d) by omega, Nat.add_mod_left, Nat.mod_eq_of_lt (by omega)]
  unfold Cpu.next
  dsimp only
  rw [Nat.add_zero, Nat.mod_eq_of_lt h1, e1, e2, e3, e4, if_pos (by omega), Nat.add_zero, Nat.mod_eq_of_lt (by omega)]
  dsimp only
  have hq : (0 : ℚ) < ((x - d : Nat) : ℚ) := by exact_mod_cast (by omega)
  rw [lt_div_iff₀ hq, one_mul]
  exact_mod_cast (by omega)

example : (1 : ℚ) < (Cpu.next (some ⟨10, 5, 100, 0, 0, 0⟩) 20 0 5 95).cpuUtil :=
  C99_cpu_counterexample ⟨10, 5, 100, 0, 0, 0⟩ 10 5 (by norm_num) (by norm_num) (by norm_num [W]) (by norm_num [W]) (by norm_num) (by norm_num [W])

end Verif.Statistic
