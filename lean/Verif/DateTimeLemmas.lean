import Verif.Spec.DateTime

/-!
# Lemmas about dates and their texts
-/

namespace Verif.DateTime
open Verif.Bytes Verif.Text

theorem monthLen_pos (y m : Nat) : 28 ≤ monthLen y m ∧ monthLen y m ≤ 31 := by
  unfold monthLen
  split
  · split <;> omega
  · split <;> omega

theorem daysBefore_12 (y : Nat) : daysBefore y 12 = if leap y then 335 else 334 := by
  show daysBefore y 1 + monthLen y 1 + monthLen y 2 + monthLen y 3 + monthLen y 4 + monthLen y 5 + monthLen y 6 +
    monthLen y 7 + monthLen y 8 + monthLen y 9 + monthLen y 10 + monthLen y 11 = _
  simp only [daysBefore, monthLen]
  cases leap y <;> simp

theorem daysBefore_succ (y m : Nat) (h : 1 ≤ m) : daysBefore y (m + 1) = daysBefore y m + monthLen y m := by
  obtain ⟨k, rfl⟩ : ∃ k, m = k + 1 := ⟨m - 1, by omega⟩
  rfl

theorem leaps_succ (y : Nat) : leaps (y + 1) = leaps y + if leap (y + 1) then 1 else 0 := by
  unfold leaps leap
  generalize hy : y + 1 = z
  have e : y = z - 1 := by omega
  subst e
  by_cases h4 : z % 4 = 0
  · by_cases h100 : z % 100 = 0
    · by_cases h400 : z % 400 = 0
      · simp [h4, h100, h400]; omega
      · simp [h4, h100, h400]; omega
    · simp [h4, h100]; omega
  · simp [h4]; omega

theorem tomorrow_exists (d : Date) (h : Exists d) : Exists (tomorrow d) := by
  obtain ⟨h1, h2, h3, h4⟩ := h
  unfold tomorrow
  split
  · exact ⟨h1, h2, by dsimp only; omega, by dsimp only; omega⟩
  · split
    · have := monthLen_pos d.year (d.month + 1)
      exact ⟨by dsimp only; omega, by dsimp only; omega, by dsimp only; omega, by dsimp only; omega⟩
    · have := monthLen_pos (d.year + 1) 1
      exact ⟨by dsimp only; omega, by dsimp only; omega, by dsimp only; omega, by dsimp only; omega⟩

theorem tomorrow_year (d : Date) : d.year ≤ (tomorrow d).year := by
  unfold tomorrow
  split
  · exact Nat.le_refl _
  · split
    · exact Nat.le_refl _
    · exact Nat.le_succ _

theorem daysTo_tomorrow (d : Date) (h : Exists d) (hy : 1 ≤ d.year) : daysTo (tomorrow d) = daysTo d + 1 := by
  obtain ⟨h1, h2, h3, h4⟩ := h
  unfold tomorrow
  split
  · simp only [daysTo]; omega
  · rename_i h5
    split
    · simp only [daysTo, daysBefore_succ _ _ h1]; omega
    · have hm : d.month = 12 := by omega
      have hd : d.day = 31 := by
        have : monthLen d.year 12 = 31 := by simp [monthLen]
        rw [hm, this] at h4 h5
        omega
      simp only [daysTo, hm, hd, daysBefore_12]
      have e := leaps_succ (d.year - 1)
      rw [show d.year - 1 + 1 = d.year by omega] at e
      rw [show d.year + 1 - 1 = d.year by omega, e]
      simp only [daysBefore]
      cases leap d.year <;> simp <;> omega

theorem dateOf_exists (n : Nat) : Exists (dateOf n) ∧ 1970 ≤ (dateOf n).year := by
  induction n with
  | zero =>
    refine ⟨⟨by simp [dateOf], by simp [dateOf], by simp [dateOf], ?_⟩, by simp [dateOf]⟩
    have := monthLen_pos 1970 1
    simp only [dateOf]
    omega
  | succ n ih =>
    refine ⟨tomorrow_exists _ ih.1, ?_⟩
    have := tomorrow_year (dateOf n)
    show 1970 ≤ (tomorrow (dateOf n)).year
    omega

theorem daysTo_dateOf (n : Nat) : daysTo (dateOf n) = n := by
  induction n with
  | zero => rfl
  | succ n ih =>
    have := dateOf_exists n
    show daysTo (tomorrow (dateOf n)) = _
    rw [daysTo_tomorrow _ this.1 (by omega), ih]
    omega

/-- Every date from 1970 on is reached. -/
theorem dateOf_surj (y m d : Nat) (hy : 1970 ≤ y) (he : Exists ⟨y, m, d⟩) : ∃ n, dateOf n = ⟨y, m, d⟩ := by
  have step : ∀ (a b : Date), (∃ n, dateOf n = a) → tomorrow a = b → ∃ n, dateOf n = b := by
    rintro a b ⟨n, rfl⟩ rfl
    exact ⟨n + 1, rfl⟩
  -- days of a month whose first day is reached
  have days : ∀ (y m : Nat), (∃ n, dateOf n = ⟨y, m, 1⟩) → ∀ d, 1 ≤ d → d ≤ monthLen y m → ∃ n, dateOf n = ⟨y, m, d⟩ := by
    intro y m h1 d hd
    induction d with
    | zero => omega
    | succ d ih =>
      intro hle
      by_cases h0 : d = 0
      · subst h0; exact h1
      · refine step ⟨y, m, d⟩ _ (ih (by omega) (by omega)) ?_
        unfold tomorrow
        rw [if_pos (by dsimp only; omega)]
  have months : ∀ (y : Nat), (∃ n, dateOf n = ⟨y, 1, 1⟩) → ∀ m, 1 ≤ m → m ≤ 12 → ∃ n, dateOf n = ⟨y, m, 1⟩ := by
    intro y h1 m hm
    induction m with
    | zero => omega
    | succ m ih =>
      intro hle
      by_cases h0 : m = 0
      · subst h0; exact h1
      · have hl := monthLen_pos y m
        refine step ⟨y, m, monthLen y m⟩ _ (days y m (ih (by omega) (by omega)) _ (by omega) (by omega)) ?_
        unfold tomorrow
        rw [if_neg (by dsimp only; omega), if_pos (by dsimp only; omega)]
  have years : ∀ k, ∃ n, dateOf n = ⟨1970 + k, 1, 1⟩ := by
    intro k
    induction k with
    | zero => exact ⟨0, rfl⟩
    | succ k ih =>
      have hl := monthLen_pos (1970 + k) 12
      refine step ⟨1970 + k, 12, monthLen (1970 + k) 12⟩ _
        (days _ 12 (months _ ih 12 (by omega) (by omega)) _ (by omega) (by omega)) ?_
      unfold tomorrow
      rw [if_neg (by dsimp only; omega), if_neg (by dsimp only; omega)]
      rfl
  obtain ⟨h1, h2, h3, h4⟩ := he
  have := years (y - 1970)
  rw [show 1970 + (y - 1970) = y by omega] at this
  exact days y m (months y this m h1 h2) d h3 h4

theorem dateOf_daysTo (d : Date) (hy : 1970 ≤ d.year) (he : Exists d) :
    ∃ n : Nat, daysTo d = n ∧ dateOf n = d := by
  obtain ⟨n, hn⟩ := dateOf_surj d.year d.month d.day hy he
  have e : dateOf n = d := hn
  exact ⟨n, by rw [← e, daysTo_dateOf], e⟩

theorem daysBefore_le (y : Nat) : ∀ m, m ≤ 12 → daysBefore y m ≤ 341
  | 0, _ => by simp [daysBefore]
  | 1, _ => by simp [daysBefore]
  | m + 2, h => by
    have key : ∀ k, k ≤ 11 → daysBefore y (k + 1) ≤ 31 * k := by
      intro k
      induction k with
      | zero => simp [daysBefore]
      | succ k ih =>
        intro hk
        rw [daysBefore_succ y (k + 1) (by omega)]
        have := monthLen_pos y (k + 1)
        have := ih (by omega)
        omega
    exact Nat.le_trans (key (m + 1) (by omega)) (by omega)

theorem daysTo_le (d : Date) (h1 : 1970 ≤ d.year) (h2 : d.year ≤ 2100) (hm : d.month ≤ 12) (hd : d.day ≤ 31) :
    daysTo d ≤ 49000 := by
  have := daysBefore_le d.year d.month hm
  unfold daysTo leaps
  omega

theorem pad_length (k n : Nat) : (pad k n).length = k := by
  induction k generalizing n with
  | zero => rfl
  | succ k ih => simp [pad, ih]

theorem pad_digit (k n : Nat) (b : Byte) (h : b ∈ pad k n) : 48 ≤ b.toNat ∧ b.toNat ≤ 57 := by
  induction k generalizing n with
  | zero => simp [pad] at h
  | succ k ih =>
    rw [pad, List.mem_append] at h
    rcases h with h | h
    · exact ih _ h
    · rw [List.mem_singleton] at h
      subst h
      rw [BitVec.toNat_ofNat]
      omega

theorem decVal_pad (k n : Nat) : decVal (pad k n) = n % 10 ^ k := by
  induction k generalizing n with
  | zero => simp [pad, decVal, Nat.mod_one]
  | succ k ih =>
    have := ih (n / 10)
    unfold decVal at this ⊢
    rw [pad, List.foldl_append, this]
    simp only [List.foldl_cons, List.foldl_nil, BitVec.toNat_ofNat]
    rw [show (10 : Nat) ^ (k + 1) = 10 * 10 ^ k by rw [Nat.pow_succ, Nat.mul_comm], Nat.mod_mul]
    have h : (48 + n % 10) % 2 ^ 8 = 48 + n % 10 := by omega
    rw [h]
    omega

theorem takeWhile_all (f : Byte → Bool) : ∀ (l : List Byte), (∀ x ∈ l, f x = true) → l.takeWhile f = l
  | [], _ => rfl
  | a :: l, h => by
    rw [List.takeWhile_cons, if_pos (h a (by simp)), takeWhile_all f l fun x hx => h x (by simp [hx])]

theorem scanU_pad (k n : Nat) (hk : 1 ≤ k) (hn : n < 10 ^ k) (r : List Byte) :
    scanU k (pad k n ++ r) = some (n, r) := by
  have hl := pad_length k n
  have hd := pad_digit k n
  have hv := decVal_pad k n
  rw [Nat.mod_eq_of_lt hn] at hv
  generalize pad k n = p at *
  cases p with
  | nil => simp at hl; omega
  | cons b p =>
    have hb := hd b (by simp)
    have hs : ((b :: p) ++ r).dropWhile isSpace = (b :: p) ++ r := by
      rw [List.cons_append, List.dropWhile_cons, if_neg]
      have h32 : b ≠ 32 := fun e => by rw [e] at hb; simp at hb
      simp only [isSpace, Bool.or_eq_true, Bool.and_eq_true, decide_eq_true_eq, not_or]
      exact ⟨h32, by omega⟩
    unfold scanU
    dsimp only
    rw [hs]
    have ht : ((b :: p) ++ r).take k = b :: p := by
      rw [← hl, List.take_left]
    rw [ht]
    have hsg : sign (b :: p) = (false, b :: p) := by
      have h45 : b ≠ 45 := fun e => by rw [e] at hb; simp at hb
      have h43 : b ≠ 43 := fun e => by rw [e] at hb; simp at hb
      rw [sign, if_neg h45, if_neg h43]
    rw [hsg]
    dsimp only
    have hall : (b :: p).takeWhile isDec = b :: p := by
      apply takeWhile_all
      intro x hx
      have := hd x hx
      simp [isDec, this.1, this.2]
    rw [hall, if_neg (by simp), hv, if_neg (by simp)]
    rw [Nat.sub_self, Nat.zero_add, List.drop_left]

theorem scan3_pad (w1 w2 w3 a b d : Nat) (c : Byte) (h1 : 1 ≤ w1) (h2 : 1 ≤ w2) (h3 : 1 ≤ w3)
    (ha : a < 10 ^ w1) (hb : b < 10 ^ w2) (hd : d < 10 ^ w3) :
    scan3 w1 w2 w3 c (pad w1 a ++ [c] ++ pad w2 b ++ [c] ++ pad w3 d) = some (a, b, d) := by
  unfold scan3
  rw [show pad w1 a ++ [c] ++ pad w2 b ++ [c] ++ pad w3 d = pad w1 a ++ (c :: (pad w2 b ++ (c :: (pad w3 d ++ [])))) by simp]
  rw [scanU_pad w1 a h1 ha]
  simp only [scanChar, if_true]
  rw [scanU_pad w2 b h2 hb]
  simp only [scanChar, if_true]
  rw [scanU_pad w3 d h3 hd]

theorem toUnsigned_nat (n : Nat) (h : n < 2 ^ 32) : toUnsigned (n : Int) = n := by
  unfold toUnsigned
  omega

theorem roundLoop_bound (k : Nat) : ∀ f : Nat,
    9 * (roundLoop k f * 10 ^ k) + 5 ≤ 9 * f + 5 * 10 ^ k ∧ 9 * f + 5 ≤ 9 * (roundLoop k f * 10 ^ k) + 5 * 10 ^ k := by
  induction k with
  | zero => intro f; simp [roundLoop]
  | succ k ih =>
    intro f
    rw [roundLoop]
    have h := ih (f / 10 + if f % 10 ≥ 5 then 1 else 0)
    generalize hg : (f / 10 + if f % 10 ≥ 5 then 1 else 0) = g at *
    have hf : 10 * g ≤ f + 5 ∧ f ≤ 10 * g + 4 := by
      split at hg <;> omega
    have e : roundLoop k g * 10 ^ (k + 1) = 10 * (roundLoop k g * 10 ^ k) := by
      rw [Nat.pow_succ, ← Nat.mul_assoc, Nat.mul_comm _ 10]
    rw [e, Nat.pow_succ]
    generalize roundLoop k g * 10 ^ k = X at *
    generalize 10 ^ k = P at *
    omega

theorem roundLoop_exact (k : Nat) : ∀ f : Nat, roundLoop k (f * 10 ^ k) = f := by
  induction k with
  | zero => intro f; simp [roundLoop]
  | succ k ih =>
    intro f
    have e : f * 10 ^ (k + 1) = 10 * (f * 10 ^ k) := by
      rw [Nat.pow_succ, ← Nat.mul_assoc, Nat.mul_comm _ 10]
    rw [roundLoop, e, if_neg (by omega), Nat.add_zero, Nat.mul_div_cancel_left _ (by omega)]
    exact ih f

end Verif.DateTime
