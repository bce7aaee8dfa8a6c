import Verif.Spec.Url
import Verif.JsonLemmas

/-! # Lemmas on text and URLs -/

namespace Verif.Text
open Verif.Bytes Verif.Json

theorem cstr_id {s : List Byte} (h : 0 ∉ s) : cstr s = s := by
  unfold cstr
  induction s with
  | nil => rfl
  | cons b s ih =>
    simp only [List.mem_cons, not_or] at h
    rw [List.takeWhile_cons, if_pos (by simpa using fun e => h.1 e.symm), ih h.2]

theorem dropWhile_cons_false {p : Byte → Bool} {b : Byte} {s : List Byte} (h : p b = false) : (b :: s).dropWhile p = b :: s := by
  simp [h]

theorem isDec_of {b : Byte} (h : isDigit b) : isDec b = true := by simpa [isDec, isDigit] using h

theorem digit_ne {b : Byte} (h : isDigit b) {n : Nat} (hn : n < 256) (hd : n < 48 ∨ 57 < n) : b ≠ BitVec.ofNat 8 n := by
  rintro rfl
  unfold isDigit at h
  rw [BitVec.toNat_ofNat, Nat.mod_eq_of_lt (by simpa using hn)] at h
  omega

theorem digit_notSpace {b : Byte} (h : isDigit b) : isSpace b = false := by
  have h1 := digit_ne h (n := 32) (by decide) (by decide)
  unfold isDigit at h
  simp only [isSpace, Bool.or_eq_false_iff, Bool.and_eq_false_iff, decide_eq_false_iff_not]
  exact ⟨h1, by omega⟩

theorem sign_digit {b : Byte} {s : List Byte} (h : isDigit b) : sign (b :: s) = (false, b :: s) := by
  have h1 := digit_ne h (n := 45) (by decide) (by decide)
  have h2 := digit_ne h (n := 43) (by decide) (by decide)
  show (if b = 45#8 then (true, s) else if b = 43#8 then (false, s) else (false, b :: s)) = _
  rw [if_neg h1, if_neg h2]

theorem takeWhile_digits {t r : List Byte} (h : ∀ b ∈ t, isDigit b) (hr : ∀ b, r.head? = some b → isDec b = false) :
    (t ++ r).takeWhile isDec = t := by
  induction t with
  | nil =>
    cases r with
    | nil => rfl
    | cons b r => simp [hr b rfl]
  | cons b t ih =>
    rw [List.cons_append, List.takeWhile_cons, isDec_of (h b (by simp)), if_pos rfl, ih (fun x hx => h x (by simp [hx]))]

/-- Digits followed by something else. -/
theorem scanDec_digits {t r : List Byte} (h : Digits t) (hr : ∀ b, r.head? = some b → isDec b = false) : scanDec (t ++ r) = some (false, natVal t) := by
  obtain ⟨hne, hd⟩ := h
  cases t with
  | nil => exact absurd rfl hne
  | cons b t =>
    unfold scanDec
    rw [List.cons_append, dropWhile_cons_false (digit_notSpace (hd b (by simp))), sign_digit (hd b (by simp))]
    dsimp only
    rw [← List.cons_append, takeWhile_digits hd hr, if_neg (by simp)]
    rfl

theorem scanDec_neg {t r : List Byte} (h : Digits t) (hr : ∀ b, r.head? = some b → isDec b = false) : scanDec (45 :: (t ++ r)) = some (true, natVal t) := by
  obtain ⟨hne, hd⟩ := h
  unfold scanDec
  rw [dropWhile_cons_false (show isSpace 45 = false by decide)]
  have : sign (45 :: (t ++ r)) = (true, t ++ r) := rfl
  rw [this]
  dsimp only
  rw [takeWhile_digits hd hr, if_neg hne]
  rfl

theorem digits_nul {t : List Byte} (h : Digits t) : 0 ∉ t := by
  intro hm
  have := h.2 0 hm
  unfold isDigit at this
  revert this; decide

theorem digits_float {t : List Byte} (h : Digits t) : t.any floatChar = false := by
  apply List.any_eq_false.mpr
  intro b hb
  have hd := h.2 b hb
  have h1 := digit_ne hd (n := 46) (by decide) (by decide)
  have h2 := digit_ne hd (n := 44) (by decide) (by decide)
  have h3 := digit_ne hd (n := 101) (by decide) (by decide)
  have h4 := digit_ne hd (n := 69) (by decide) (by decide)
  simp only [floatChar, Bool.or_eq_true, decide_eq_true_eq, not_or]
  exact ⟨⟨⟨h1, h2⟩, h3⟩, h4⟩

theorem digits_hexPrefix {t : List Byte} (h : Digits t) : hexPrefix t = false := by
  unfold hexPrefix
  split
  · rename_i x _ _
    have hd := h.2 x (by simp)
    have h1 := digit_ne hd (n := 120) (by decide) (by decide)
    have h2 := digit_ne hd (n := 88) (by decide) (by decide)
    simp only [Bool.or_eq_false_iff, decide_eq_false_iff_not]
    exact ⟨h1, h2⟩
  · rfl

theorem start_digits {t : List Byte} (h : Digits t) : start t = t := by
  unfold start
  rw [cstr_id (digits_nul h)]
  cases t with
  | nil => rfl
  | cons b t =>
    apply dropWhile_cons_false
    have := digit_ne (h.2 b (by simp)) (n := 32) (by decide) (by decide)
    simpa using this

/-- Decimal numbers are read. -/
theorem strToInt_digits {w : Nat} {t : List Byte} (h : Digits t) (hv : natVal t < 2 ^ (w - 1)) : strToInt w t = .val (natVal t) := by
  unfold strToInt
  dsimp only
  rw [start_digits h, if_neg h.1, digits_hexPrefix h, digits_float h]
  simp only [Bool.false_eq_true, if_false]
  unfold scanInt
  have := scanDec_digits (r := []) h (by simp)
  rw [List.append_nil] at this
  rw [this]
  dsimp only
  simp only [Bool.false_eq_true, if_false]
  have h1 : ((natVal t : Nat) : Int) < ((2 ^ (w - 1) : Nat) : Int) := by exact_mod_cast hv
  have h2 : ((2 ^ (w - 1) : Nat) : Int) = (2 : Int) ^ (w - 1) := by push_cast; rfl
  rw [if_pos]
  refine ⟨?_, by rw [← h2]; exact h1⟩
  rw [← h2]; omega

theorem strToUint_digits {w : Nat} {t : List Byte} (h : Digits t) (hv : natVal t < 2 ^ w) : strToUint w t = .val (natVal t) := by
  unfold strToUint
  dsimp only
  rw [start_digits h, if_neg h.1, digits_hexPrefix h, digits_float h]
  simp only [Bool.false_eq_true, if_false]
  unfold scanUint
  have := scanDec_digits (r := []) h (by simp)
  rw [List.append_nil] at this
  rw [this]
  dsimp only
  rw [if_pos hv]
  simp

theorem strToInt_neg {w : Nat} {t : List Byte} (h : Digits t) (hv : natVal t ≤ 2 ^ (w - 1)) : strToInt w (45 :: t) = .val (-(natVal t : Int)) := by
  have hs : start (45 :: t) = 45 :: t := by
    unfold start
    rw [cstr_id]
    · rfl
    · intro hm
      rcases List.mem_cons.mp hm with e | hm
      · revert e; decide
      · exact digits_nul h hm
  have hf : (45 :: t).any floatChar = false := by
    rw [List.any_cons, digits_float h]; decide
  unfold strToInt
  dsimp only
  rw [hs, if_neg (by simp), show hexPrefix (45 :: t) = false from rfl, hf]
  simp only [Bool.false_eq_true, if_false]
  unfold scanInt
  have := scanDec_neg (r := []) h (by simp)
  rw [List.append_nil] at this
  rw [this]
  dsimp only
  simp only [if_true]
  have h1 : ((natVal t : Nat) : Int) ≤ ((2 ^ (w - 1) : Nat) : Int) := by exact_mod_cast hv
  have h2 : ((2 ^ (w - 1) : Nat) : Int) = (2 : Int) ^ (w - 1) := by push_cast; rfl
  have h3 : 0 < 2 ^ (w - 1) := Nat.two_pow_pos _
  rw [if_pos]
  rw [← h2]
  omega

/-! ## find -/

theorem find_single_none {b : Byte} : ∀ {s : List Byte}, b ∉ s → find [b] s = none
  | [], _ => rfl
  | c :: s, h => by
    simp only [List.mem_cons, not_or] at h
    unfold find
    have : [b].isPrefixOf (c :: s) = false := by simp [List.isPrefixOf, h.1]
    rw [this, find_single_none h.2]; rfl

theorem find_single {b : Byte} : ∀ {a r : List Byte}, b ∉ a → find [b] (a ++ b :: r) = some a.length
  | [], r, _ => by simp [find, List.isPrefixOf]
  | c :: a, r, h => by
    simp only [List.mem_cons, not_or] at h
    rw [List.cons_append]
    unfold find
    have : [b].isPrefixOf (c :: (a ++ b :: r)) = false := by simp [List.isPrefixOf, h.1]
    rw [this, find_single h.2]; rfl

theorem find_none {pat : List Byte} : ∀ {s : List Byte}, ¬ pat <:+: s → find pat s = none
  | [], h => by
    unfold find
    rw [if_neg]
    rintro rfl
    exact h (List.nil_infix)
  | c :: s, h => by
    unfold find
    rw [if_neg, find_none (s := s)]
    · rfl
    · exact fun hs => h (List.IsInfix.trans hs (List.suffix_cons c s).isInfix)
    · intro hp
      exact h (List.isPrefixOf_iff_prefix.mp hp).isInfix

theorem find_protocol : ∀ {p r : List Byte}, ¬ [58, 47, 47] <:+: p → find [58, 47, 47] (p ++ [58, 47, 47] ++ r) = some p.length
  | [], r, _ => by simp [find, List.isPrefixOf]
  | c :: p, r, h => by
    rw [List.cons_append, List.cons_append]
    unfold find
    rw [if_neg, find_protocol (p := p)]
    · rfl
    · exact fun hs => h (List.IsInfix.trans hs (List.suffix_cons c p).isInfix)
    · intro hp
      have hp := List.isPrefixOf_iff_prefix.mp hp
      obtain ⟨t, ht⟩ := hp
      simp only [List.cons_append, List.nil_append, List.cons.injEq] at ht
      obtain ⟨rfl, ht⟩ := ht
      match p, ht with
      | [], ht => simp at ht
      | [x], ht => simp at ht
      | x :: y :: p, ht =>
        simp only [List.cons_append, List.cons.injEq] at ht
        obtain ⟨rfl, rfl, _⟩ := ht
        exact h ⟨[], p, by simp⟩

end Verif.Text
