import Verif.Stream

namespace Verif.Stream
open Verif.Bytes

/-- Result of writing bytes for which there is room. -/
def OStr.app : OStr → List Byte → OStr
  | .mem out room, b => .mem (out ++ b) (room - b.length)
  | .size len, b => .size (len + b.length)

/-- There is room for `n` bytes. -/
def OStr.Fits : OStr → Nat → Prop
  | .mem _ room, n => n ≤ room
  | .size _, _ => True

theorem write_app {s : OStr} {b : List Byte} (h : s.Fits b.length) : s.write b = s.app b := by
  cases s with
  | mem out room => simp only [OStr.Fits] at h; simp only [OStr.write, OStr.app]; rw [if_neg (by omega)]
  | size len => rfl

theorem app_app (s : OStr) (a b : List Byte) : (s.app a).app b = s.app (a ++ b) := by
  cases s with
  | mem out room => simp only [OStr.app, List.append_assoc, List.length_append]; congr 1; omega
  | size len => simp only [OStr.app, List.length_append]; congr 1; omega

@[simp] theorem app_pos (s : OStr) (b : List Byte) : (s.app b).pos = s.pos + b.length := by
  cases s <;> simp [OStr.app, OStr.pos]

@[simp] theorem app_nil (s : OStr) : s.app [] = s := by
  cases s <;> simp [OStr.app]

@[simp] theorem app_isReal (s : OStr) (b : List Byte) : (s.app b).isReal = s.isReal := by
  cases s <;> rfl

theorem fits_app {s : OStr} {b : List Byte} {n : Nat} (h : s.Fits (b.length + n)) : (s.app b).Fits n := by
  cases s with
  | mem out room => simp only [OStr.Fits, OStr.app] at *; omega
  | size len => trivial

theorem fits_mono {s : OStr} {a b : Nat} (h : s.Fits b) (hab : a ≤ b) : s.Fits a := by
  cases s with
  | mem out room => simp only [OStr.Fits] at *; omega
  | size len => trivial

theorem pad_app (n : Nat) : ∀ (s : OStr) (actual sz : Nat), sz - actual = n → s.Fits n →
    s.pad actual sz = s.app (List.replicate n 0) := by
  induction n using Nat.strongRecOn with
  | ind n ih =>
    intro s actual sz hn hf
    unfold OStr.pad
    by_cases hlt : actual < sz
    · rw [if_pos hlt]
      simp only
      generalize hp : (if sz - actual > 8 then 8 else sz - actual) = p
      have hp1 : 0 < p ∧ p ≤ n ∧ p ≤ sz - actual := by split at hp <;> omega
      rw [write_app (by simp; exact fits_mono hf hp1.2.1)]
      rw [ih (n - p) (by omega) _ _ _ (by omega) (fits_app (by simp; exact fits_mono hf (by omega)))]
      rw [app_app, List.replicate_append_replicate]
      congr 2; omega
    · rw [if_neg hlt]
      have : n = 0 := by omega
      subst this; simp

theorem roundUp8_spec (n : Nat) : n ≤ roundUp8 n ∧ roundUp8 n < n + 8 ∧ roundUp8 n % 8 = 0 := by
  unfold roundUp8; split <;> omega

/-- `verify_size` fills up to the rounded size. -/
theorem verify_app {s : OStr} {b : List Byte} {sz : Nat} (hp : s.pos % 8 = 0) (hsz : sz = if s.isReal then roundUp8 b.length else 0)
    (hb : 0 < b.length) (hf : s.Fits (roundUp8 b.length)) :
    (s.app b).verify s.pos sz = (s.app (b ++ List.replicate (roundUp8 b.length - b.length) 0), true) := by
  obtain ⟨h1, h2, h3⟩ := roundUp8_spec b.length
  unfold OStr.verify
  simp only [app_pos, app_isReal]
  have ha : s.pos + b.length - s.pos = b.length := by omega
  rw [ha]
  by_cases hr : s.isReal = true
  · rw [if_pos hr] at hsz
    by_cases he : b.length = sz
    · rw [if_pos he]
      have : roundUp8 b.length - b.length = 0 := by omega
      rw [this]; simp
    · rw [if_neg he, if_neg (by omega), if_neg (by simp [hr]), if_neg (by omega), if_neg (by omega)]
      rw [pad_app _ _ _ _ rfl (fits_app (fits_mono hf (by omega))), app_app, hsz]
  · have hr' : s.isReal = false := by simpa using hr
    rw [if_neg hr] at hsz
    rw [if_neg (by omega), if_neg (by omega), if_pos hr']
    by_cases hm : (s.pos + b.length) % 8 > 0
    · rw [if_pos hm]
      have hlen : 8 - (s.pos + b.length) % 8 = roundUp8 b.length - b.length := by
        unfold roundUp8; split <;> omega
      rw [hlen, write_app (fits_app (by simp; exact fits_mono hf (by omega))), app_app]
    · rw [if_neg hm]
      have : roundUp8 b.length - b.length = 0 := by unfold roundUp8; split <;> omega
      rw [this]; simp

theorem verify_size_congr {s : OStr} {p a b : Nat} (hr : s.isReal = false) (ha : s.pos - p ≠ a) (hb : s.pos - p ≠ b) :
    s.verify p a = s.verify p b := by
  unfold OStr.verify
  simp only [if_neg ha, if_neg hb, hr, if_true]

/-- Bytes of a stored string. -/
def strBytes (str : List Byte) : List Byte :=
  enc 4 (strStoreSize str / 8) ++ (str ++ [0]) ++ List.replicate (strStoreSize str - (4 + (str.length + 1))) 0

@[simp] theorem strBytes_length (str : List Byte) : (strBytes str).length = strStoreSize str := by
  have := roundUp8_spec (4 + (str.length + 1))
  simp only [strBytes, List.length_append, enc_length, List.length_replicate, List.length_cons, List.length_nil, strStoreSize] at *
  omega

theorem writeStr_app {s : OStr} {str : List Byte} (hp : s.pos % 8 = 0) (hf : s.Fits (strStoreSize str))
    (hm : strStoreSize str ≤ 0xffffffff) : s.writeStr str = (s.app (strBytes str), true) := by
  have hsz := roundUp8_spec (4 + (str.length + 1))
  have hle : strStoreSize str ≤ s.maxStore := by
    cases s with
    | mem out room => exact hf
    | size len => exact hm
  unfold OStr.writeStr
  simp only
  rw [if_neg (by omega)]
  have hss : strStoreSize str = roundUp8 (4 + (str.length + 1)) := rfl
  have h1 : s.u32 (strStoreSize str / 8) = s.app (enc 4 (strStoreSize str / 8)) :=
    write_app (fits_mono hf (by rw [enc_length]; omega))
  have h2 : (s.u32 (strStoreSize str / 8)).write (str ++ [0]) = s.app (enc 4 (strStoreSize str / 8) ++ (str ++ [0])) := by
    rw [h1, write_app (fits_app (fits_mono hf (by simp only [enc_length, List.length_append, List.length_cons, List.length_nil]; omega))),
      app_app]
  rw [h2]
  have hlen : (enc 4 (strStoreSize str / 8) ++ (str ++ [0])).length = 4 + (str.length + 1) := by simp
  by_cases hr : s.isReal = true
  · rw [verify_app hp (by rw [if_pos hr, hlen]; rfl) (by omega) (by rw [hlen]; exact hf), hlen]
    rfl
  · -- in a size stream the given size is not used for padding unless it is equal
    have hr' : s.isReal = false := by simpa using hr
    by_cases he : 4 + (str.length + 1) = strStoreSize str
    · unfold OStr.verify
      simp only [app_pos]
      rw [if_pos (by omega)]
      have : strStoreSize str - (4 + (str.length + 1)) = 0 := by omega
      simp only [strBytes, this, List.replicate_zero, List.append_nil]
    · have := verify_app (s := s) (b := enc 4 (strStoreSize str / 8) ++ (str ++ [0])) (sz := 0) hp (by rw [if_neg hr]) (by omega)
        (by rw [hlen]; exact hf)
      rw [hlen, ← hss] at this
      rw [strBytes, ← this]
      refine verify_size_congr (by simpa using hr') ?_ ?_
      · simp only [app_pos, hlen]; omega
      · simp only [app_pos, hlen]; omega

/-! ## Reading -/

theorem read_append {a b : List Byte} {p n : Nat} (h : a.length = n) : (IStr.mk (a ++ b) p).read n = some (a, ⟨b, p + n⟩) := by
  subst h
  unfold IStr.read
  rw [if_neg (by simp)]
  simp

theorem u32_append {v : Nat} {b : List Byte} {p : Nat} (h : v < 2 ^ 32) : (IStr.mk (enc 4 v ++ b) p).u32 = some (v, ⟨b, p + 4⟩) := by
  unfold IStr.u32
  rw [read_append (by simp)]
  simp only [Option.map_some]
  rw [dec_enc_of_lt (by simpa using h)]

theorem u64_append {v : Nat} {b : List Byte} {p : Nat} (h : v < 2 ^ 64) : (IStr.mk (enc 8 v ++ b) p).u64 = some (v, ⟨b, p + 8⟩) := by
  unfold IStr.u64
  rw [read_append (by simp)]
  simp only [Option.map_some]
  rw [dec_enc_of_lt (by simpa using h)]

/-- The rest up to the stored size is skipped. -/
theorem verify_in {a b : List Byte} {pos sz q : Nat} (hp : pos % 8 = 0) (hsz : sz % 8 = 0) (h : q + a.length = pos + sz) (hq : pos ≤ q) :
    (IStr.mk (a ++ b) q).verify pos sz = (⟨b, pos + sz⟩, true) := by
  unfold IStr.verify
  simp only
  by_cases he : q - pos = sz
  · rw [if_pos he]
    have : a.length = 0 := by omega
    have : a = [] := List.length_eq_zero_iff.mp this
    subst this
    simp only [List.length_nil, Nat.add_zero] at h
    simp [h]
  · rw [if_neg he, if_neg (by omega), if_neg (by omega), if_neg (by omega)]
    unfold IStr.shift
    rw [if_neg (by simp; omega)]
    simp only
    have h1 : sz - (q - pos) = a.length := by omega
    rw [h1]
    simp only [List.drop_left]
    rw [show q + a.length = pos + sz from h]

theorem takeWhile_nul {s b : List Byte} (h : 0 ∉ s) : (s ++ 0 :: b).takeWhile (· ≠ 0) = s := by
  induction s with
  | nil => simp
  | cons c s ih =>
    simp only [List.mem_cons, not_or] at h
    have h1 : c ≠ 0 := fun e => h.1 e.symm
    rw [List.cons_append, List.takeWhile_cons]
    simp only [ne_eq, h1, not_false_eq_true, decide_true, if_true]
    have := ih h.2
    simp only [ne_eq] at this
    rw [this]

theorem cstr_append {s b : List Byte} (h : 0 ∉ s) : cstr (s ++ 0 :: b) = some s := by
  unfold cstr
  rw [if_pos (by simp), takeWhile_nul h]

theorem readStr_append {str rest : List Byte} {p : Nat} (hp : p % 8 = 0) (hs : 0 ∉ str) (hsz : strStoreSize str < 2 ^ 32)
    (hr : 4 ≤ rest.length) :
    (IStr.mk (strBytes str ++ rest) p).readStr = some (str, ⟨rest, p + strStoreSize str⟩, true) := by
  have hru := roundUp8_spec (4 + (str.length + 1))
  have hss : strStoreSize str = roundUp8 (4 + (str.length + 1)) := rfl
  have hdiv : strStoreSize str / 8 * 8 = strStoreSize str := by omega
  unfold IStr.readStr strBytes
  rw [List.append_assoc, List.append_assoc, u32_append (by omega)]
  simp only [Option.bind_some]
  rw [hdiv, if_neg (by simp only [List.length_append, List.length_replicate, List.length_cons, List.length_nil]; omega)]
  rw [show str ++ [0] ++ (List.replicate (strStoreSize str - (4 + (str.length + 1))) 0 ++ rest)
      = str ++ 0 :: (List.replicate (strStoreSize str - (4 + (str.length + 1))) 0 ++ rest) by simp]
  rw [cstr_append hs]
  simp only [Option.map_some]
  rw [show str ++ 0 :: (List.replicate (strStoreSize str - (4 + (str.length + 1))) 0 ++ rest)
      = (str ++ 0 :: List.replicate (strStoreSize str - (4 + (str.length + 1))) 0) ++ rest by simp]
  rw [verify_in hp (by omega) (by simp only [List.length_append, List.length_cons, List.length_replicate]; omega) (by omega)]

end Verif.Stream
