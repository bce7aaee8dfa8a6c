/-!
# Bytes of integers in memory

Integers are stored by `memcpy` of their memory representation; the machine is taken to be
little-endian (as the code does in many places).
-/

namespace Verif.Bytes

abbrev Byte := BitVec 8

/-- The `k` bytes of the number `v` (modulo `256^k`), least significant first. -/
def enc : Nat → Nat → List Byte
  | 0, _ => []
  | k + 1, v => BitVec.ofNat 8 v :: enc k (v / 256)

/-- Number represented by bytes, least significant first. -/
def dec : List Byte → Nat
  | [] => 0
  | b :: l => b.toNat + 256 * dec l

@[simp] theorem enc_length (k v : Nat) : (enc k v).length = k := by
  induction k generalizing v with
  | zero => rfl
  | succ k ih => simp [enc, ih]

theorem dec_enc (k v : Nat) : dec (enc k v) = v % 256 ^ k := by
  induction k generalizing v with
  | zero => simp [enc, dec, Nat.mod_one]
  | succ k ih =>
    simp only [enc, dec, ih, BitVec.toNat_ofNat]
    have h : (256 : Nat) ^ (k + 1) = 256 * 256 ^ k := by rw [Nat.pow_succ, Nat.mul_comm]
    rw [h, Nat.mod_mul]

theorem dec_enc_of_lt {k v : Nat} (h : v < 256 ^ k) : dec (enc k v) = v := by
  rw [dec_enc, Nat.mod_eq_of_lt h]

theorem dec_lt (l : List Byte) : dec l < 256 ^ l.length := by
  induction l with
  | nil => simp [dec]
  | cons b l ih =>
    have := b.isLt
    simp only [dec, List.length_cons, Nat.pow_succ]
    omega

theorem enc_dec (l : List Byte) : enc l.length (dec l) = l := by
  induction l with
  | nil => rfl
  | cons b l ih =>
    have := b.isLt
    simp only [List.length_cons, enc, dec]
    have h1 : BitVec.ofNat 8 (b.toNat + 256 * dec l) = b := by
      apply BitVec.eq_of_toNat_eq
      rw [BitVec.toNat_ofNat]
      omega
    have h2 : (b.toNat + 256 * dec l) / 256 = dec l := by omega
    rw [h1, h2, ih]

end Verif.Bytes
