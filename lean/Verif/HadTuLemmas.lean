import Verif.Spec.HadTu
import Mathlib.Tactic.IntervalCases

/-! # Lemmas about the HADAQ headers -/

namespace Verif.HadTu

open Verif.Bytes Verif.Pointer

theorem ofNat_dec4 (a b c d : Byte) : BitVec.ofNat 32 (dec [a, b, c, d]) = d ++ c ++ b ++ a := by
  apply BitVec.eq_of_toNat_eq
  have := a.isLt
  have := b.isLt
  have := c.isLt
  have := d.isLt
  simp only [BitVec.toNat_append, BitVec.toNat_ofNat, dec]
  rw [← Nat.shiftLeft_add_eq_or_of_lt (by omega), ← Nat.shiftLeft_add_eq_or_of_lt (by omega), ← Nat.shiftLeft_add_eq_or_of_lt (by omega)]
  simp only [Nat.shiftLeft_eq]
  omega

theorem swap_bytes (a b c d : Byte) : swap (BitVec.ofNat 32 (dec [a, b, c, d])) = BitVec.ofNat 32 (dec [d, c, b, a]) := by
  rw [ofNat_dec4, ofNat_dec4]
  unfold swap
  apply BitVec.eq_of_getLsbD_eq
  intro i hi
  simp only [BitVec.getLsbD_or, BitVec.getLsbD_shiftLeft, BitVec.getLsbD_ushiftRight, BitVec.getLsbD_and, BitVec.getLsbD_append]
  interval_cases i <;> simp

theorem four {l : List Byte} (h : l.length = 4) : ∃ a b c d, l = [a, b, c, d] := by
  match l, h with
  | [a, b, c, d], _ => exact ⟨a, b, c, d, rfl⟩

theorem swap_dec {l : List Byte} (h : l.length = 4) : swap (BitVec.ofNat 32 (dec l)) = BitVec.ofNat 32 (dec l.reverse) := by
  obtain ⟨a, b, c, d, rfl⟩ := four h
  exact swap_bytes a b c d

theorem ofNat_dec_enc (v : Word) : BitVec.ofNat 32 (dec (enc 4 v.toNat)) = v := by
  apply BitVec.eq_of_toNat_eq
  have := v.isLt
  rw [dec_enc, BitVec.toNat_ofNat]
  omega

theorem swap_swap (v : Word) : swap (swap v) = v := by
  have h : (enc 4 v.toNat).length = 4 := enc_length _ _
  rw [← ofNat_dec_enc v, swap_dec h, swap_dec (by rw [List.length_reverse]; exact h), List.reverse_reverse]

theorem value_value (d v : Word) : value d (value d v) = v := by
  unfold value
  cases h : isSwapped d
  · rfl
  · simp only [if_true]
    exact swap_swap v

/-- Replace bytes of a segment. -/
def patch (s : List Byte) (o : Nat) (d : List Byte) : List Byte := s.take o ++ d ++ s.drop (o + d.length)

theorem patch_length {s : List Byte} {o : Nat} {d : List Byte} (h : o + d.length ≤ s.length) : (patch s o d).length = s.length := by
  simp only [patch, List.length_append, List.length_take, List.length_drop]
  omega

theorem patch_get {s : List Byte} {o : Nat} {d : List Byte} (h : o + d.length ≤ s.length) (j : Nat) :
    (patch s o d)[j]? = if j < o then s[j]? else if j < o + d.length then d[j - o]? else s[j]? := by
  have h1 : (s.take o).length = o := by rw [List.length_take]; omega
  simp only [patch, List.append_assoc]
  by_cases hj : j < o
  · rw [if_pos hj, List.getElem?_append_left (by omega), List.getElem?_take, if_pos hj]
  · rw [if_neg hj, List.getElem?_append_right (by omega), h1]
    by_cases hj2 : j < o + d.length
    · rw [if_pos hj2, List.getElem?_append_left (by omega)]
    · rw [if_neg hj2, List.getElem?_append_right (by omega), List.getElem?_drop]
      congr 1
      omega

theorem slice_get (s : List Byte) (o n j : Nat) : ((s.drop o).take n)[j]? = if j < n then s[o + j]? else none := by
  rw [List.getElem?_take]
  split
  · rw [List.getElem?_drop]
  · rfl

theorem slice_patch_same {s : List Byte} {o : Nat} {d : List Byte} (h : o + d.length ≤ s.length) :
    ((patch s o d).drop o).take d.length = d := by
  apply List.ext_getElem?
  intro j
  rw [slice_get, patch_get h]
  by_cases hj : j < d.length
  · rw [if_pos hj, if_neg (by omega), if_pos (by omega)]
    congr 1
    omega
  · rw [if_neg hj, List.getElem?_eq_none (by omega)]

theorem slice_patch_other {s : List Byte} {o : Nat} {d : List Byte} (h : o + d.length ≤ s.length) {o' n : Nat}
    (hd : o' + n ≤ o ∨ o + d.length ≤ o') : ((patch s o d).drop o').take n = (s.drop o').take n := by
  apply List.ext_getElem?
  intro j
  rw [slice_get, slice_get, patch_get h]
  by_cases hj : j < n
  · rw [if_pos hj, if_pos hj]
    rcases hd with hd | hd
    · rw [if_pos (by omega)]
    · rw [if_neg (by omega), if_neg (by omega)]
  · rw [if_neg hj, if_neg hj]

theorem slice_length {s : List Byte} {o n : Nat} (h : o + n ≤ s.length) : ((s.drop o).take n).length = n := by
  rw [List.length_take, List.length_drop]
  omega

theorem readMem_eq {mem : Mem} {p : Ptr} {s : List Byte} (hs : mem[p.segm]? = some s) {k n : Nat} (h : p.off + k + n ≤ s.length) :
    readMem mem { p with off := p.off + k } n = some ((s.drop (p.off + k)).take n) := by
  simp only [readMem, hs, if_pos h]

theorem word_eq {mem : Mem} {p : Ptr} {s : List Byte} (hs : mem[p.segm]? = some s) {k : Nat} (h : p.off + k + 4 ≤ s.length) :
    word mem p k = some (BitVec.ofNat 32 (dec ((s.drop (p.off + k)).take 4))) := by
  unfold word
  rw [readMem_eq hs h]
  rfl

theorem putWord_eq {mem : Mem} {p : Ptr} {s : List Byte} (hs : mem[p.segm]? = some s) {k : Nat} (h : p.off + k + 4 ≤ s.length) (v : Word) :
    putWord mem p k v = some (mem.set p.segm (patch s (p.off + k) (enc 4 v.toNat))) := by
  unfold putWord
  simp only [writeMem, hs, enc_length, if_pos h]
  rfl

theorem set_get {mem : Mem} {i : Nat} {s t : List Byte} (hs : mem[i]? = some s) : (mem.set i t)[i]? = some t := by
  have h : i < mem.length := by
    rcases Nat.lt_or_ge i mem.length with h | h
    · exact h
    · rw [List.getElem?_eq_none h] at hs
      cases hs
  rw [List.getElem?_set_self h]

theorem word_put_same {mem : Mem} {p : Ptr} {s : List Byte} (hs : mem[p.segm]? = some s) {k : Nat} (h : p.off + k + 4 ≤ s.length) (v : Word) :
    word (mem.set p.segm (patch s (p.off + k) (enc 4 v.toNat))) p k = some v := by
  have hl : p.off + k + (enc 4 v.toNat).length ≤ s.length := by rw [enc_length]; exact h
  rw [word_eq (set_get hs) (by rw [patch_length hl]; exact h)]
  have := slice_patch_same hl
  rw [enc_length] at this
  rw [this, ofNat_dec_enc]

theorem word_put_other {mem : Mem} {p : Ptr} {s : List Byte} (hs : mem[p.segm]? = some s) {k j : Nat} (h : p.off + k + 4 ≤ s.length)
    (hj : p.off + j + 4 ≤ s.length) (hd : j + 4 ≤ k ∨ k + 4 ≤ j) (v : Word) :
    word (mem.set p.segm (patch s (p.off + k) (enc 4 v.toNat))) p j = word mem p j := by
  have hl : p.off + k + (enc 4 v.toNat).length ≤ s.length := by rw [enc_length]; exact h
  rw [word_eq (set_get hs) (by rw [patch_length hl]; exact hj), word_eq hs hj, slice_patch_other hl (by rw [enc_length]; omega)]

theorem byteAt_set {mem : Mem} {i : Nat} {s : List Byte} (hs : mem[i]? = some s) {o : Nat} {d : List Byte} (h : o + d.length ≤ s.length)
    {i' j : Nat} (ho : i' ≠ i ∨ j < o ∨ o + d.length ≤ j) : byteAt (mem.set i (patch s o d)) i' j = byteAt mem i' j := by
  unfold byteAt
  by_cases hi : i' = i
  · subst hi
    rw [set_get hs, hs]
    show (patch s o d)[j]? = s[j]?
    rw [patch_get h]
    rcases ho with ho | ho | ho
    · exact absurd rfl ho
    · rw [if_pos ho]
    · rw [if_neg (by omega), if_neg (by omega)]
  · rw [List.getElem?_set_ne (fun e => hi e.symm)]

/-- The byte order of the header read from the bytes. -/
theorem isSwapped_dec {l : List Byte} (h : l.length = 4) : isSwapped (BitVec.ofNat 32 (dec l)) = decide (l[3]? ≠ some 0) := by
  obtain ⟨a, b, c, d, rfl⟩ := four h
  have ha := a.isLt
  have hb := b.isLt
  have hc := c.isLt
  have hd := d.isLt
  unfold isSwapped
  apply decide_eq_decide.2
  show BitVec.ofNat 32 _ > (0xffffff : Word) ↔ some d ≠ some 0
  rw [gt_iff_lt, BitVec.lt_def, BitVec.toNat_ofNat]
  show 0xffffff < _ ↔ _
  simp only [dec]
  constructor
  · intro h e
    injection e with e
    subst e
    simp at h
    omega
  · intro h
    have : d.toNat ≠ 0 := fun e => h (congrArg some (BitVec.eq_of_toNat_eq e))
    omega

theorem isSwapped_value {d v : Word} (h : d.toNat < 2 ^ 24 ∧ d.toNat % 256 ≠ 0) : isSwapped (value v d) = isSwapped v := by
  unfold value
  cases hv : isSwapped v
  · simp only [Bool.false_eq_true, if_false]
    apply decide_eq_false
    rw [gt_iff_lt, BitVec.lt_def]
    show ¬ 0xffffff < d.toNat
    omega
  · simp only [if_true]
    have hl : (enc 4 d.toNat).length = 4 := enc_length _ _
    rw [← ofNat_dec_enc d, swap_dec hl, isSwapped_dec (by rw [List.length_reverse]; exact hl)]
    apply decide_eq_true
    show ¬ (some (BitVec.ofNat 8 d.toNat) = some 0)
    intro e
    injection e with e
    have := congrArg BitVec.toNat e
    rw [BitVec.toNat_ofNat] at this
    exact h.2 this

end Verif.HadTu
