import Verif.HadTuLemmas

/-! # C31: HADAQ headers are read and written in their own byte order -/

namespace Verif.HadTu

open Verif.Bytes Verif.Pointer

/-- A field has the number its bytes represent in the byte order of the header. -/
theorem C31_value {mem : Mem} {p : Ptr} {k : Nat} (h8 : Fits mem p 8) (hk : Fits mem p (k + 4)) :
    getField mem p k = some (BitVec.ofNat 32 (number (bigEndian mem p) (bytesAt mem p k 4))) := by
  obtain ⟨s, hs, h1⟩ := h8
  obtain ⟨s', hs', h2⟩ := hk
  rw [hs] at hs'
  injection hs' with hs'
  subst hs'
  have hl4 : ((s.drop (p.off + 4)).take 4).length = 4 := slice_length (by omega)
  have hlk : ((s.drop (p.off + k)).take 4).length = 4 := slice_length (by omega)
  unfold getField
  rw [word_eq hs (by omega), word_eq hs (by omega)]
  show some (value _ _) = _
  have hb : isSwapped (BitVec.ofNat 32 (dec ((s.drop (p.off + 4)).take 4))) = bigEndian mem p := by
    rw [isSwapped_dec hl4, slice_get]
    unfold bigEndian byteAt
    rw [hs]
    rfl
  unfold value bytesAt number
  rw [hb, hs]
  cases bigEndian mem p
  · rfl
  · simp only [if_true]
    rw [swap_dec hlk]
    rfl


/-- Setting a field other than the decoding: the field reads back, every other field is as before and no other
byte of the memory is touched. -/
theorem C31_set {mem : Mem} {p : Ptr} {k : Nat} (v : Word) (h8 : Fits mem p 8) (hk : Fits mem p (k + 4))
    (h4 : k = 0 ∨ 8 ≤ k) :
    ∃ mem', setField mem p k v = some mem' ∧ getField mem' p k = some v ∧
      (∀ j, Fits mem p (j + 4) → (j + 4 ≤ k ∨ k + 4 ≤ j) → getField mem' p j = getField mem p j) ∧
      (∀ i j, (i ≠ p.segm ∨ j < p.off + k ∨ p.off + k + 4 ≤ j) → byteAt mem' i j = byteAt mem i j) := by
  obtain ⟨s, hs, h1⟩ := h8
  obtain ⟨s', hs', h2⟩ := hk
  rw [hs] at hs'
  injection hs' with hs'
  subst hs'
  have hk4 : p.off + k + 4 ≤ s.length := by omega
  have hw4 := word_eq hs (k := 4) (by omega)
  generalize hd : BitVec.ofNat 32 (dec ((s.drop (p.off + 4)).take 4)) = d at hw4
  refine ⟨mem.set p.segm (patch s (p.off + k) (enc 4 (value d v).toNat)), ?_, ?_, ?_, ?_⟩
  · unfold setField
    rw [hw4]
    exact putWord_eq hs hk4 _
  · unfold getField
    rw [word_put_same hs hk4, word_put_other hs hk4 (by omega) (by omega), hw4]
    show some (value d (value d v)) = some v
    rw [value_value]
  · intro j hj hd'
    obtain ⟨s', hs', h3⟩ := hj
    rw [hs] at hs'
    injection hs' with hs'
    subst hs'
    unfold getField
    rw [word_put_other hs hk4 (by omega) (by omega), word_put_other hs hk4 (by omega) (by omega)]
  · intro i j ho
    exact byteAt_set hs (by rw [enc_length]; omega) (by rw [enc_length]; exact ho)

/-- Setting a decoding word as described in the header file: it reads back, the byte order of the header stays and
so does every other field. -/
theorem C31_decoding {mem : Mem} {p : Ptr} {v : Word} (hv : GoodDecoding v) (h8 : Fits mem p 8) :
    ∃ mem', setField mem p 4 v = some mem' ∧ getField mem' p 4 = some v ∧ bigEndian mem' p = bigEndian mem p ∧
      (∀ j, Fits mem p (j + 4) → (j = 0 ∨ 8 ≤ j) → getField mem' p j = getField mem p j) ∧
      (∀ i j, (i ≠ p.segm ∨ j < p.off + 4 ∨ p.off + 8 ≤ j) → byteAt mem' i j = byteAt mem i j) := by
  obtain ⟨s, hs, h1⟩ := h8
  have hk4 : p.off + 4 + 4 ≤ s.length := by omega
  have hw4 := word_eq hs (k := 4) (by omega)
  generalize hd : BitVec.ofNat 32 (dec ((s.drop (p.off + 4)).take 4)) = d at hw4
  have hsw : isSwapped (value d v) = isSwapped d := isSwapped_value hv
  have hvv : ∀ x, value (value d v) x = value d x := fun x => by
    show (if isSwapped (value d v) = true then _ else _) = _
    rw [hsw]
    rfl
  have hset : mem.set p.segm (patch s (p.off + 4) (enc 4 (value d v).toNat)) = _ := rfl
  have hbig : ∀ (m : Mem) (t : List Byte) (w : Word), m[p.segm]? = some t → p.off + 8 ≤ t.length → word m p 4 = some w →
      bigEndian m p = isSwapped w := by
    intro m t w ht hlen hw
    rw [word_eq ht (by omega)] at hw
    injection hw with hw
    rw [← hw, isSwapped_dec (slice_length (by omega)), slice_get]
    unfold bigEndian byteAt
    rw [ht]
    rfl
  refine ⟨mem.set p.segm (patch s (p.off + 4) (enc 4 (value d v).toNat)), ?_, ?_, ?_, ?_, ?_⟩
  · unfold setField
    rw [hw4]
    exact putWord_eq hs hk4 _
  · unfold getField
    rw [word_put_same hs hk4]
    show some (value _ _) = some v
    rw [hvv, value_value]
  · rw [hbig _ _ _ (set_get hs) (by rw [patch_length (by rw [enc_length]; omega)]; omega) (word_put_same hs hk4 _), hbig _ _ _ hs h1 hw4, hsw]
  · intro j hj hd'
    obtain ⟨s', hs', h3⟩ := hj
    rw [hs] at hs'
    injection hs' with hs'
    subst hs'
    unfold getField
    rw [word_put_same hs hk4, word_put_other hs hk4 (by omega) (by omega), hw4, word_eq hs (k := j) (by omega)]
    show some (value _ _) = some (value _ _)
    rw [hvv]
  · intro i j ho
    exact byteAt_set hs (by rw [enc_length]; omega) (by rw [enc_length]; exact ho)

/-- Memory of a header in the byte order of the machine, and one in the other byte order. -/
def nativeMem : Mem := [[16, 0, 0, 0, 1, 0, 2, 0, 5, 0, 0, 128, 7, 0, 0, 0, 1, 2, 3, 4]]
def swappedMem : Mem := [[0, 0, 0, 20, 0, 2, 0, 17, 128, 0, 0, 5, 0, 0, 0, 7, 1, 2, 3, 4]]

example : Fits swappedMem (start [20]) 16 ∧ GoodDecoding 0x20011 ∧ bigEndian swappedMem (start [20]) = true ∧
    getField swappedMem (start [20]) 4 = some 0x20011 ∧ getSize swappedMem (start [20]) = some 20 ∧
    data swappedMem (start [20]) 0 = some 0x01020304 := by
  refine ⟨⟨_, rfl, by decide⟩, by unfold GoodDecoding; decide, by decide, by decide, by decide, by decide⟩

example : Fits nativeMem (start [20]) 16 ∧ bigEndian nativeMem (start [20]) = false ∧ getSize nativeMem (start [20]) = some 16 ∧
    data nativeMem (start [20]) 0 = some 0x04030201 := by
  refine ⟨⟨_, rfl, by decide⟩, by decide, by decide, by decide⟩

/-- Without that form of the decoding word the value does not read back and the byte order changes: `SetDecoding(0x200)`
in a swapped header, and `SetDecoding(0x1000000)` in a native one. -/
theorem C31_decoding_counterexample :
    ((setField swappedMem (start [20]) 4 0x200).bind fun m => getField m (start [20]) 4) = some 0x20000 ∧
    ((setField nativeMem (start [20]) 4 0x1000000).bind fun m => getField m (start [20]) 4) = some 1 ∧
    ((setField nativeMem (start [20]) 4 0x1000000).bind fun m => getField m (start [20]) 8) = some 0x05000080 := by
  refine ⟨by decide, by decide, by decide⟩

/-- The padded size is the smallest multiple of 8 not below the size. -/
theorem C31_padded_partial {s : Nat} (h : s ≤ 2 ^ 32 - 8) :
    8 ∣ padded s ∧ s ≤ padded s ∧ ∀ m, 8 ∣ m → s ≤ m → padded s ≤ m := by
  unfold padded
  split
  · rename_i h0
    exact ⟨Nat.dvd_of_mod_eq_zero h0, Nat.le_refl _, fun m _ hm => hm⟩
  · rename_i h0
    have hlt : s + 8 - s % 8 < 2 ^ 32 ∨ s + 8 - s % 8 = 2 ^ 32 := by omega
    rcases hlt with hlt | hlt
    · rw [Nat.mod_eq_of_lt hlt]
      refine ⟨Nat.dvd_of_mod_eq_zero (by omega), by omega, ?_⟩
      intro m hm hsm
      have := Nat.mod_eq_zero_of_dvd hm
      omega
    · omega

example : (13 : Nat) ≤ 2 ^ 32 - 8 ∧ padded 13 = 16 := by decide

/-- Sizes behind that wrap around to zero. -/
theorem C31_padded_counterexample : padded 0xfffffff9 = 0 := by decide

/-- The error bit reads back and the other bits of the id stay. -/
theorem C31_error {mem : Mem} {p : Ptr} (on : Bool) {id : Word} (h12 : Fits mem p 12) (hid : getField mem p 8 = some id) :
    ∃ mem', setDataError mem p on = some mem' ∧ getDataError mem' p = some on ∧
      (∃ id', getField mem' p 8 = some id' ∧ id'.setWidth 31 = id.setWidth 31) ∧
      getField mem' p 0 = getField mem p 0 ∧ getField mem' p 4 = getField mem p 4 := by
  obtain ⟨s, hs, h1⟩ := h12
  obtain ⟨mem', e1, e2, e3, -⟩ := C31_set (mem := mem) (p := p) (k := 8)
    (if on then id ||| (0x80000000 : Word) else id &&& ~~~(0x80000000 : Word)) ⟨s, hs, by omega⟩ ⟨s, hs, by omega⟩ (Or.inr (by omega))
  have hbit : ∀ v : Word, decide (v &&& (0x80000000 : Word) ≠ 0) = v.getLsbD 31 := by
    intro v
    have hm : ∀ i, (v &&& (0x80000000 : Word)).getLsbD i = (v.getLsbD i && decide (i = 31)) := by
      intro i
      rw [BitVec.getLsbD_and]
      congr 1
      by_cases hi : i < 32
      · interval_cases i <;> decide
      · rw [BitVec.getLsbD_of_ge _ _ (by omega)]
        exact (decide_eq_false (by omega)).symm
    cases hv : v.getLsbD 31
    · apply decide_eq_false
      intro h
      apply h
      apply BitVec.eq_of_getLsbD_eq
      intro i hi
      rw [hm, show BitVec.getLsbD (0 : Word) i = false from BitVec.getLsbD_zero]
      by_cases h31 : i = 31
      · rw [h31, hv]
        rfl
      · simp [h31]
    · apply decide_eq_true
      intro h
      have := hm 31
      rw [h, hv] at this
      exact absurd this (by decide)
  refine ⟨mem', ?_, ?_, ⟨_, e2, ?_⟩, e3 0 ⟨s, hs, by omega⟩ (Or.inl (by omega)), e3 4 ⟨s, hs, by omega⟩ (Or.inl (by omega))⟩
  · unfold setDataError
    rw [hid]
    exact e1
  · unfold getDataError
    rw [e2]
    show some (decide (_ &&& (0x80000000 : Word) ≠ 0)) = some on
    rw [hbit]
    cases on
    · simp only [Bool.false_eq_true, if_false, BitVec.getLsbD_and]
      show some (id.getLsbD 31 && (~~~(0x80000000 : Word)).getLsbD 31) = some false
      have : (~~~(0x80000000 : Word)).getLsbD 31 = false := by decide
      rw [this, Bool.and_false]
    · simp only [if_true, BitVec.getLsbD_or]
      show some (id.getLsbD 31 || (0x80000000 : Word).getLsbD 31) = some true
      have : (0x80000000 : Word).getLsbD 31 = true := by decide
      rw [this, Bool.or_true]
  · apply BitVec.eq_of_getLsbD_eq
    intro i hi
    rw [BitVec.getLsbD_setWidth, BitVec.getLsbD_setWidth]
    congr 1
    have b1 : (~~~(0x80000000 : Word)).getLsbD i = true := by
      interval_cases i <;> decide
    have b2 : (0x80000000 : Word).getLsbD i = false := by
      interval_cases i <;> decide
    cases on
    · simp only [Bool.false_eq_true, if_false, BitVec.getLsbD_and]
      rw [b1, Bool.and_true]
    · simp only [if_true, BitVec.getLsbD_or]
      rw [b2, Bool.or_false]

example : Fits nativeMem (start [20]) 12 ∧ getField nativeMem (start [20]) 8 = some 0x80000005 ∧ getDataError nativeMem (start [20]) = some true :=
  ⟨⟨_, rfl, by decide⟩, by decide, by decide⟩

/-- A trigger type of four bits reads back, the other bits of the decoding and all other fields stay, when the low
four bits of the decoding are not all zero. -/
theorem C31_trigtype_partial {mem : Mem} {p : Ptr} {typ : Byte} {d : Word} (ht : typ.toNat < 16) (h8 : Fits mem p 8)
    (hd : getField mem p 4 = some d) (hlt : d.toNat < 2 ^ 24) (hn : d.toNat % 16 ≠ 0) :
    ∃ mem', setTrigType mem p typ = some mem' ∧ getTrigType mem' p = some typ ∧ bigEndian mem' p = bigEndian mem p ∧
      (∃ d', getField mem' p 4 = some d' ∧ d'.toNat / 256 = d.toNat / 256 ∧ d'.toNat % 16 = d.toNat % 16) ∧
      (∀ j, Fits mem p (j + 4) → (j = 0 ∨ 8 ≤ j) → getField mem' p j = getField mem p j) := by
  have key : ((d &&& ~~~(0xF0 : Word)) ||| ((typ.setWidth 32 : Word) <<< 4)).toNat = d.toNat / 256 * 256 + typ.toNat * 16 + d.toNat % 16 := by
    have hb : d = (BitVec.ofNat 24 (d.toNat / 256)) ++ (BitVec.ofNat 4 (d.toNat / 16 % 16)) ++ (BitVec.ofNat 4 (d.toNat % 16)) := by
      apply BitVec.eq_of_toNat_eq
      simp only [BitVec.toNat_append, BitVec.toNat_ofNat]
      rw [← Nat.shiftLeft_add_eq_or_of_lt (by omega), ← Nat.shiftLeft_add_eq_or_of_lt (by omega)]
      simp only [Nat.shiftLeft_eq]
      omega
    have hr : (d &&& ~~~(0xF0 : Word)) ||| ((typ.setWidth 32 : Word) <<< 4) =
        (BitVec.ofNat 24 (d.toNat / 256)) ++ (BitVec.ofNat 4 typ.toNat) ++ (BitVec.ofNat 4 (d.toNat % 16)) := by
      generalize hx : BitVec.ofNat 24 (d.toNat / 256) = x at hb
      generalize hy : BitVec.ofNat 4 (d.toNat / 16 % 16) = y at hb
      generalize hz : BitVec.ofNat 4 (d.toNat % 16) = z at hb
      rw [hb]
      apply BitVec.eq_of_getLsbD_eq
      intro i hi
      simp only [BitVec.getLsbD_or, BitVec.getLsbD_shiftLeft, BitVec.getLsbD_and, BitVec.getLsbD_append, BitVec.getLsbD_setWidth,
        BitVec.getLsbD_not, BitVec.getLsbD_ofNat]
      have ht4 : ∀ j, 4 ≤ j → typ.getLsbD j = false := by
        intro j hj
        have : typ.toNat < 2 ^ j := Nat.lt_of_lt_of_le (show typ.toNat < 2 ^ 4 from ht) (Nat.pow_le_pow_right (by omega) hj)
        exact Nat.testBit_lt_two_pow this
      have htb : ∀ j, typ.toNat.testBit j = typ.getLsbD j := fun j => rfl
      have t4 : typ[4] = false := ht4 4 (by omega)
      have t5 : typ[5] = false := ht4 5 (by omega)
      have t6 : typ[6] = false := ht4 6 (by omega)
      have t7 : typ[7] = false := ht4 7 (by omega)
      interval_cases i <;> simp [htb, t4, t5, t6, t7]
    rw [hr]
    simp only [BitVec.toNat_append, BitVec.toNat_ofNat]
    rw [← Nat.shiftLeft_add_eq_or_of_lt (by omega), ← Nat.shiftLeft_add_eq_or_of_lt (by omega)]
    simp only [Nat.shiftLeft_eq]
    omega
  obtain ⟨mem', e1, e2, e3, e4, -⟩ := C31_decoding (mem := mem) (p := p)
    (v := (d &&& ~~~(0xF0 : Word)) ||| ((typ.setWidth 32 : Word) <<< 4)) ⟨by rw [key]; omega, by rw [key]; omega⟩ h8
  refine ⟨mem', ?_, ?_, e3, ⟨_, e2, by rw [key]; omega, by rw [key]; omega⟩, e4⟩
  · unfold setTrigType
    rw [hd]
    exact e1
  · unfold getTrigType
    rw [e2]
    show some _ = some typ
    congr 1
    apply BitVec.eq_of_getLsbD_eq
    intro i hi
    have ht4 : ∀ j, 4 ≤ j → typ.getLsbD j = false := by
      intro j hj
      have : typ.toNat < 2 ^ j := Nat.lt_of_lt_of_le (show typ.toNat < 2 ^ 4 from ht) (Nat.pow_le_pow_right (by omega) hj)
      exact Nat.testBit_lt_two_pow this
    simp only [BitVec.getLsbD_or, BitVec.getLsbD_shiftLeft, BitVec.getLsbD_and, BitVec.getLsbD_setWidth,
        BitVec.getLsbD_not, BitVec.getLsbD_ushiftRight]
    have t4 : typ[4] = false := ht4 4 (by omega)
    have t5 : typ[5] = false := ht4 5 (by omega)
    have t6 : typ[6] = false := ht4 6 (by omega)
    have t7 : typ[7] = false := ht4 7 (by omega)
    interval_cases i <;> simp [t4, t5, t6, t7]

example : (5 : Byte).toNat < 16 ∧ Fits swappedMem (start [20]) 8 ∧ getField swappedMem (start [20]) 4 = some 0x20011 :=
  ⟨by decide, ⟨_, rfl, by decide⟩, by decide⟩

/-- A trigger type of more than four bits is not cut off and changes the neighbouring byte, and when the last byte of
the decoding becomes zero a swapped header is not recognized any more. -/
theorem C31_trigtype_counterexample :
    ((setTrigType nativeMem (start [20]) 0x15).bind fun m => getTrigType m (start [20])) = some 5 ∧
    ((setTrigType nativeMem (start [20]) 0x15).bind fun m => getField m (start [20]) 4) = some 0x20151 ∧
    ((setTrigType [[0, 0, 0, 20, 0, 2, 0, 16, 128, 0, 0, 5, 0, 0, 0, 7]] (start [16]) 0).bind fun m => getSize m (start [16])) = some 0x14000000 := by
  refine ⟨by decide, by decide, by decide⟩

theorem swap16_bytes (a b : Byte) : swap16 (BitVec.ofNat 16 (dec [a, b])) = BitVec.ofNat 16 (dec [b, a]) := by
  have h : ∀ a b : Byte, BitVec.ofNat 16 (dec [a, b]) = b ++ a := by
    intro a b
    apply BitVec.eq_of_toNat_eq
    have := a.isLt
    have := b.isLt
    simp only [BitVec.toNat_append, BitVec.toNat_ofNat, dec]
    rw [← Nat.shiftLeft_add_eq_or_of_lt (by omega)]
    simp only [Nat.shiftLeft_eq]
    omega
  rw [h, h]
  unfold swap16
  apply BitVec.eq_of_getLsbD_eq
  intro i hi
  simp only [BitVec.getLsbD_or, BitVec.getLsbD_shiftLeft, BitVec.getLsbD_ushiftRight, BitVec.getLsbD_and, BitVec.getLsbD_append]
  interval_cases i <;> simp

/-- Length of a data word in bytes as told by the second byte of the decoding word: 0 byte, 1 16-bit word, 2 32-bit
word (defines.h:237); for other values the data are taken as bytes. -/
def wordLength (d : Word) : Nat :=
  if d.toNat / 65536 % 256 = 1 then 2 else if d.toNat / 65536 % 256 = 2 then 4 else 1

/-- The data words are the numbers made of the bytes behind the header, in the byte order of the header, and their
count is the size of the data in such words. -/
theorem C31_data {mem : Mem} {p : Ptr} {d : Word} {idx size : Nat} (hd : getField mem p 4 = some d) (hs : getSize mem p = some size)
    (ha : d.toNat / 65536 % 256 < 31) (h16 : 16 ≤ size) (hfit : Fits mem p size) (hidx : idx < (size - 16) / wordLength d) :
    data mem p idx = some (number (bigEndian mem p) (bytesAt mem p (16 + wordLength d * idx) (wordLength d))) ∧
    nrOfDataWords mem p = some ((size - 16) / wordLength d) := by
  obtain ⟨s, hseg, hlen⟩ := hfit
  have hsz : size < 2 ^ 32 := by
    unfold getSize at hs
    cases hf : getField mem p 0 with
    | none => rw [hf] at hs; cases hs
    | some v => rw [hf] at hs; injection hs with hs; rw [← hs]; exact v.isLt
  have hal : ((d >>> 16) &&& (0xff : Word)).toNat = d.toNat / 65536 % 256 := by
    rw [BitVec.toNat_and, BitVec.toNat_ushiftRight, Nat.shiftRight_eq_div_pow]
    exact Nat.and_two_pow_sub_one_eq_mod _ 8
  have halign : alignment mem p = some (2 ^ (d.toNat / 65536 % 256)) := by
    unfold alignment
    rw [hd]
    show (if _ then _ else _) = _
    rw [hal, if_pos ha]
  have hsub : sub32 size 16 = size - 16 := by unfold sub32; omega
  have hw4 := word_eq hseg (k := 4) (by omega)
  generalize hdw : BitVec.ofNat 32 (dec ((s.drop (p.off + 4)).take 4)) = dw at hw4
  have hbig : isSwapped dw = bigEndian mem p := by
    rw [← hdw, isSwapped_dec (slice_length (by omega)), slice_get]
    unfold bigEndian byteAt
    rw [hseg]
    rfl
  have hwl : wordLength d = if d.toNat / 65536 % 256 = 1 then 2 else if d.toNat / 65536 % 256 = 2 then 4 else 1 := rfl
  clear hal
  generalize d.toNat / 65536 % 256 = x at *
  have hnum : nrOfDataWords mem p = some (if 2 ^ x = 4 then (size - 16) / 4 else if 2 ^ x = 2 then (size - 16) / 2 else size - 16) := by
    unfold nrOfDataWords
    rw [hs, halign, ← hsub]
  have hdata : data mem p idx = (if 2 ^ x = 4 then (word mem p (16 + 4 * idx)).map fun v => (value dw v).toNat
    else if 2 ^ x = 2 then (readMem mem { p with off := p.off + (16 + 2 * idx) } 2).map fun l =>
      (if isSwapped dw then swap16 (BitVec.ofNat 16 (dec l)) else BitVec.ofNat 16 (dec l)).toNat
    else (readMem mem { p with off := p.off + (16 + idx) } 1).map dec) := by
    unfold data
    rw [halign, hw4]
  by_cases h2 : x = 2
  · subst h2
    have hwl : wordLength d = 4 := hwl
    rw [hwl] at hidx ⊢
    rw [hdata, hnum]
    refine ⟨?_, rfl⟩
    rw [if_pos (by decide), word_eq hseg (by omega)]
    have hl : ((s.drop (p.off + (16 + 4 * idx))).take 4).length = 4 := slice_length (by omega)
    show some (value dw _).toNat = _
    unfold value number bytesAt
    rw [hbig, hseg]
    have hlt : ∀ l : List Byte, l.length = 4 → dec l < 2 ^ 32 := fun l hl => by
      have := dec_lt l
      rw [hl] at this
      omega
    cases bigEndian mem p
    · simp only [Bool.false_eq_true, if_false]
      rw [BitVec.toNat_ofNat, Nat.mod_eq_of_lt (hlt _ hl)]
      rfl
    · simp only [if_true]
      rw [swap_dec hl, BitVec.toNat_ofNat, Nat.mod_eq_of_lt (hlt _ (by rw [List.length_reverse]; exact hl))]
      rfl
  by_cases h1 : x = 1
  · subst h1
    have hwl : wordLength d = 2 := hwl
    rw [hwl] at hidx ⊢
    rw [hdata, hnum]
    refine ⟨?_, rfl⟩
    rw [if_neg (by decide), if_pos (by decide), readMem_eq hseg (by omega)]
    have hl : ((s.drop (p.off + (16 + 2 * idx))).take 2).length = 2 := slice_length (by omega)
    show some _ = _
    unfold number bytesAt
    rw [hbig, hseg]
    have hlt : ∀ l : List Byte, l.length = 2 → dec l < 2 ^ 16 := fun l hl => by
      have := dec_lt l
      rw [hl] at this
      omega
    show _ = some (if bigEndian mem p = true then dec ((s.drop (p.off + (16 + 2 * idx))).take 2).reverse else dec ((s.drop (p.off + (16 + 2 * idx))).take 2))
    generalize (s.drop (p.off + (16 + 2 * idx))).take 2 = l at hl
    match l, hl with
    | [a, b], _ =>
      cases bigEndian mem p
      · simp only [Bool.false_eq_true, if_false]
        rw [BitVec.toNat_ofNat, Nat.mod_eq_of_lt (hlt _ rfl)]
      · simp only [if_true]
        rw [swap16_bytes, BitVec.toNat_ofNat, Nat.mod_eq_of_lt (hlt _ rfl)]
        rfl
  · have hwl : wordLength d = 1 := by rw [hwl, if_neg h1, if_neg h2]
    have h8 : 2 ^ x ≠ 4 ∧ 2 ^ x ≠ 2 := by
      match x, h1, h2 with
      | 0, _, _ => decide
      | x + 3, _, _ =>
        have h8 : 2 ^ 3 ≤ 2 ^ (x + 3) := Nat.pow_le_pow_right (n := 2) (by omega) (by omega)
        omega
    rw [hwl] at hidx ⊢
    rw [hdata, hnum]
    refine ⟨?_, by rw [if_neg h8.1, if_neg h8.2, Nat.div_one]⟩
    rw [if_neg h8.1, if_neg h8.2, Nat.one_mul, readMem_eq hseg (by omega)]
    have hl : ((s.drop (p.off + (16 + idx))).take 1).length = 1 := slice_length (by omega)
    unfold number bytesAt
    rw [hseg]
    show some (dec ((s.drop (p.off + (16 + idx))).take 1)) = some (if bigEndian mem p = true then dec ((s.drop (p.off + (16 + idx))).take 1).reverse else dec ((s.drop (p.off + (16 + idx))).take 1))
    generalize (s.drop (p.off + (16 + idx))).take 1 = l at hl
    match l, hl with
    | [a], _ => cases bigEndian mem p <;> rfl

example : getField swappedMem (start [20]) 4 = some 0x20011 ∧ getSize swappedMem (start [20]) = some 20 ∧
    (0x20011 : Word).toNat / 65536 % 256 < 31 ∧ Fits swappedMem (start [20]) 20 ∧ 0 < (20 - 16) / wordLength 0x20011 :=
  ⟨by decide, by decide, by decide, ⟨_, rfl, by decide⟩, by decide⟩

end Verif.HadTu
