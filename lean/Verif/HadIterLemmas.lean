import Verif.Spec.HadIter
import Verif.Props.HadTu
import Verif.PointerLemmas

/-! # Lemmas about the HADAQ read iterator on a buffer with one segment -/

namespace Verif.HadIter

open Verif.Bytes Verif.Pointer Verif.HadTu

/-- Pointer at offset `o` of the only segment, with `l` bytes. -/
def P (o l : Nat) : Ptr := { segm := 0, off := o, raw := l, full := l, attached := true }

theorem start_P (s : List Byte) : start (sizesOf [s]) = P 0 s.length := by
  simp [start, P, sizesOf, segSize]

theorem inside_P {n : Nat} {p : Ptr} (h : Inside n p) (hn : isNull p = false) : p = P p.off p.full ∧ 0 < p.full ∧ p.off + p.full ≤ n := by
  rcases h with h | ⟨h1, h2, h3, h4⟩
  · subst h
    exact absurd hn (by decide)
  · refine ⟨?_, ?_, h4⟩
    · cases p
      simp only at h1 h2 h3
      subst h1 h2 h3
      rfl
    · simp only [isNull, Bool.or_eq_false_iff, decide_eq_false_iff_not] at hn
      omega

theorem isNull_null : isNull Ptr.null = true := rfl

theorem isNull_P (o l : Nat) : isNull (P o l) = decide (l = 0) := rfl

theorem Inside_P {n o l : Nat} (h : o + l ≤ n) : Inside n (P o l) := Or.inr ⟨rfl, rfl, rfl, h⟩

theorem Inside_null (n : Nat) : Inside n Ptr.null := Or.inl rfl

theorem shift_P {sizes : List Nat} {o l k : Nat} (hl : l < 2 ^ 32) (hk : k ≤ l) : shift sizes (P o l) k = some (P (o + k) (l - k), k) := by
  unfold shift
  by_cases h : k < l
  · rw [if_pos (show k < (P o l).raw from h)]
    show some (({ segm := 0, off := o + k, raw := l - k, full := sub32 l k, attached := true } : Ptr), k) = _
    rw [sub32_eq hk hl]
    rfl
  · have e : k = l := by omega
    subst e
    rw [if_neg (show ¬ k < (P o k).raw from h), if_neg (show ¬ k > (P o k).full from Nat.lt_irrefl _)]
    unfold longShift
    rw [if_pos (show (P o k).full = k from rfl), Nat.sub_self]
    rfl

theorem shift_P_gt {sizes : List Nat} {o l k : Nat} (hk : l < k) : shift sizes (P o l) k = some (Ptr.null, l) := by
  unfold shift
  rw [if_neg (show ¬ k < (P o l).raw by show ¬ k < l; omega), if_pos (show k > (P o l).full from hk)]
  rfl

theorem setFull_P (o l k : Nat) : setFullSize (P o l) k = P o (min l k) := by
  unfold setFullSize
  show (if l > k then ({ segm := 0, off := o, raw := if l > k then k else l, full := k, attached := true } : Ptr) else P o l) = _
  by_cases h : l > k
  · rw [if_pos h, if_pos h, Nat.min_eq_right (by omega)]
    rfl
  · rw [if_neg h, Nat.min_eq_left (by omega)]

theorem resetTo_full {sizes : List Nat} {o l k : Nat} (hk : 0 < k) : resetTo sizes (P o l) 0 k = some (P o (min l k)) := by
  unfold resetTo
  rw [if_neg (Nat.lt_irrefl 0), if_pos hk]
  show some (setFullSize (P o l) k) = _
  rw [setFull_P]

theorem resetTo_pos {sizes : List Nat} {o l k : Nat} (hl : l < 2 ^ 32) (hk : 0 < k) (hkl : k ≤ l) : resetTo sizes (P o l) k 0 = some (P (o + k) (l - k)) := by
  unfold resetTo
  rw [if_pos hk, if_neg (Nat.lt_irrefl 0), shift_P hl hkl]
  rfl

theorem sizeAt_lt (s : List Byte) (o : Nat) : sizeAt s o < 2 ^ 32 := by
  unfold sizeAt number
  have h1 := dec_lt ((s.drop o).take 4)
  have h2 := dec_lt ((s.drop o).take 4).reverse
  have h3 : ((s.drop o).take 4).length ≤ 4 := by rw [List.length_take]; omega
  have h4 : (256 : Nat) ^ ((s.drop o).take 4).length ≤ 256 ^ 4 := Nat.pow_le_pow_right (by omega) h3
  rw [List.length_reverse] at h2
  split <;> omega

theorem getSize_P {s : List Byte} {o : Nat} (l : Nat) (h : o + 8 ≤ s.length) : getSize [s] (P o l) = some (sizeAt s o) := by
  unfold getSize
  rw [C31_value (mem := [s]) (p := P o l) (k := 0) ⟨s, rfl, h⟩ ⟨s, rfl, by show o + 4 ≤ s.length; omega⟩]
  show some (BitVec.ofNat 32 (sizeAt s o)).toNat = _
  rw [BitVec.toNat_ofNat, Nat.mod_eq_of_lt (sizeAt_lt s o)]

theorem getPadded_P {s : List Byte} {o : Nat} (l : Nat) (h : o + 8 ≤ s.length) : getPadded [s] (P o l) = some (padded (sizeAt s o)) := by
  unfold getPadded
  rw [getSize_P l h]
  rfl

theorem padded_zero {n : Nat} (h : padded n = 0) (hn : n ≤ 2 ^ 32 - 8) : n = 0 := by
  unfold padded at h
  split at h
  · exact h
  · omega

theorem padded_ge {n : Nat} (h : n ≤ 2 ^ 32 - 8) : n ≤ padded n := (C31_padded_partial h).2.1

/-- Invariant of the read iterator. -/
structure RInv (s : List Byte) (r : Reader) : Prop where
  ev : Inside s.length r.ev
  sub : Inside s.length r.sub
  raw : Inside s.length r.raw
  head : r.first = true ∨ isNull r.ev = true ∨ headSize r.typ ≤ r.ev.full
  fit : r.first = true ∨ isNull r.ev = true ∨ r.typ = .subevents ∨ sizeAt s r.ev.off ≤ r.ev.full
  other : r.typ = .other → r.ev = Ptr.null
  subFull : isNull r.sub = true ∨ 16 ≤ r.sub.full
  subFit : isNull r.sub = true ∨ 16 ≤ sizeAt s r.sub.off
  within : isNull r.sub = true ∨ isNull r.ev = true ∨ (r.ev.off + headSize r.typ ≤ r.sub.off ∧ r.sub.off + r.sub.full ≤ blockEnd s r)
  
theorem closed_inv (s : List Byte) : RInv s closed :=
  ⟨Inside_null _, Inside_null _, Inside_null _, Or.inr (Or.inl rfl), Or.inr (Or.inl rfl), fun _ => rfl, Or.inl rfl, Or.inl rfl, Or.inl rfl⟩

theorem reset_inv (s : List Byte) (typ : BufType) : RInv s (reset [s] typ).1 := by
  unfold reset
  by_cases h : typ = .other
  · rw [if_pos h]
    exact closed_inv s
  · rw [if_neg h, start_P]
    exact ⟨Inside_P (by omega), Inside_null _, Inside_null _, Or.inl rfl, Or.inl rfl, fun e => absurd e h, Or.inl rfl, Or.inl rfl, Or.inl rfl⟩

/-- Result of looking for the next block. -/
theorem nextBlock_spec {s : List Byte} (hs : s.length < 2 ^ 32) {r : Reader} (h : RInv s r) {hd : Nat} (hhd : 8 ≤ hd)
    (hty : headSize r.typ = hd) (hev : isNull r.ev = false) :
    ∃ r' b, nextBlock [s] hd r = some (r', b) ∧ RInv s r' ∧ r'.typ = r.typ ∧ r'.first = false ∧
      (b = true → r'.ev.off = (if r.first then r.ev.off else r.ev.off + padded (sizeAt s r.ev.off)) ∧ r'.sub = Ptr.null ∧
        r'.ev.off + r'.ev.full = r.ev.off + r.ev.full ∧ hd ≤ r'.ev.full ∧ sizeAt s r'.ev.off ≤ r'.ev.full) ∧
      (b = false → r'.ev = Ptr.null ∧ ∃ o, o = (if r.first then r.ev.off else r.ev.off + padded (sizeAt s r.ev.off)) ∧
        (r.ev.off + r.ev.full < o + hd ∨ r.ev.off + r.ev.full < o + sizeAt s o)) := by
  obtain ⟨he, hpos, hle⟩ := inside_P h.ev hev
  have hsub : r.typ ≠ .subevents := fun e => by rw [e] at hty; exact absurd hty (by show ¬ (0 = hd); omega)
  have hoth : r.typ ≠ .other := fun e => by rw [e] at hty; exact absurd hty (by show ¬ (0 = hd); omega)
  -- the pointer on the event
  have hstep : ∃ ev : Ptr, (if r.first then some r.ev
      else (getPadded [s] r.ev).bind fun n => (shift (sizesOf [s]) r.ev n).map fun q => q.1) = some ev ∧
      ((ev = Ptr.null ∧ r.ev.off + r.ev.full < (if r.first then r.ev.off else r.ev.off + padded (sizeAt s r.ev.off))) ∨ (ev = P (if r.first then r.ev.off else r.ev.off + padded (sizeAt s r.ev.off)) ev.full ∧
        ev.off + ev.full = r.ev.off + r.ev.full)) := by
    cases hf : r.first
    · have hh : hd ≤ r.ev.full := by
        rcases h.head with h1 | h1 | h1
        · rw [hf] at h1; cases h1
        · rw [hev] at h1; cases h1
        · rw [← hty]; exact h1
      simp only [Bool.false_eq_true, if_false]
      rw [he, getPadded_P _ (by omega)]
      show ∃ ev, ((shift (sizesOf [s]) (P r.ev.off r.ev.full) (padded (sizeAt s r.ev.off))).map fun q => q.1) = some ev ∧ _
      by_cases hk : padded (sizeAt s r.ev.off) ≤ r.ev.full
      · rw [shift_P (by omega) hk]
        refine ⟨_, rfl, Or.inr ⟨rfl, ?_⟩⟩
        show r.ev.off + _ + (r.ev.full - _) = r.ev.off + r.ev.full
        omega
      · rw [shift_P_gt (by omega)]
        exact ⟨_, rfl, Or.inl ⟨rfl, by show r.ev.off + r.ev.full < r.ev.off + padded (sizeAt s r.ev.off); omega⟩⟩
    · simp only [if_true]
      exact ⟨r.ev, rfl, Or.inr ⟨he, rfl⟩⟩
  obtain ⟨ev, e1, e2⟩ := hstep
  unfold nextBlock
  dsimp only
  rw [e1]
  dsimp only
  have nullcase : ∀ r0 : Reader, r0.typ = r.typ → r0.ev = Ptr.null → r0.first = false → r0.sub = r.sub → r0.raw = r.raw → RInv s r0 := by
    intro r0 t0 t1 t2 t3 t4
    refine ⟨by rw [t1]; exact Inside_null _, by rw [t3]; exact h.sub, by rw [t4]; exact h.raw, Or.inr (Or.inl (by rw [t1]; rfl)),
      Or.inr (Or.inl (by rw [t1]; rfl)), fun _ => t1, by rw [t3]; exact h.subFull, by rw [t3]; exact h.subFit, Or.inr (Or.inl (by rw [t1]; rfl))⟩
  by_cases hf : ev.full < hd
  · rw [if_pos hf]
    refine ⟨_, _, rfl, nullcase _ rfl rfl rfl rfl rfl, rfl, rfl, fun hb => (by cases hb), fun _ => ⟨rfl, _, rfl, Or.inl ?_⟩⟩
    rcases e2 with ⟨e2, e3⟩ | ⟨e2, e3⟩
    · omega
    · have hoff : ev.off = if r.first then r.ev.off else r.ev.off + padded (sizeAt s r.ev.off) := by rw [e2]; rfl
      omega
  · rw [if_neg hf]
    rcases e2 with ⟨e2, -⟩ | ⟨e2, e3⟩
    · subst e2
      exact absurd (show (0 : Nat) < hd by omega) hf
    · have hoff : ev.off = if r.first then r.ev.off else r.ev.off + padded (sizeAt s r.ev.off) := by rw [e2]; rfl
      have heP : ev = P ev.off ev.full := by rw [hoff]; exact e2
      rw [if_neg (by rw [heP]; exact hf), heP, getSize_P _ (by omega)]
      dsimp only
      by_cases hz : ev.full < sizeAt s ev.off
      · rw [if_pos (show (P ev.off ev.full).full < sizeAt s ev.off from hz)]
        refine ⟨_, _, rfl, nullcase _ rfl rfl rfl rfl rfl, rfl, rfl, fun hb => (by cases hb), fun _ => ⟨rfl, _, rfl, Or.inr ?_⟩⟩
        rw [← hoff]
        omega
      · rw [if_neg (show ¬ (P ev.off ev.full).full < sizeAt s ev.off from hz)]
        refine ⟨_, _, rfl, ?_, rfl, rfl, fun _ => ⟨hoff, rfl, e3, Nat.not_lt.1 hf, Nat.not_lt.1 hz⟩, fun hb => (by cases hb)⟩
        exact ⟨Inside_P (by omega), Inside_null _, Inside_null _, Or.inr (Or.inr (by rw [hty]; exact Nat.not_lt.1 hf)),
          Or.inr (Or.inr (Or.inr (Nat.not_lt.1 hz))), fun e => absurd e hoth, Or.inl rfl, Or.inl rfl, Or.inl rfl⟩

theorem padded_cases {n : Nat} (h : 16 ≤ n) (hn : n < 2 ^ 32) : padded n = 0 ∨ (n ≤ padded n ∧ padded n ≤ n + 7) := by
  unfold padded
  split
  · omega
  · omega

/-- Part of a subevent behind its header. -/
def rawOf (s : List Byte) (o l : Nat) : Ptr :=
  if padded (sizeAt s o) = 0 then P (o + 16) (l - 16) else P (o + 16) (min l (padded (sizeAt s o)) - 16)

/-- Result of the check of a subevent. -/
theorem checkSub_spec {s : List Byte} (hs : s.length < 2 ^ 32) {r : Reader} (h : RInv s { r with sub := Ptr.null, raw := Ptr.null }) (hraw : Inside s.length r.raw)
    {o l : Nat} {q : Ptr} (hq : q = P o l ∨ (q = Ptr.null ∧ l = 0)) (hin : o + l ≤ s.length)
    (hw : isNull r.ev = true ∨ (r.ev.off + headSize r.typ ≤ o ∧ o + l ≤ blockEnd s r)) :
    ∃ r' b, checkSub [s] r q = some (r', b) ∧ RInv s r' ∧ r'.typ = r.typ ∧ r'.first = r.first ∧ r'.ev = r.ev ∧
      (b = true → r'.sub = P o l ∧ 16 ≤ sizeAt s o ∧ 16 ≤ l ∧ r'.raw = rawOf s o l) ∧
      (b = false → r'.sub = Ptr.null ∧ (l < 16 ∨ sizeAt s o < 16)) := by
  have hinv0 : RInv s { r with sub := Ptr.null } :=
    ⟨h.ev, Inside_null _, hraw, h.head, h.fit, h.other, Or.inl rfl, Or.inl rfl, Or.inl rfl⟩
  unfold checkSub
  by_cases h1 : l < 16
  · have hql : q.full < 16 := by
      rcases hq with hq | ⟨hq, _⟩
      · rw [hq]; exact h1
      · rw [hq]; decide
    rw [if_pos hql]
    exact ⟨_, _, rfl, hinv0, rfl, rfl, rfl, fun hb => (by cases hb), fun _ => ⟨rfl, Or.inl h1⟩⟩
  · have hq : q = P o l := by
      rcases hq with hq | ⟨_, hq⟩
      · exact hq
      · omega
    subst hq
    rw [if_neg (show ¬ (P o l).full < 16 from h1), getSize_P _ (by omega)]
    dsimp only
    by_cases h2 : sizeAt s o < 16
    · rw [if_pos h2]
      exact ⟨_, _, rfl, hinv0, rfl, rfl, rfl, fun hb => (by cases hb), fun _ => ⟨rfl, Or.inr h2⟩⟩
    · rw [if_neg h2]
      have hlt := sizeAt_lt s o
      have hres : ∃ m, resetTo (sizesOf [s]) (P o l) 0 (padded (sizeAt s o)) = some (P o m) ∧ 16 ≤ m ∧ m ≤ l ∧ rawOf s o l = P (o + 16) (m - 16) := by
        unfold rawOf
        rcases padded_cases (Nat.not_lt.1 h2) hlt with hp | ⟨hp, _⟩
        · rw [hp, if_pos rfl]
          exact ⟨l, rfl, by omega, Nat.le_refl _, rfl⟩
        · rw [if_neg (by omega)]
          exact ⟨_, resetTo_full (by omega), by omega, by omega, rfl⟩
      obtain ⟨m, hm1, hm2, hm3, hm4⟩ := hres
      rw [hm1]
      dsimp only
      rw [shift_P (by omega) hm2]
      refine ⟨_, _, rfl, ?_, rfl, rfl, rfl, fun _ => ⟨rfl, Nat.not_lt.1 h2, Nat.not_lt.1 h1, hm4.symm⟩, fun hb => (by cases hb)⟩
      exact ⟨h.ev, Inside_P hin, Inside_P (by omega), h.head, h.fit, h.other, Or.inr (Nat.not_lt.1 h1), Or.inr (Nat.not_lt.1 h2), Or.inr hw⟩

/-- State of an iterator that is ready to look for subevents. -/
def Ready (r : Reader) : Prop := r.first = false ∨ r.typ = .subevents

/-- The start of the subevents of the current block. -/
theorem nextSub_first {s : List Byte} (hs : s.length < 2 ^ 32) {r : Reader} (h : RInv s r) (hr : Ready r)
    (hsub : isNull r.sub = true) (hev : isNull r.ev = false) :
    ∃ r' b, nextSubEvent [s] r = some (r', b) ∧ RInv s r' ∧ r'.typ = r.typ ∧ r'.first = r.first ∧ r'.ev = r.ev ∧
      (b = true → ∃ o l, o = r.ev.off + headSize r.typ ∧ o + l = blockEnd s r ∧ r'.sub = P o l ∧ 16 ≤ sizeAt s o ∧ 16 ≤ l ∧ r'.raw = rawOf s o l) ∧
      (b = false → isNull r'.sub = true ∧ (blockEnd s r < r.ev.off + headSize r.typ + 16 ∨ sizeAt s (r.ev.off + headSize r.typ) < 16)) := by
  obtain ⟨he, hpos, hle⟩ := inside_P h.ev hev
  have hoth : r.typ ≠ .other := fun e => by
    rw [h.other e] at hev
    exact absurd hev (by decide)
  have hhead : headSize r.typ ≤ r.ev.full := by
    rcases h.head with h1 | h1 | h1
    · rcases hr with h2 | h2
      · rw [h1] at h2; cases h2
      · rw [h2]; exact Nat.zero_le _
    · rw [hev] at h1; cases h1
    · exact h1
  -- size of the container
  have hcont : ∃ c, container [s] r = some (some (headSize r.typ, c)) ∧ blockEnd s r = r.ev.off + min c r.ev.full := by
    unfold container blockEnd
    cases ht : r.typ with
    | events =>
      rw [ht] at hhead
      dsimp only
      rw [he, getPadded_P _ (by have : 32 ≤ r.ev.full := hhead; omega)]
      exact ⟨_, rfl, rfl⟩
    | unit =>
      rw [ht] at hhead
      dsimp only
      rw [he, getPadded_P _ (by have : 8 ≤ r.ev.full := hhead; omega)]
      exact ⟨_, rfl, rfl⟩
    | subevents => exact ⟨r.ev.full, rfl, by rw [Nat.min_self]⟩
    | other => exact absurd ht hoth
  obtain ⟨c, hc1, hc2⟩ := hcont
  unfold nextSubEvent
  rw [if_pos hsub, if_neg (by rw [hev]; decide), hc1]
  dsimp only
  by_cases hc0 : c = 0
  · rw [if_pos hc0]
    refine ⟨_, _, rfl, h, rfl, rfl, rfl, fun hb => (by cases hb), fun _ => ⟨hsub, Or.inl ?_⟩⟩
    rw [hc2]
    omega
  · rw [if_neg hc0]
    by_cases hch : c < headSize r.typ
    · rw [if_pos hch]
      refine ⟨_, _, rfl, h, rfl, rfl, rfl, fun hb => (by cases hb), fun _ => ⟨hsub, Or.inl ?_⟩⟩
      rw [hc2]
      omega
    · rw [if_neg hch]
      have hre : resetTo (sizesOf [s]) r.ev 0 c = some (P r.ev.off (min r.ev.full c)) := by
        rw [he]
        exact resetTo_full (by omega)
      rw [hre]
      dsimp only
      rw [shift_P (by omega) (by omega)]
      dsimp only
      have hin : r.ev.off + headSize r.typ + (min r.ev.full c - headSize r.typ) = blockEnd s r := by
        rw [hc2, Nat.min_comm c]
        omega
      have hinv : RInv s { ({ r with sub := P (r.ev.off + headSize r.typ) (min r.ev.full c - headSize r.typ) } : Reader) with sub := Ptr.null, raw := Ptr.null } :=
        ⟨h.ev, Inside_null _, Inside_null _, h.head, h.fit, h.other, Or.inl rfl, Or.inl rfl, Or.inl rfl⟩
      obtain ⟨r', b, e1, e2, e3, e4, e5, e6, e7⟩ := checkSub_spec hs hinv h.raw (Or.inl rfl) (by rw [hin, hc2]; omega)
        (Or.inr ⟨Nat.le_refl _, Nat.le_of_eq hin⟩)
      refine ⟨r', b, e1, e2, e3, e4, e5, fun hb => ?_, fun hb => ?_⟩
      · obtain ⟨f1, f2, f3, f4⟩ := e6 hb
        exact ⟨_, _, rfl, hin, f1, f2, f3, f4⟩
      · obtain ⟨f1, f2⟩ := e7 hb
        refine ⟨by rw [f1]; rfl, ?_⟩
        rcases f2 with f2 | f2
        · left
          omega
        · right
          exact f2

/-- The next subevent. -/
theorem nextSub_next {s : List Byte} (hs : s.length < 2 ^ 32) {r : Reader} (h : RInv s r) (hsub : isNull r.sub = false) :
    ∃ r' b, nextSubEvent [s] r = some (r', b) ∧ RInv s r' ∧ r'.typ = r.typ ∧ r'.first = r.first ∧ r'.ev = r.ev ∧
      (b = true → ∃ o l, o = r.sub.off + padded (sizeAt s r.sub.off) ∧ o + l = r.sub.off + r.sub.full ∧ r'.sub = P o l ∧ 16 ≤ sizeAt s o ∧ 16 ≤ l ∧
        r'.raw = rawOf s o l) ∧
      (b = false → r'.sub = Ptr.null ∧ (r.sub.full < padded (sizeAt s r.sub.off) + 16 ∨ sizeAt s (r.sub.off + padded (sizeAt s r.sub.off)) < 16)) := by
  obtain ⟨he, hpos, hle⟩ := inside_P h.sub hsub
  have h16 : 16 ≤ r.sub.full := by
    rcases h.subFull with h1 | h1
    · rw [hsub] at h1; cases h1
    · exact h1
  have hwith : isNull r.ev = true ∨ (r.ev.off + headSize r.typ ≤ r.sub.off ∧ r.sub.off + r.sub.full ≤ blockEnd s r) := by
    rcases h.within with h1 | h1 | h1
    · rw [hsub] at h1; cases h1
    · exact Or.inl h1
    · exact Or.inr h1
  unfold nextSubEvent
  rw [if_neg (by rw [hsub]; decide)]
  have hgp : getPadded [s] r.sub = some (padded (sizeAt s r.sub.off)) := by
    rw [he]
    exact getPadded_P _ (by show r.sub.off + 8 ≤ _; omega)
  rw [hgp]
  dsimp only
  generalize hk : padded (sizeAt s r.sub.off) = k
  have mk : ∀ q : Ptr, RInv s { ({ r with sub := q } : Reader) with sub := Ptr.null, raw := Ptr.null } := fun q =>
    ⟨h.ev, Inside_null _, Inside_null _, h.head, h.fit, h.other, Or.inl rfl, Or.inl rfl, Or.inl rfl⟩
  by_cases hkl : k ≤ r.sub.full
  · have hsh : shift (sizesOf [s]) r.sub k = some (P (r.sub.off + k) (r.sub.full - k), k) := by
      rw [he]
      exact shift_P (by omega) hkl
    rw [hsh]
    dsimp only
    obtain ⟨r', b, e1, e2, e3, e4, e5, e6, e7⟩ := checkSub_spec (r := { r with sub := P (r.sub.off + k) (r.sub.full - k) }) hs (mk _) h.raw
      (o := r.sub.off + k) (l := r.sub.full - k) (Or.inl rfl) (by omega)
      (by
        rcases hwith with h1 | h1
        · exact Or.inl h1
        · right
          refine ⟨by show r.ev.off + headSize r.typ ≤ _; omega, ?_⟩
          show _ ≤ blockEnd s r
          omega)
    refine ⟨r', b, e1, e2, e3, e4, e5, fun hb => ?_, fun hb => ?_⟩
    · obtain ⟨f1, f2, f3, f4⟩ := e6 hb
      exact ⟨_, _, rfl, by omega, f1, f2, f3, f4⟩
    · obtain ⟨f1, f2⟩ := e7 hb
      refine ⟨f1, ?_⟩
      rcases f2 with f2 | f2
      · left
        omega
      · exact Or.inr f2
  · have hsh : shift (sizesOf [s]) r.sub k = some (Ptr.null, r.sub.full) := by
      rw [he]
      exact shift_P_gt (by omega)
    rw [hsh]
    dsimp only
    refine ⟨{ r with sub := Ptr.null }, false, ?_, ⟨h.ev, Inside_null _, h.raw, h.head, h.fit, h.other, Or.inl rfl, Or.inl rfl, Or.inl rfl⟩, rfl, rfl, rfl,
      fun hb => (by cases hb), fun _ => ⟨rfl, Or.inl (by omega)⟩⟩
    unfold checkSub
    rw [if_pos (by decide)]

end Verif.HadIter
