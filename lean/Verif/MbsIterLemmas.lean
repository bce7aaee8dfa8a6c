import Verif.Spec.MbsIter
import Verif.HadWrite

/-! # Lemmas about the MBS read iterator on a buffer with one segment -/

namespace Verif.MbsIter

open Verif.Bytes Verif.Pointer Verif.HadTu
open Verif.HadIter (isNull resetTo words Inside P start_P inside_P isNull_null isNull_P Inside_P Inside_null shift_P shift_P_gt setFull_P resetTo_full resetTo_pos)

theorem sizeAt_lt (s : List Byte) (o : Nat) : sizeAt s o < 2 ^ 32 := Nat.mod_lt _ (by decide)

theorem fullSize_P {s : List Byte} {o : Nat} (l : Nat) (h : o + 4 ≤ s.length) : fullSize [s] (P o l) = some (sizeAt s o) := by
  unfold fullSize
  rw [word_eq (mem := [s]) (p := P o l) (k := 0) (s := s) rfl (by show o + 0 + 4 ≤ s.length; omega)]
  show some ((8 + (BitVec.ofNat 32 (dec ((s.drop (o + 0)).take 4))).toNat * 2) % 2 ^ 32) = _
  have hlt := dec_lt ((s.drop o).take 4)
  have hl : ((s.drop o).take 4).length = 4 := by rw [List.length_take, List.length_drop]; omega
  rw [hl] at hlt
  have h32 : dec ((s.drop o).take 4) < 2 ^ 32 := by omega
  rw [Nat.add_zero, BitVec.toNat_ofNat, Nat.mod_eq_of_lt h32, Nat.mul_comm]
  rfl

/-- Invariant of the read iterator. -/
structure RInv (s : List Byte) (r : Reader) : Prop where
  ev : Inside s.length r.ev
  sub : Inside s.length r.sub
  raw : Inside s.length r.raw
  head : r.first = true ∨ r.ev = Ptr.null ∨ (16 ≤ r.ev.full ∧ sizeAt s r.ev.off ≤ r.ev.full)
  subFit : isNull r.sub = true ∨ (12 ≤ r.sub.full ∧ 12 ≤ sizeAt s r.sub.off)
  within : isNull r.sub = true ∨ isNull r.ev = true ∨ (r.ev.off + 16 ≤ r.sub.off ∧ r.sub.off + r.sub.full ≤ r.ev.off + sizeAt s r.ev.off)

theorem closed_inv (s : List Byte) : RInv s closed :=
  ⟨Inside_null _, Inside_null _, Inside_null _, Or.inr (Or.inl rfl), Or.inl rfl, Or.inl rfl⟩

theorem reset_inv (s : List Byte) (typed : Bool) : RInv s (reset [s] typed).1 := by
  unfold reset
  cases typed
  · exact closed_inv s
  · rw [if_pos rfl, start_P]
    exact ⟨Inside_P (by omega), Inside_null _, Inside_null _, Or.inl rfl, Or.inl rfl, Or.inl rfl⟩

/-- Where the next event is looked for. -/
def nextOff (s : List Byte) (r : Reader) : Nat := if r.first then r.ev.off else r.ev.off + sizeAt s r.ev.off

/-- Result of looking for the next event. -/
theorem nextEvent_spec {s : List Byte} (hs : s.length < 2 ^ 32) {r : Reader} (h : RInv s r) (hev : isNull r.ev = false) :
    ∃ r' b, nextEvent [s] r = some (r', b) ∧ RInv s r' ∧ r'.first = false ∧
      (b = true → r'.ev = P (nextOff s r) r'.ev.full ∧ r'.sub = Ptr.null ∧
        nextOff s r + r'.ev.full = r.ev.off + r.ev.full ∧ 16 ≤ r'.ev.full ∧ sizeAt s (nextOff s r) ≤ r'.ev.full) ∧
      (b = false → r'.ev = Ptr.null ∧ (r.ev.off + r.ev.full < nextOff s r + 16 ∨ r.ev.off + r.ev.full < nextOff s r + sizeAt s (nextOff s r))) := by
  obtain ⟨he, hpos, hle⟩ := inside_P h.ev hev
  have hstep : ∃ ev : Ptr, (if r.first then some r.ev
      else (fullSize [s] r.ev).bind fun n => (shift (sizesOf [s]) r.ev n).map fun q => q.1) = some ev ∧
      (ev = P (nextOff s r) ev.full ∧ nextOff s r + ev.full = r.ev.off + r.ev.full) := by
    unfold nextOff
    cases hf : r.first
    · have hh : 16 ≤ r.ev.full ∧ sizeAt s r.ev.off ≤ r.ev.full := by
        rcases h.head with h1 | h1 | h1
        · rw [hf] at h1; cases h1
        · rw [h1] at hev; cases hev
        · exact h1
      simp only [Bool.false_eq_true, if_false]
      rw [he, fullSize_P _ (by show r.ev.off + 4 ≤ _; omega)]
      show ∃ ev, ((shift (sizesOf [s]) (P r.ev.off r.ev.full) (sizeAt s r.ev.off)).map fun q => q.1) = some ev ∧ _
      rw [shift_P (by omega) hh.2]
      refine ⟨_, rfl, rfl, ?_⟩
      show r.ev.off + sizeAt s r.ev.off + (r.ev.full - sizeAt s r.ev.off) = r.ev.off + r.ev.full
      omega
    · simp only [if_true]
      exact ⟨r.ev, rfl, he, rfl⟩
  obtain ⟨ev, e1, e2, e3⟩ := hstep
  unfold nextEvent
  rw [if_neg (by rw [hev]; decide)]
  dsimp only
  rw [e1]
  dsimp only
  have nullcase : ∀ r0 : Reader, r0.ev = Ptr.null → r0.sub = r.sub → r0.raw = r.raw → RInv s r0 := by
    intro r0 t1 t3 t4
    exact ⟨by rw [t1]; exact Inside_null _, by rw [t3]; exact h.sub, by rw [t4]; exact h.raw, Or.inr (Or.inl t1),
      by rw [t3]; exact h.subFit, Or.inr (Or.inl (by rw [t1]; rfl))⟩
  by_cases hf : ev.full < 16
  · rw [if_pos hf]
    exact ⟨_, _, rfl, nullcase _ rfl rfl rfl, rfl, fun hb => (by cases hb), fun _ => ⟨rfl, Or.inl (by omega)⟩⟩
  · rw [if_neg hf, if_neg (by rw [e2]; exact hf), e2, fullSize_P _ (by omega)]
    dsimp only
    by_cases hz : ev.full < sizeAt s (nextOff s r)
    · rw [if_pos (show (P (nextOff s r) ev.full).full < _ from hz)]
      exact ⟨_, _, rfl, nullcase _ rfl rfl rfl, rfl, fun hb => (by cases hb), fun _ => ⟨rfl, Or.inr (by omega)⟩⟩
    · rw [if_neg (show ¬ (P (nextOff s r) ev.full).full < _ from hz)]
      refine ⟨_, _, rfl, ?_, rfl, fun _ => ⟨rfl, rfl, e3, Nat.not_lt.1 hf, Nat.not_lt.1 hz⟩, fun hb => (by cases hb)⟩
      exact ⟨Inside_P (by omega), Inside_null _, Inside_null _, Or.inr (Or.inr ⟨Nat.not_lt.1 hf, Nat.not_lt.1 hz⟩), Or.inl rfl, Or.inl rfl⟩

/-- Result of the check of a subevent. -/
theorem checkSub_spec {s : List Byte} (hs : s.length < 2 ^ 32) {r : Reader} (hev : Inside s.length r.ev) (hraw : Inside s.length r.raw)
    (hhd : r.first = true ∨ r.ev = Ptr.null ∨ (16 ≤ r.ev.full ∧ sizeAt s r.ev.off ≤ r.ev.full))
    {o l : Nat} {q : Ptr} (hq : q = P o l ∨ (q = Ptr.null ∧ l = 0)) (hin : o + l ≤ s.length)
    (hw : isNull r.ev = true ∨ (r.ev.off + 16 ≤ o ∧ o + l ≤ r.ev.off + sizeAt s r.ev.off)) :
    ∃ r' b, checkSub [s] r q = some (r', b) ∧ RInv s r' ∧ r'.first = r.first ∧ r'.ev = r.ev ∧
      (b = true → r'.sub = P o l ∧ 12 ≤ sizeAt s o ∧ 12 ≤ l ∧ r'.raw = P (o + 12) (min l (sizeAt s o) - 12)) ∧
      (b = false → r'.sub = Ptr.null ∧ (l < 12 ∨ sizeAt s o < 12)) := by
  have hinv0 : RInv s { r with sub := Ptr.null } := ⟨hev, Inside_null _, hraw, hhd, Or.inl rfl, Or.inl rfl⟩
  unfold checkSub
  by_cases h1 : l < 12
  · have hql : q.full < 12 := by
      rcases hq with hq | ⟨hq, _⟩
      · rw [hq]; exact h1
      · rw [hq]; decide
    rw [if_pos hql]
    exact ⟨_, _, rfl, hinv0, rfl, rfl, fun hb => (by cases hb), fun _ => ⟨rfl, Or.inl h1⟩⟩
  · have hq : q = P o l := by
      rcases hq with hq | ⟨_, hq⟩
      · exact hq
      · omega
    subst hq
    rw [if_neg (show ¬ (P o l).full < 12 from h1), fullSize_P _ (by omega)]
    dsimp only
    by_cases h2 : sizeAt s o < 12
    · rw [if_pos h2]
      exact ⟨_, _, rfl, hinv0, rfl, rfl, fun hb => (by cases hb), fun _ => ⟨rfl, Or.inr h2⟩⟩
    · rw [if_neg h2, resetTo_full (by omega)]
      dsimp only
      rw [shift_P (by omega) (by omega)]
      refine ⟨_, _, rfl, ?_, rfl, rfl, fun _ => ⟨rfl, Nat.not_lt.1 h2, Nat.not_lt.1 h1, rfl⟩, fun hb => (by cases hb)⟩
      exact ⟨hev, Inside_P hin, Inside_P (by omega), hhd, Or.inr ⟨Nat.not_lt.1 h1, Nat.not_lt.1 h2⟩, Or.inr hw⟩

/-- The first subevent of the current event. -/
theorem nextSub_first {s : List Byte} (hs : s.length < 2 ^ 32) {r : Reader} (h : RInv s r) (hf : r.first = false)
    (hsub : isNull r.sub = true) (hev : isNull r.ev = false) :
    ∃ r' b, nextSubEvent [s] r = some (r', b) ∧ RInv s r' ∧ r'.first = false ∧ r'.ev = r.ev ∧
      (b = true → ∃ l, r.ev.off + 16 + l = r.ev.off + sizeAt s r.ev.off ∧ r'.sub = P (r.ev.off + 16) l ∧ 12 ≤ sizeAt s (r.ev.off + 16) ∧ 12 ≤ l ∧
        r'.raw = P (r.ev.off + 16 + 12) (min l (sizeAt s (r.ev.off + 16)) - 12)) ∧
      (b = false → isNull r'.sub = true ∧ (sizeAt s r.ev.off < 28 ∨ sizeAt s (r.ev.off + 16) < 12)) := by
  obtain ⟨he, hpos, hle⟩ := inside_P h.ev hev
  have hh : 16 ≤ r.ev.full ∧ sizeAt s r.ev.off ≤ r.ev.full := by
    rcases h.head with h1 | h1 | h1
    · rw [hf] at h1; cases h1
    · rw [h1] at hev; cases hev
    · exact h1
  have hfs : fullSize [s] r.ev = some (sizeAt s r.ev.off) := by
    rw [he]
    exact fullSize_P _ (by show r.ev.off + 4 ≤ _; omega)
  unfold nextSubEvent
  rw [if_pos hsub, if_neg (by rw [hev]; decide), hfs]
  dsimp only
  generalize hn : sizeAt s r.ev.off = n at *
  by_cases h16 : n < 16
  · rw [if_pos h16]
    exact ⟨_, _, rfl, h, hf, rfl, fun hb => (by cases hb), fun _ => ⟨hsub, Or.inl (by omega)⟩⟩
  · rw [if_neg h16]
    have hre : resetTo (sizesOf [s]) r.ev 0 n = some (P r.ev.off n) := by
      rw [he, resetTo_full (by omega)]
      show some (P r.ev.off (min r.ev.full n)) = _
      rw [Nat.min_eq_right hh.2]
      rfl
    rw [hre]
    dsimp only
    rw [shift_P (by omega) (by omega)]
    dsimp only
    obtain ⟨r', b, e1, e2, e3, e4, e5, e6⟩ := checkSub_spec (r := { r with sub := P (r.ev.off + 16) (n - 16) }) hs h.ev h.raw h.head
      (o := r.ev.off + 16) (l := n - 16) (Or.inl rfl) (by omega) (Or.inr ⟨Nat.le_refl _, by show _ ≤ r.ev.off + sizeAt s r.ev.off; omega⟩)
    refine ⟨r', b, e1, e2, e3.trans hf, e4, fun hb => ?_, fun hb => ?_⟩
    · obtain ⟨f1, f2, f3, f4⟩ := e5 hb
      exact ⟨_, by omega, f1, f2, f3, f4⟩
    · obtain ⟨f1, f2⟩ := e6 hb
      refine ⟨by rw [f1]; rfl, ?_⟩
      rcases f2 with f2 | f2
      · left; omega
      · right; exact f2

/-- The next subevent. -/
theorem nextSub_next {s : List Byte} (hs : s.length < 2 ^ 32) {r : Reader} (h : RInv s r) (hsub : isNull r.sub = false) :
    ∃ r' b, nextSubEvent [s] r = some (r', b) ∧ RInv s r' ∧ r'.first = r.first ∧ r'.ev = r.ev ∧
      (b = true → ∃ o l, o = r.sub.off + sizeAt s r.sub.off ∧ o + l = r.sub.off + r.sub.full ∧ r'.sub = P o l ∧ 12 ≤ sizeAt s o ∧ 12 ≤ l ∧
        r'.raw = P (o + 12) (min l (sizeAt s o) - 12)) ∧
      (b = false → r'.sub = Ptr.null ∧ (r.sub.full < sizeAt s r.sub.off + 12 ∨ sizeAt s (r.sub.off + sizeAt s r.sub.off) < 12)) := by
  obtain ⟨he, hpos, hle⟩ := inside_P h.sub hsub
  have h12 : 12 ≤ r.sub.full ∧ 12 ≤ sizeAt s r.sub.off := by
    rcases h.subFit with h1 | h1
    · rw [hsub] at h1; cases h1
    · exact h1
  have hwith : isNull r.ev = true ∨ (r.ev.off + 16 ≤ r.sub.off ∧ r.sub.off + r.sub.full ≤ r.ev.off + sizeAt s r.ev.off) := by
    rcases h.within with h1 | h1 | h1
    · rw [hsub] at h1; cases h1
    · exact Or.inl h1
    · exact Or.inr h1
  unfold nextSubEvent
  rw [if_neg (by rw [hsub]; decide)]
  have hgp : fullSize [s] r.sub = some (sizeAt s r.sub.off) := by
    rw [he]
    exact fullSize_P _ (by show r.sub.off + 4 ≤ _; omega)
  rw [hgp]
  dsimp only
  generalize hk : sizeAt s r.sub.off = k at *
  by_cases hkl : k ≤ r.sub.full
  · have hsh : shift (sizesOf [s]) r.sub k = some (P (r.sub.off + k) (r.sub.full - k), k) := by
      rw [he]
      exact shift_P (by omega) hkl
    rw [hsh]
    dsimp only
    obtain ⟨r', b, e1, e2, e3, e4, e5, e6⟩ := checkSub_spec (r := { r with sub := P (r.sub.off + k) (r.sub.full - k) }) hs h.ev h.raw h.head
      (o := r.sub.off + k) (l := r.sub.full - k) (Or.inl rfl) (by omega)
      (by
        rcases hwith with h1 | h1
        · exact Or.inl h1
        · right
          refine ⟨by show r.ev.off + 16 ≤ _; omega, ?_⟩
          show _ ≤ r.ev.off + sizeAt s r.ev.off
          omega)
    refine ⟨r', b, e1, e2, e3, e4, fun hb => ?_, fun hb => ?_⟩
    · obtain ⟨f1, f2, f3, f4⟩ := e5 hb
      exact ⟨_, _, rfl, by omega, f1, f2, f3, f4⟩
    · obtain ⟨f1, f2⟩ := e6 hb
      refine ⟨f1, ?_⟩
      rcases f2 with f2 | f2
      · left; omega
      · exact Or.inr f2
  · have hsh : shift (sizesOf [s]) r.sub k = some (Ptr.null, r.sub.full) := by
      rw [he]
      exact shift_P_gt (by omega)
    rw [hsh]
    dsimp only
    refine ⟨{ r with sub := Ptr.null }, false, ?_, ⟨h.ev, Inside_null _, h.raw, h.head, Or.inl rfl, Or.inl rfl⟩, rfl, rfl,
      fun hb => (by cases hb), fun _ => ⟨rfl, Or.inl (by omega)⟩⟩
    unfold checkSub
    rw [if_pos (by decide)]

theorem nextEvent_null {mem : Mem} {r : Reader} (h : isNull r.ev = true) : nextEvent mem r = some (r, false) := by
  unfold nextEvent
  rw [if_pos h]

theorem nextSub_null {mem : Mem} {r : Reader} (hs : isNull r.sub = true) (h : isNull r.ev = true) : nextSubEvent mem r = some (r, false) := by
  unfold nextSubEvent
  rw [if_pos hs, if_pos h]

theorem nextEvent_inv {s : List Byte} (hs : s.length < 2 ^ 32) {r : Reader} (h : RInv s r) : ∃ r' b, nextEvent [s] r = some (r', b) ∧ RInv s r' := by
  cases hev : isNull r.ev
  · obtain ⟨r', b, h1, h2, -⟩ := nextEvent_spec hs h hev
    exact ⟨r', b, h1, h2⟩
  · exact ⟨r, false, nextEvent_null hev, h⟩

theorem nextSub_inv {s : List Byte} (hs : s.length < 2 ^ 32) {r : Reader} (h : RInv s r) (hf : r.first = false) :
    ∃ r' b, nextSubEvent [s] r = some (r', b) ∧ RInv s r' := by
  cases hsub : isNull r.sub
  · obtain ⟨r', b, h1, h2, -⟩ := nextSub_next hs h hsub
    exact ⟨r', b, h1, h2⟩
  · cases hev : isNull r.ev
    · obtain ⟨r', b, h1, h2, -⟩ := nextSub_first hs h hf hsub hev
      exact ⟨r', b, h1, h2⟩
    · exact ⟨r, false, nextSub_null hsub hev, h⟩

theorem fullSize_ev {s : List Byte} {r : Reader} (h : RInv s r) (hf : r.first = false) (hev : isNull r.ev = false) :
    fullSize [s] r.ev = some (sizeAt s r.ev.off) ∧ r.ev = P r.ev.off r.ev.full ∧ 16 ≤ r.ev.full ∧ sizeAt s r.ev.off ≤ r.ev.full ∧ r.ev.off + r.ev.full ≤ s.length := by
  obtain ⟨he, hpos, hle⟩ := inside_P h.ev hev
  have hh : 16 ≤ r.ev.full ∧ sizeAt s r.ev.off ≤ r.ev.full := by
    rcases h.head with h1 | h1 | h1
    · rw [hf] at h1; cases h1
    · rw [h1] at hev; cases hev
    · exact h1
  refine ⟨?_, he, hh.1, hh.2, hle⟩
  rw [he]
  exact fullSize_P _ (by show r.ev.off + 4 ≤ _; omega)

theorem assign_spec {s : List Byte} {r : Reader} (h : RInv s r) (hf : r.first = false) (hev : isNull r.ev = false) :
    assignEventPointer [s] r = some (P r.ev.off (if sizeAt s r.ev.off = 0 then r.ev.full else sizeAt s r.ev.off), true) := by
  obtain ⟨h1, h2, h3, h4, h5⟩ := fullSize_ev h hf hev
  unfold assignEventPointer
  rw [if_neg (by rw [hev]; decide), h1]
  show ((resetTo (sizesOf [s]) r.ev 0 (sizeAt s r.ev.off)).map fun q => (q, true)) = _
  generalize hn : sizeAt s r.ev.off = n at *
  rw [h2]
  by_cases h0 : n = 0
  · subst h0
    rfl
  · rw [resetTo_full (by omega), if_neg h0]
    show some (P r.ev.off (min r.ev.full n), true) = _
    rw [Nat.min_eq_right h4]
    rfl

theorem subsPointer_spec {s : List Byte} (hs : s.length < 2 ^ 32) {r : Reader} (h : RInv s r) (hf : r.first = false) : ∃ q, getSubeventsPointer [s] r = some q ∧ Inside s.length q := by
  unfold getSubeventsPointer
  cases hev : isNull r.ev
  · rw [assign_spec h hf hev]
    obtain ⟨h1, h2, h3, h4, h5⟩ := fullSize_ev h hf hev
    generalize hn : (if sizeAt s r.ev.off = 0 then r.ev.full else sizeAt s r.ev.off) = n
    have hnle : n ≤ r.ev.full := by rw [← hn]; split <;> omega
    have hn0 : n ≠ 0 := by
      rw [← hn]
      split <;> omega
    show ∃ q, (if isNull (P r.ev.off n) = true then some (P r.ev.off n) else (shift (sizesOf [s]) (P r.ev.off n) 16).map fun q => q.1) = some q ∧ _
    rw [isNull_P, if_neg (by simp only [decide_eq_true_eq]; exact hn0)]
    by_cases h16 : 16 ≤ n
    · rw [shift_P (by omega) h16]
      exact ⟨_, rfl, Inside_P (by omega)⟩
    · rw [shift_P_gt (by omega)]
      exact ⟨_, rfl, Inside_null _⟩
  · have : assignEventPointer [s] r = some (Ptr.null, false) := by
      unfold assignEventPointer
      rw [if_pos hev]
    rw [this]
    exact ⟨Ptr.null, rfl, Inside_null _⟩

theorem call_inv {s : List Byte} (hs : s.length < 2 ^ 32) {r : Reader} (h : RInv s r) (c : Call) (ha : c.Allowed r) :
    ∃ r' b, c.run [s] r = some (r', b) ∧ RInv s r' := by
  cases c with
  | event => exact nextEvent_inv hs h
  | subEvent => exact nextSub_inv hs h ha
  | last =>
    show ∃ r' b, (isLastEvent [s] r).map (fun b => (r, b)) = some (r', b) ∧ _
    unfold isLastEvent
    cases hev : isNull r.ev
    · rw [if_neg (by decide), (fullSize_ev h ha hev).1]
      exact ⟨_, _, rfl, h⟩
    · exact ⟨_, _, rfl, h⟩
  | size =>
    show ∃ r' b, (getEventSize [s] r).map (fun n => (r, decide (n > 0))) = some (r', b) ∧ _
    unfold getEventSize
    cases hev : isNull r.ev
    · rw [(fullSize_ev h ha hev).1]
      cases r.ev.attached
      · exact ⟨_, _, rfl, h⟩
      · exact ⟨_, _, rfl, h⟩
    · have hn : r.ev = Ptr.null := by
        rcases h.head with h1 | h1 | h1
        · have : r.first = false := ha
          rw [this] at h1; cases h1
        · exact h1
        · rcases h.ev with h2 | ⟨h2, _⟩
          · exact h2
          · unfold isNull at hev
            rw [h2] at hev
            simp only [Bool.not_true, Bool.false_or, decide_eq_true_eq] at hev
            omega
      rw [hn]
      exact ⟨_, _, rfl, h⟩
  | eventPointer =>
    show ∃ r' b, (assignEventPointer [s] r).map (fun q => (r, q.2)) = some (r', b) ∧ _
    cases hev : isNull r.ev
    · rw [assign_spec h ha hev]
      exact ⟨_, _, rfl, h⟩
    · unfold assignEventPointer
      rw [if_pos hev]
      exact ⟨_, _, rfl, h⟩
  | subsPointer =>
    obtain ⟨q, h1, -⟩ := subsPointer_spec hs h ha
    show ∃ r' b, (getSubeventsPointer [s] r).map (fun q => (r, !isNull q)) = some (r', b) ∧ _
    rw [h1]
    exact ⟨_, _, rfl, h⟩

theorem reached_inv {s : List Byte} (hs : s.length < 2 ^ 32) {typed : Bool} {r : Reader} (h : Reached [s] typed r) : RInv s r := by
  induction h with
  | reset => exact reset_inv s typed
  | call c _ ha hc ih =>
    obtain ⟨r', b, h1, h2⟩ := call_inv hs ih c ha
    rw [h1] at hc
    injection hc with hc
    injection hc with hc
    subst hc
    exact h2

end Verif.MbsIter
