import Verif.Spec.Buffer
import Verif.PointerLemmas

namespace Verif.Buffer
open Verif.Pointer (Ptr)

theorem totalSize_append (a b : List Seg) : totalSize (a ++ b) = totalSize a + totalSize b := by
  simp [totalSize]

theorem totalSize_cons (s : Seg) (b : List Seg) : totalSize (s :: b) = s.len + totalSize b := by
  simp [totalSize]

theorem locateLoop_spec (p : Nat) (segs : List Seg) : ∀ curr idx, curr ≤ p →
    ∃ l1 l2, segs = l1 ++ l2 ∧ (locateLoop p curr idx segs).1 = idx + l1.length ∧
      (((locateLoop p curr idx segs).2 = 0 ∧ (curr + totalSize l1 = p ∨ (l2 = [] ∧ curr + totalSize l1 < p))) ∨
       (∃ s r, l2 = s :: r ∧ 0 < (locateLoop p curr idx segs).2 ∧ (locateLoop p curr idx segs).2 < s.len ∧
          curr + totalSize l1 + (locateLoop p curr idx segs).2 = p)) := by
  induction segs with
  | nil =>
    intro curr idx h
    refine ⟨[], [], rfl, rfl, Or.inl ⟨rfl, ?_⟩⟩
    simp only [totalSize, List.map_nil, List.sum_nil, true_and]
    omega
  | cons s rest ih =>
    intro curr idx h
    simp only [locateLoop]
    by_cases h1 : curr < p
    · rw [if_pos h1]
      by_cases h2 : curr + s.len ≤ p
      · rw [if_pos h2]
        obtain ⟨l1, l2, e, a, b⟩ := ih (curr + s.len) (idx + 1) h2
        refine ⟨s :: l1, l2, by rw [e]; rfl, by rw [a]; simp only [List.length_cons]; omega, ?_⟩
        rw [totalSize_cons]
        rcases b with ⟨b1, b2⟩ | ⟨s', r, b1, b2, b3, b4⟩
        · left
          refine ⟨b1, ?_⟩
          rcases b2 with b2 | ⟨b2, b3⟩
          · left; omega
          · right; exact ⟨b2, by omega⟩
        · right; exact ⟨s', r, b1, b2, b3, by omega⟩
      · rw [if_neg h2]
        refine ⟨[], s :: rest, rfl, rfl, Or.inr ⟨s, rest, rfl, by simp only; omega, by simp only; omega, ?_⟩⟩
        simp only [totalSize, List.map_nil, List.sum_nil]; omega
    · rw [if_neg h1]
      refine ⟨[], s :: rest, rfl, rfl, Or.inl ⟨rfl, Or.inl ?_⟩⟩
      simp only [totalSize, List.map_nil, List.sum_nil]; omega

/-- `Locate` splits the segments list. -/
theorem locate_spec (segs : List Seg) (p : Nat) :
    ∃ l1 l2, segs = l1 ++ l2 ∧ (locate segs p).1 = l1.length ∧
      (((locate segs p).2 = 0 ∧ (totalSize l1 = p ∨ (l2 = [] ∧ totalSize l1 < p))) ∨
       (∃ s r, l2 = s :: r ∧ 0 < (locate segs p).2 ∧ (locate segs p).2 < s.len ∧
          totalSize l1 + (locate segs p).2 = p)) := by
  obtain ⟨l1, l2, a, b, c⟩ := locateLoop_spec p segs 0 0 (by omega)
  refine ⟨l1, l2, a, by simpa [locate] using b, ?_⟩
  simpa [locate] using c

/-- Same effect on bytes and ids, used to describe results. -/
def setLen (s : Seg) (n : Nat) : Seg := { s with len := n }
def cutSeg (s : Seg) (n : Nat) : Seg := { s with len := s.len - n, off := s.off + n }

theorem setTotalSize_spec (segs : List Seg) (len : Nat) (h0 : 0 < len) (h1 : len ≤ totalSize segs) :
    ∃ l d, setTotalSize segs len = some (some l, d) ∧
      ((segs = l ++ d ∧ totalSize l = len) ∨
       (∃ l1 s n, l = l1 ++ [setLen s n] ∧ segs = l1 ++ s :: d ∧ totalSize l1 + n = len ∧ n < s.len)) := by
  unfold setTotalSize
  rw [if_neg (by omega)]
  simp only
  rw [if_neg (by omega)]
  by_cases h2 : len = totalSize segs
  · rw [if_pos h2]
    exact ⟨segs, [], rfl, Or.inl ⟨by simp, h2.symm⟩⟩
  · rw [if_neg h2]
    obtain ⟨l1, l2, e, a, b⟩ := locate_spec segs len
    rw [a]
    have hne : l2 ≠ [] := by
      rintro rfl
      rcases b with ⟨_, b⟩ | ⟨s, r, b, _⟩
      · simp only [List.append_nil] at e; subst e; omega
      · simp at b
    have hlen : l1.length < segs.length := by
      rw [e, List.length_append]
      cases l2 with
      | nil => exact absurd rfl hne
      | cons x r => simp
    rw [if_neg (by omega)]
    rcases b with ⟨b1, b2⟩ | ⟨s, r, b1, b2, b3, b4⟩
    · rw [b1]
      simp only [Nat.lt_irrefl, gt_iff_lt, if_false]
      rw [if_pos hlen]
      refine ⟨l1, l2, ?_, Or.inl ⟨e, ?_⟩⟩
      · rw [e]; simp
      · rcases b2 with b2 | ⟨b2, _⟩
        · exact b2
        · exact absurd b2 hne
    · subst b1
      simp only [gt_iff_lt, b2, if_true]
      have hget : segs.getD l1.length Seg.zero = s := by rw [e]; simp [List.getD]
      rw [hget]
      have hset : segs.set l1.length { s with len := (locate segs len).2 } = l1 ++ setLen s (locate segs len).2 :: r := by
        rw [e]
        generalize (locate (l1 ++ s :: r) len).2 = k
        simp [setLen]
      rw [hset]
      refine ⟨l1 ++ [setLen s (locate segs len).2], r, ?_, Or.inr ⟨l1, s, (locate segs len).2, rfl, e, b4, b3⟩⟩
      generalize setLen s (locate segs len).2 = s'
      by_cases hr : l1.length + 1 < (l1 ++ s' :: r).length
      · rw [if_pos hr]
        have e1 : (l1 ++ s' :: r).take (l1.length + 1) = l1 ++ [s'] := by
          rw [List.take_append]; simp [List.take_of_length_le]
        have e2 : (l1 ++ s' :: r).drop (l1.length + 1) = r := by
          rw [List.drop_append]; simp
        rw [e1, e2]
      · rw [if_neg hr]
        have : r = [] := by
          simp only [List.length_append, List.length_cons] at hr
          exact List.eq_nil_of_length_eq_zero (by omega)
        subst this
        rfl

theorem cutLoop_length (nseg : Nat) : ∀ k n segs, (cutLoop nseg k n segs).length = segs.length := by
  intro k
  induction k with
  | zero => intro n segs; rfl
  | succ k ih => intro n segs; rw [cutLoop, ih]; simp

/-- The copy loop of `CutFromBegin` moves the tail to the front. -/
theorem cutLoop_get (nseg : Nat) (hn : 0 < nseg) : ∀ k n segs i, n + k + nseg ≤ segs.length →
    (cutLoop nseg k n segs)[i]? = if n ≤ i ∧ i < n + k then segs[i + nseg]? else segs[i]? := by
  intro k
  induction k with
  | zero => intro n segs i h; rw [cutLoop, if_neg (by omega)]
  | succ k ih =>
    intro n segs i h
    rw [cutLoop, ih (n + 1) _ i (by simp only [List.length_set]; omega)]
    have hg : segs[n + nseg]? = some (segs.getD (n + nseg) Seg.zero) := by
      rw [List.getElem?_eq_getElem (by omega)]
      simp [List.getD, List.getElem?_eq_getElem (show n + nseg < segs.length by omega)]
    by_cases h1 : i = n
    · subst h1
      rw [if_neg (by omega), if_pos (by omega), List.getElem?_set_self (by omega), hg]
    · by_cases h2 : n + 1 ≤ i ∧ i < n + 1 + k
      · rw [if_pos h2, if_pos (by omega), List.getElem?_set_ne (by omega)]
      · rw [if_neg h2, if_neg (by omega), List.getElem?_set_ne (by omega)]

theorem cutLoop_take (l1 l2 : List Seg) (h : l1 ≠ []) :
    (cutLoop l1.length l2.length 0 (l1 ++ l2)).take l2.length = l2 := by
  have hl : 0 < l1.length := List.length_pos_iff.mpr h
  apply List.ext_getElem?
  intro i
  rw [List.getElem?_take]
  by_cases hi : i < l2.length
  · rw [if_pos hi, cutLoop_get _ hl _ _ _ _ (by simp only [List.length_append]; omega), if_pos (by omega),
      List.getElem?_append_right (by omega)]
    congr 1; omega
  · rw [if_neg hi]
    simp at hi
    rw [List.getElem?_eq_none hi]

theorem cutFromBegin_spec (segs : List Seg) (len : Nat) (h0 : 0 < len) (h1 : len < totalSize segs) :
    ∃ l d, cutFromBegin segs len = some (some l, d) ∧
      ((segs = d ++ l ∧ totalSize d = len) ∨
       (∃ s r n, l = cutSeg s n :: r ∧ segs = d ++ s :: r ∧ totalSize d + n = len ∧ n < s.len)) := by
  unfold cutFromBegin
  rw [if_neg (by omega), if_neg (by omega)]
  simp only
  obtain ⟨l1, l2, e, a, b⟩ := locate_spec segs len
  rw [a]
  have hne : l2 ≠ [] := by
    rintro rfl
    rcases b with ⟨_, b⟩ | ⟨s, r, b, _⟩
    · simp only [List.append_nil] at e; subst e; omega
    · simp at b
  have hlen : l1.length < segs.length := by
    rw [e, List.length_append]
    cases l2 with
    | nil => exact absurd rfl hne
    | cons x r => simp
  rw [if_neg (by omega)]
  have hsl : segs.length - l1.length = l2.length := by rw [e, List.length_append]; omega
  have hseg : (if l1.length > 0 then (cutLoop l1.length (segs.length - l1.length) 0 segs).take (segs.length - l1.length) else segs) = l2 := by
    rw [hsl]
    split
    · next hp =>
      have : l1 ≠ [] := by intro h; simp [h] at hp
      conv => lhs; rw [e]
      exact cutLoop_take l1 l2 this
    · next hp =>
      have : l1 = [] := List.eq_nil_of_length_eq_zero (by omega)
      subst this
      simpa using e
  have hdr : (if l1.length > 0 then segs.take l1.length else []) = l1 := by
    split
    · rw [e]; simp
    · next hp => exact (List.eq_nil_of_length_eq_zero (by omega)).symm
  rw [hseg, hdr]
  rcases b with ⟨b1, b2⟩ | ⟨s, r, b1, b2, b3, b4⟩
  · rw [b1]
    simp only [Nat.lt_irrefl, gt_iff_lt, if_false]
    refine ⟨l2, l1, rfl, Or.inl ⟨e, ?_⟩⟩
    rcases b2 with b2 | ⟨b2, _⟩
    · exact b2
    · exact absurd b2 hne
  · subst b1
    simp only [gt_iff_lt, b2, if_true]
    exact ⟨cutSeg s (locate segs len).2 :: r, l1, rfl, Or.inr ⟨s, r, _, rfl, e, b4, b3⟩⟩

theorem moveLoop_get (lo d : Nat) (hd : 0 < d) : ∀ n segm i, n + d ≤ segm.length → lo ≤ n →
    (moveLoop lo d n segm)[i]? =
      if lo + d ≤ i ∧ i < n + d then segm[i - d]?
      else if lo ≤ i ∧ i < n then some Seg.zero else segm[i]? := by
  intro n
  induction n with
  | zero => intro segm i _ _; rw [moveLoop, if_neg (by omega), if_neg (by omega)]
  | succ n ih =>
    intro segm i h hlo
    rw [moveLoop]
    by_cases h1 : n + 1 > lo
    · rw [if_pos h1, ih _ i (by simp only [List.length_set]; omega) (by omega)]
      have hg : segm[n]? = some (segm.getD n Seg.zero) := by
        simp [List.getD, List.getElem?_eq_getElem (show n < segm.length by omega)]
      by_cases c1 : lo + d ≤ i ∧ i < n + d
      · rw [if_pos c1, if_pos (by omega), List.getElem?_set_ne (by omega), List.getElem?_set_ne (by omega)]
      · rw [if_neg c1]
        by_cases c2 : i = n + d
        · subst c2
          rw [if_neg (by omega), if_pos (by omega), List.getElem?_set_ne (by omega), List.getElem?_set_self (by omega),
            show n + d - d = n by omega, hg]
        · rw [if_neg (show ¬(lo + d ≤ i ∧ i < n + 1 + d) by omega)]
          by_cases c3 : i = n
          · subst c3
            rw [if_neg (by omega), if_pos (by omega), List.getElem?_set_self (by simp only [List.length_set]; omega)]
          · by_cases c4 : lo ≤ i ∧ i < n
            · rw [if_pos c4, if_pos (by omega)]
            · rw [if_neg c4, if_neg (by omega), List.getElem?_set_ne (by omega), List.getElem?_set_ne (by omega)]
    · rw [if_neg h1, if_neg (by omega), if_neg (by omega)]

theorem moveLoop_length (lo d : Nat) : ∀ n segm, (moveLoop lo d n segm).length = segm.length := by
  intro n
  induction n with
  | zero => intro segm; rfl
  | succ n ih =>
    intro segm
    rw [moveLoop]
    split
    · rw [ih]; simp
    · rfl

theorem copySegs_get (own : List Seg) : ∀ k segm i, k + own.length ≤ segm.length →
    (copySegs k own segm)[i]? = if k ≤ i ∧ i < k + own.length then own[i - k]? else segm[i]? := by
  induction own with
  | nil => intro k segm i h; rw [copySegs, if_neg (by simp only [List.length_nil]; omega)]
  | cons s own ih =>
    intro k segm i h
    simp only [List.length_cons] at h ⊢
    rw [copySegs, ih (k + 1) _ i (by simp only [List.length_set]; omega)]
    by_cases c1 : i = k
    · subst c1
      rw [if_neg (by omega), if_pos (by omega), List.getElem?_set_self (by omega)]
      simp
    · by_cases c2 : k + 1 ≤ i ∧ i < k + 1 + own.length
      · rw [if_pos c2, if_pos (by omega), show i - k = (i - (k + 1)) + 1 by omega, List.getElem?_cons_succ]
      · rw [if_neg c2, if_neg (by omega), List.getElem?_set_ne (by omega)]

theorem copySegs_length (own : List Seg) : ∀ k segm, (copySegs k own segm).length = segm.length := by
  induction own with
  | nil => intro k segm; rfl
  | cons s own ih => intro k segm; rw [copySegs, ih]; simp

/-- Move and copy loops together: `own` is spliced in at `lo`, leaving room for one more behind it when
`d = own.length + 1`. -/
theorem splice_get (l1 l2 own : List Seg) (cap d : Nat) (hd : 0 < d) (hown : own.length ≤ d) (hcap : l1.length + l2.length + d ≤ cap) (i : Nat)
    (hi : i < l1.length + l2.length + d) :
    (copySegs l1.length own (moveLoop l1.length d (l1 ++ l2).length ((l1 ++ l2) ++ List.replicate (cap - (l1 ++ l2).length) Seg.zero)))[i]? =
      if i < l1.length then l1[i]?
      else if i < l1.length + own.length then own[i - l1.length]?
      else if l1.length + d ≤ i then l2[i - d - l1.length]?
      else (if i < l1.length + l2.length then some Seg.zero else some Seg.zero) := by
  have hL : ((l1 ++ l2) ++ List.replicate (cap - (l1 ++ l2).length) Seg.zero).length = cap := by
    simp only [List.length_append, List.length_replicate]; omega
  rw [copySegs_get _ _ _ _ (by rw [moveLoop_length, hL]; omega)]
  by_cases c1 : i < l1.length
  · rw [if_neg (by omega), if_pos c1, moveLoop_get _ _ hd _ _ _ (by rw [hL]; simp only [List.length_append]; omega) (by simp),
      if_neg (by omega), if_neg (by omega), List.append_assoc, List.getElem?_append_left c1]
  · rw [if_neg c1]
    by_cases c2 : i < l1.length + own.length
    · rw [if_pos (by omega), if_pos c2]
    · rw [if_neg (by omega), if_neg c2, moveLoop_get _ _ hd _ _ _ (by rw [hL]; simp only [List.length_append]; omega) (by simp)]
      by_cases c3 : l1.length + d ≤ i
      · rw [if_pos (by simp only [List.length_append]; omega), if_pos c3, List.append_assoc, List.getElem?_append_right (by omega),
          List.getElem?_append_left (by omega)]
      · rw [if_neg (by omega), if_neg c3]
        simp only [List.length_append]
        by_cases c4 : i < l1.length + l2.length
        · rw [if_pos (by omega), if_pos c4]
        · rw [if_neg (by omega), if_neg c4, List.getElem?_append_right (by simp only [List.length_append]; omega),
            List.getElem?_replicate]
          simp only [List.length_append]
          rw [if_pos (by omega)]

theorem splice_take (l1 l2 own : List Seg) (cap : Nat) (h0 : own ≠ []) (hcap : l1.length + l2.length + own.length ≤ cap) :
    (copySegs l1.length own (moveLoop l1.length own.length (l1 ++ l2).length ((l1 ++ l2) ++ List.replicate (cap - (l1 ++ l2).length) Seg.zero))).take
      (l1.length + l2.length + own.length) = l1 ++ own ++ l2 := by
  have hl : 0 < own.length := List.length_pos_iff.mpr h0
  apply List.ext_getElem?
  intro i
  rw [List.getElem?_take]
  by_cases hi : i < l1.length + l2.length + own.length
  · rw [if_pos hi, splice_get l1 l2 own cap _ hl (Nat.le_refl _) hcap i hi, List.append_assoc]
    by_cases c1 : i < l1.length
    · rw [if_pos c1, List.getElem?_append_left c1]
    · rw [if_neg c1, List.getElem?_append_right (by omega)]
      by_cases c2 : i < l1.length + own.length
      · rw [if_pos c2, List.getElem?_append_left (by omega)]
      · rw [if_neg c2, if_pos (by omega), List.getElem?_append_right (by omega)]
        congr 1; omega
  · rw [if_neg hi, List.getElem?_eq_none (by simp only [List.length_append]; omega)]

theorem insertSegs_spec (segs : List Seg) (cap pos : Nat) (own : List Seg) (h0 : own ≠ []) :
    ∃ l1 l2, segs = l1 ++ l2 ∧
      (((totalSize l1 = pos ∨ (l2 = [] ∧ totalSize l1 < pos)) ∧
          insertSegs segs cap pos own = if segs.length + own.length > cap then none else some (l1 ++ own ++ l2, [])) ∨
       (∃ s r n, l2 = s :: r ∧ 0 < n ∧ n < s.len ∧ totalSize l1 + n = pos ∧
          insertSegs segs cap pos own = if segs.length + own.length + 1 > cap then none
            else some (l1 ++ [setLen s n] ++ own ++ [cutSeg s n] ++ r, [s]))) := by
  obtain ⟨l1, l2, e, a, b⟩ := locate_spec segs pos
  refine ⟨l1, l2, e, ?_⟩
  rcases b with ⟨b1, b2⟩ | ⟨s, r, b1, b2, b3, b4⟩
  · left
    refine ⟨b2, ?_⟩
    unfold insertSegs
    simp only [a, b1, gt_iff_lt, Nat.lt_irrefl, if_false, Nat.add_zero]
    split
    · rfl
    · next h =>
      have hd : segs.length + own.length - segs.length = own.length := by omega
      rw [hd]
      have := splice_take l1 l2 own cap h0 (by rw [e] at h; simp only [List.length_append] at h; omega)
      rw [← e] at this
      have hL : segs.length + own.length = l1.length + l2.length + own.length := by rw [e, List.length_append]
      rw [hL, this]
  · right
    subst b1
    refine ⟨s, r, (locate segs pos).2, rfl, b2, b3, b4, ?_⟩
    unfold insertSegs
    simp only [a, gt_iff_lt, b2, if_true]
    split
    · rfl
    · next h =>
      have hd : segs.length + own.length + 1 - segs.length = own.length + 1 := by omega
      rw [hd]
      have e' : segs = (l1 ++ [s]) ++ r := by rw [e]; simp
      have hL : segs.length = l1.length + 1 + r.length := by rw [e']; simp; omega
      have hlen1 : (l1 ++ [s]).length = l1.length + 1 := by simp
      generalize hk : (locate segs pos).2 = k at *
      generalize hm : copySegs (l1.length + 1) own (moveLoop (l1.length + 1) (own.length + 1) segs.length (segs ++ List.replicate (cap - segs.length) Seg.zero)) = m
      have hg : ∀ i, i < l1.length + 1 + r.length + (own.length + 1) → m[i]? =
          if i < l1.length + 1 then (l1 ++ [s])[i]?
          else if i < l1.length + 1 + own.length then own[i - (l1.length + 1)]?
          else if l1.length + 1 + (own.length + 1) ≤ i then r[i - (own.length + 1) - (l1.length + 1)]?
          else some Seg.zero := by
        intro i hi
        have := splice_get (l1 ++ [s]) r own cap (own.length + 1) (by omega) (by omega) (by rw [hlen1]; omega) i (by rw [hlen1]; omega)
        rw [← e', hlen1, hm] at this
        rw [this]
        simp only [ite_self]
      have hmlen : m.length = cap := by
        rw [← hm, copySegs_length, moveLoop_length]
        simp only [List.length_append, List.length_replicate]; omega
      have hms : m.getD l1.length Seg.zero = s := by
        have := hg l1.length (by omega)
        rw [if_pos (by omega)] at this
        simp only [List.getD, this]; simp
      rw [hms]
      congr 2
      unfold splitSeg
      simp only [hms]
      apply List.ext_getElem?
      intro i
      rw [List.getElem?_take]
      by_cases hi : i < segs.length + own.length + 1
      · rw [if_pos hi]
        have hgi := hg i (by omega)
        by_cases c1 : i = l1.length
        · subst c1
          rw [List.getElem?_set_self (by simp only [List.length_set]; omega)]
          simp [setLen]
        · rw [List.getElem?_set_ne (by omega)]
          by_cases c2 : i = l1.length + own.length + 1
          · subst c2
            rw [List.getElem?_set_self (by omega)]
            simp only [List.append_assoc]
            rw [List.getElem?_append_right (by omega), List.getElem?_append_right (by simp only [List.length_cons, List.length_nil]; omega),
              List.getElem?_append_right (by simp only [List.length_cons, List.length_nil]; omega)]
            simp only [List.length_cons, List.length_nil, List.cons_append, List.nil_append]
            rw [show l1.length + own.length + 1 - l1.length - (0 + 1) - own.length = 0 by omega]
            rfl
          · rw [List.getElem?_set_ne (by omega), hgi]
            simp only [List.append_assoc]
            by_cases c3 : i < l1.length
            · rw [if_pos (by omega), List.getElem?_append_left c3, List.getElem?_append_left c3]
            · rw [if_neg (by omega), List.getElem?_append_right (by omega), List.getElem?_append_right (by simp only [List.length_cons, List.length_nil]; omega)]
              simp only [List.length_cons, List.length_nil]
              by_cases c4 : i < l1.length + 1 + own.length
              · rw [if_pos c4, List.getElem?_append_left (by omega)]
                congr 1
              · rw [if_neg c4, if_pos (by omega), List.getElem?_append_right (by omega),
                  List.getElem?_append_right (by simp only [List.length_cons, List.length_nil]; omega)]
                simp only [List.length_cons, List.length_nil]
                congr 1; omega
      · rw [if_neg hi, List.getElem?_eq_none]
        simp only [List.length_append, List.length_cons, List.length_nil]
        omega

end Verif.Buffer
