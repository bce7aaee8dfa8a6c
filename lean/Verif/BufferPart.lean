import Verif.BufferLemmas

/-! Lemmas on the content of segments and on `GetNextPart`. -/

namespace Verif.Buffer
open Verif.Pointer (Ptr OnBuffer NoEmpty pos shift_raw shift_spec segSize sum_take_succ sum_take_le raw_le_full segSize_eq)
variable {α : Type}

theorem bytes_length {mem : Nat → List α} {s : Seg} (h : s.off + s.len ≤ (mem s.id).length) : (s.bytes mem).length = s.len := by
  simp only [Seg.bytes, List.length_take, List.length_drop]; omega

theorem bytes_setLen (mem : Nat → List α) (s : Seg) (n : Nat) (h : n ≤ s.len) : (setLen s n).bytes mem = (s.bytes mem).take n := by
  simp only [Seg.bytes, setLen, List.take_take]
  rw [Nat.min_eq_left h]

theorem bytes_cutSeg (mem : Nat → List α) (s : Seg) (n : Nat) : (cutSeg s n).bytes mem = (s.bytes mem).drop n := by
  simp only [Seg.bytes, cutSeg, List.drop_take, List.drop_drop]

theorem content_append (mem : Nat → List α) (a b : List Seg) : content mem (a ++ b) = content mem a ++ content mem b := by
  simp [content]

theorem content_cons (mem : Nat → List α) (s : Seg) (b : List Seg) : content mem (s :: b) = s.bytes mem ++ content mem b := by
  simp [content]

theorem content_nil (mem : Nat → List α) : content mem [] = [] := rfl

theorem content_length {mem : Nat → List α} {segs : List Seg} (h : InBlocks mem segs) : (content mem segs).length = totalSize segs := by
  induction segs with
  | nil => rfl
  | cons s l ih =>
    rw [content_cons, totalSize_cons, List.length_append, bytes_length (h s (by simp)), ih (fun x hx => h x (by simp [hx]))]

theorem inBlocks_append {mem : Nat → List α} {a b : List Seg} : InBlocks mem (a ++ b) ↔ InBlocks mem a ∧ InBlocks mem b := by
  simp only [InBlocks, List.mem_append]
  constructor
  · intro h; exact ⟨fun s hs => h s (Or.inl hs), fun s hs => h s (Or.inr hs)⟩
  · rintro ⟨h1, h2⟩ s (hs | hs)
    · exact h1 s hs
    · exact h2 s hs

theorem inBlocks_cons {mem : Nat → List α} {s : Seg} {b : List Seg} : InBlocks mem (s :: b) ↔ s.off + s.len ≤ (mem s.id).length ∧ InBlocks mem b := by
  simp [InBlocks]

theorem partLoop_spec {sizes : List Nat} (hne : NoEmpty sizes) : ∀ (len : Nat) (p : Ptr) (st : Part),
    OnBuffer sizes p → 0 < p.raw → 0 < len → len ≤ p.full →
    ∃ q L l, partLoop sizes p len st = some (0, q,
        { first := (st.add p (partLen p len)).first, lastseg := L, lastlen := l }) ∧
      OnBuffer sizes q ∧ pos sizes q = pos sizes p + len ∧
      ((len ≤ p.raw ∧ L = p.segm ∧ l = len) ∨
       (p.raw < len ∧ p.segm < L ∧ L < sizes.length ∧ l ≤ segSize sizes L ∧
          (sizes.take L).sum + l = pos sizes p + len)) := by
  intro len
  induction len using Nat.strongRecOn with
  | ind len ih =>
    intro p st h hr h0 hf
    have hin := h.inb
    by_cases hle : len ≤ p.raw
    · obtain ⟨q, a, b, c, _⟩ := shift_spec h hf
      have hpl : partLen p len = len := by unfold partLen; rw [if_neg (by omega)]
      refine ⟨q, p.segm, len, ?_, b, c, Or.inl ⟨hle, rfl, rfl⟩⟩
      rw [partLoop, if_pos ⟨h0, hin⟩]
      simp only [hpl]
      rw [dif_neg (by omega), a]
      simp only [Nat.sub_self]
      rw [partLoop, if_neg (by omega)]
      rfl
    · have hpl : partLen p len = p.raw := by unfold partLen; rw [if_pos (by omega)]
      have hreg : p.off + p.raw = segSize sizes p.segm := by
        rcases h.seg with b | ⟨b, c⟩ <;> omega
      have hnext : p.segm + 1 < sizes.length := by
        have e1 := sum_take_succ hin
        have hrest := h.rest
        simp only [pos] at hrest
        by_cases hh : p.segm + 1 < sizes.length
        · exact hh
        · have : p.segm + 1 = sizes.length := by omega
          rw [this, List.take_length] at e1
          omega
      obtain ⟨q, q1, q2, q3, q4, q5, q6⟩ := shift_raw h hne (by omega) hnext
      have hqreg : 0 < q.raw := by
        rcases q2.seg with b | ⟨b, c⟩
        · have : 0 < segSize sizes q.segm := by
            rw [segSize_eq q2.inb]; exact hne _ (List.getElem_mem q2.inb)
          omega
        · omega
      have hrest := h.rest
      have qrest := q2.rest
      obtain ⟨q', L, l, r1, r2, r3, r4⟩ := ih (len - p.raw) (by omega) q
        (st.add p p.raw) q2 hqreg (by omega) (by omega)
      refine ⟨q', L, l, ?_, r2, by omega, Or.inr ⟨by omega, ?_⟩⟩
      · rw [partLoop, if_pos ⟨h0, hin⟩]
        simp only [hpl]
        rw [dif_neg (by omega), q1]
        simp only
        rw [r1]
        cases hst : st.first <;> simp [Part.add, hst]
      · rcases r4 with ⟨s1, s2, s3⟩ | ⟨s1, s2, s3, s4, s5⟩
        · subst s2 s3
          refine ⟨by omega, q2.inb, ?_, ?_⟩
          · rcases q2.seg with b | ⟨b, c⟩ <;> omega
          · simp only [pos] at *; omega
        · exact ⟨by omega, s3, s4, by omega⟩

theorem seg_split {segs : List Seg} {i : Nat} (h : i < segs.length) :
    ∃ A S B, segs = A ++ S :: B ∧ A.length = i := by
  refine ⟨segs.take i, segs[i], segs.drop (i + 1), ?_, ?_⟩
  · rw [List.getElem_cons_drop, List.take_append_drop]
  · rw [List.length_take]; omega

theorem sum_take_append (A : List Seg) (B : List Seg) : (((A ++ B).map Seg.len).take A.length).sum = totalSize A := by
  rw [List.map_append, List.take_append_of_le_length (by simp), List.take_of_length_le (by simp)]
  rfl

/-- What `GetNextPart` returns in terms of segments. -/
theorem getNextPart_segs {segs : List Seg} {p : Ptr} {len : Nat} (hne : NoEmpty (segs.map Seg.len))
    (h : OnBuffer (segs.map Seg.len) p) (hr : 0 < p.raw) (h0 : 0 < len) (hf : len ≤ p.full) :
    ∃ l q, getNextPart segs p len true = some (some l, q) ∧ OnBuffer (segs.map Seg.len) q ∧
      pos (segs.map Seg.len) q = pos (segs.map Seg.len) p + len ∧
      ((∃ A S B, segs = A ++ S :: B ∧ A.length = p.segm ∧ p.off + len ≤ S.len ∧ l = [setLen (cutSeg S p.off) len]) ∨
       (∃ A S M T B n, segs = A ++ S :: (M ++ T :: B) ∧ A.length = p.segm ∧ n ≤ T.len ∧ p.off ≤ S.len ∧
          l = cutSeg S p.off :: (M ++ [setLen T n]) ∧
          S.len - p.off + totalSize M + n = len)) := by
  obtain ⟨q, L, k, a, b, c, d⟩ := partLoop_spec hne len p { first := none, lastseg := 0, lastlen := 0 } h hr h0 hf
  have hin := h.inb
  have hreg : p.off + p.raw = segSize (segs.map Seg.len) p.segm := by
    rcases h.seg with b | ⟨b, c⟩ <;> omega
  obtain ⟨A, S, B, e, hA⟩ := seg_split (segs := segs) (i := p.segm) (by simpa using hin)
  have hS : segSize (segs.map Seg.len) p.segm = S.len := by
    rw [segSize_eq hin]; simp only [e, ← hA, List.map_append, List.map_cons]
    rw [List.getElem_append_right (by simp)]; simp
  have hdrop : segs.drop p.segm = S :: B := by rw [e, ← hA]; simp
  unfold getNextPart
  simp only [if_true]
  rw [if_neg (by omega), if_neg (by omega), a]
  simp only [Nat.lt_irrefl, gt_iff_lt, if_false, Part.add]
  rcases d with ⟨d1, d2, d3⟩ | ⟨d1, d2, d3, d4, d5⟩
  · subst d2 d3
    have hpl : partLen p k = k := by unfold partLen; rw [if_neg (by omega)]
    refine ⟨_, q, rfl, b, c, Or.inl ⟨A, S, B, e, hA, by omega, ?_⟩⟩
    rw [hdrop, hpl]
    simp [setLen, cutSeg]
  · have hpl : partLen p len = p.raw := by unfold partLen; rw [if_pos (by omega)]
    -- split the tail at the last segment
    have hBl : L - p.segm - 1 < B.length := by
      have : segs.length = A.length + 1 + B.length := by rw [e]; simp; omega
      simp only [List.length_map] at d3
      omega
    obtain ⟨M, T, B', e2, hM⟩ := seg_split hBl
    subst e2
    have hTs : segSize (segs.map Seg.len) L = T.len := by
      rw [segSize_eq d3]
      have hLeq : L = (A ++ S :: M).length := by simp only [List.length_append, List.length_cons]; omega
      have e3 : segs = (A ++ S :: M) ++ T :: B' := by rw [e]; simp
      subst hLeq
      simp only [e3, List.map_append, List.map_cons]
      rw [List.getElem_append_right (by simp)]; simp
    have hsumL : ((segs.map Seg.len).take L).sum = totalSize A + S.len + totalSize M := by
      have hLeq : L = (A ++ S :: M).length := by simp only [List.length_append, List.length_cons]; omega
      have e3 : segs = (A ++ S :: M) ++ T :: B' := by rw [e]; simp
      rw [hLeq, e3, sum_take_append, totalSize_append, totalSize_cons]; omega
    have hsumA : ((segs.map Seg.len).take p.segm).sum = totalSize A := by
      rw [← hA, e, sum_take_append]
    refine ⟨_, q, rfl, b, c, Or.inr ⟨A, S, M, T, B', k, e, hA, by omega, by omega, ?_, ?_⟩⟩
    · rw [hdrop, hpl]
      have hcnt : L - p.segm + 1 = (S :: (M ++ [T])).length := by
        simp only [List.length_cons, List.length_append, List.length_nil]; omega
      have e4 : S :: (M ++ T :: B') = (S :: (M ++ [T])) ++ B' := by simp
      rw [e4, hcnt, List.take_append_of_le_length (Nat.le_refl _), List.take_length]
      have hlast : L - p.segm = M.length + 1 := by omega
      rw [hlast]
      simp only [List.modify_zero_cons, List.modify_succ_cons]
      congr 1
      · simp only [cutSeg]; congr 1; omega
      · rw [List.modify_eq_take_cons_drop (by simp)]; simp [setLen]
    · simp only [pos] at d5
      omega

end Verif.Buffer
