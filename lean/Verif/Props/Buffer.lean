import Verif.BufferPart

/-! # Property C09: editing of segmented buffers acts on the content as on a byte string -/

namespace Verif.Buffer
open Verif.Pointer (Ptr OnBuffer NoEmpty pos start start_onBuffer shift_raw segSize segSize_eq sum_take_succ sum_take_le)
variable {α : Type}

/-- **C09**, size: `GetTotalSize` is the length of the content. -/
theorem C09_totalSize (mem : Nat → List α) (segs : List Seg) (h : InBlocks mem segs) :
    totalSize segs = (content mem segs).length := (content_length h).symm

/-- **C09**, `SetTotalSize(len)`: 0 releases the buffer, a too large value is refused, otherwise exactly the
first `len` bytes stay. -/
theorem C09_setTotalSize (mem : Nat → List α) (segs : List Seg) (h : InBlocks mem segs) (len : Nat) :
    (len = 0 → setTotalSize segs len = some (none, segs)) ∧
    (totalSize segs < len → setTotalSize segs len = none) ∧
    (0 < len → len ≤ totalSize segs → ∃ l d, setTotalSize segs len = some (some l, d) ∧ InBlocks mem l ∧
      content mem l = (content mem segs).take len) := by
  refine ⟨fun e => by simp [setTotalSize, e], fun hlt => ?_, fun h0 h1 => ?_⟩
  · unfold setTotalSize
    rw [if_neg (by omega)]
    simp only
    rw [if_pos (by omega)]
  · obtain ⟨l, d, e, c⟩ := setTotalSize_spec segs len h0 h1
    refine ⟨l, d, e, ?_⟩
    rcases c with ⟨c1, c2⟩ | ⟨l1, s, n, c1, c2, c3, c4⟩
    · subst c1
      obtain ⟨i1, i2⟩ := inBlocks_append.mp h
      refine ⟨i1, ?_⟩
      rw [content_append, ← c2, ← content_length i1, List.take_left]
    · subst c1 c2
      obtain ⟨i1, i2⟩ := inBlocks_append.mp h
      obtain ⟨i2, i3⟩ := inBlocks_cons.mp i2
      refine ⟨inBlocks_append.mpr ⟨i1, inBlocks_cons.mpr ⟨?_, by simp [InBlocks]⟩⟩, ?_⟩
      · simp only [setLen]; omega
      · rw [content_append, content_append, content_cons, content_cons, content_nil, List.append_nil, bytes_setLen _ _ _ (by omega),
          ← c3, ← content_length i1, List.take_length_add_append,
          List.take_append_of_le_length (by rw [bytes_length i2]; omega)]

/-- Three segments: cut in the middle of the second. -/
example : InBlocks (fun _ => ['a', 'b', 'c', 'd']) [⟨0, 0, 4⟩, ⟨1, 1, 3⟩, ⟨2, 0, 2⟩] ∧
    setTotalSize [⟨0, 0, 4⟩, ⟨1, 1, 3⟩, ⟨2, 0, 2⟩] 5 = some (some [⟨0, 0, 4⟩, ⟨1, 1, 1⟩], [⟨2, 0, 2⟩]) := by
  refine ⟨by simp [InBlocks], by decide⟩

/-- **C09**, `CutFromBegin(len)`: exactly the first `len` bytes disappear; cutting everything releases the
buffer. -/
theorem C09_cutFromBegin (mem : Nat → List α) (segs : List Seg) (h : InBlocks mem segs) (len : Nat) :
    (0 < len → totalSize segs ≤ len → cutFromBegin segs len = some (none, segs)) ∧
    (len = 0 ∨ len < totalSize segs → ∃ l d, cutFromBegin segs len = some (some l, d) ∧ InBlocks mem l ∧
      content mem l = (content mem segs).drop len) := by
  refine ⟨fun h0 hlt => ?_, fun hh => ?_⟩
  · unfold cutFromBegin
    rw [if_neg (by omega), if_pos (by omega)]
  · by_cases h0 : len = 0
    · subst h0
      exact ⟨segs, [], by simp [cutFromBegin], h, by simp⟩
    · obtain ⟨l, d, e, c⟩ := cutFromBegin_spec segs len (by omega) (by omega)
      refine ⟨l, d, e, ?_⟩
      rcases c with ⟨c1, c2⟩ | ⟨s, r, n, c1, c2, c3, c4⟩
      · subst c1
        obtain ⟨i1, i2⟩ := inBlocks_append.mp h
        refine ⟨i2, ?_⟩
        rw [content_append, ← c2, ← content_length i1, List.drop_left]
      · subst c1 c2
        obtain ⟨i1, i2⟩ := inBlocks_append.mp h
        obtain ⟨i2, i3⟩ := inBlocks_cons.mp i2
        refine ⟨inBlocks_cons.mpr ⟨by simp only [cutSeg]; omega, i3⟩, ?_⟩
        rw [content_append, content_cons, content_cons, bytes_cutSeg, ← c3, ← content_length i1, List.drop_length_add_append,
          List.drop_append_of_le_length (by rw [bytes_length i2]; omega)]

example : cutFromBegin [⟨0, 0, 4⟩, ⟨1, 1, 3⟩, ⟨2, 0, 2⟩] 5 = some (some [⟨1, 2, 2⟩, ⟨2, 0, 2⟩], [⟨0, 0, 4⟩]) := by decide

/-- **C09**, `Insert(pos, src)`: if the container has room for the segments (and one more if a segment has
to be split), the source bytes are spliced in at `pos` (at the end for larger `pos`); `Append` is
`pos = GetTotalSize()`, `Prepend` is `pos = 0`.  Otherwise an exception is thrown. -/
theorem C09_insert (mem : Nat → List α) (segs own : List Seg) (h : InBlocks mem segs) (ho : InBlocks mem own) (hne : own ≠ [])
    (cap pos : Nat) :
    (segs.length + own.length + 1 ≤ cap → ∃ l x, insertSegs segs cap pos own = some (l, x) ∧ InBlocks mem l ∧
      content mem l = (content mem segs).take pos ++ content mem own ++ (content mem segs).drop pos) ∧
    (cap < segs.length + own.length → insertSegs segs cap pos own = none) ∧
    (∀ l x, insertSegs segs cap pos own = some (l, x) → InBlocks mem l ∧ l.length ≤ cap ∧
      content mem l = (content mem segs).take pos ++ content mem own ++ (content mem segs).drop pos) := by
  obtain ⟨l1, l2, e, b⟩ := insertSegs_spec segs cap pos own hne
  subst e
  obtain ⟨i1, i2⟩ := inBlocks_append.mp h
  rcases b with ⟨b1, b2⟩ | ⟨s, r, n, b1, b2, b3, b4, b5⟩
  · have hin : InBlocks mem (l1 ++ own ++ l2) := inBlocks_append.mpr ⟨inBlocks_append.mpr ⟨i1, ho⟩, i2⟩
    have hc : content mem (l1 ++ own ++ l2)
        = (content mem (l1 ++ l2)).take pos ++ content mem own ++ (content mem (l1 ++ l2)).drop pos := by
      rw [content_append, content_append, content_append]
      rcases b1 with b1 | ⟨b1, b3⟩
      · rw [← b1, ← content_length i1, List.take_left, List.drop_left]
      · subst b1
        have := content_length i1
        rw [content_nil, List.append_nil, List.append_nil, List.take_of_length_le (by omega), List.drop_eq_nil_of_le (by omega),
          List.append_nil]
    refine ⟨fun hcap => ?_, fun hcap => ?_, fun l x hl => ?_⟩
    · refine ⟨_, _, by rw [b2, if_neg (by omega)], hin, hc⟩
    · rw [b2, if_pos (by omega)]
    · rw [b2] at hl
      split at hl
      · simp at hl
      · simp only [Option.some.injEq, Prod.mk.injEq] at hl
        obtain ⟨rfl, rfl⟩ := hl
        refine ⟨hin, ?_, hc⟩
        simp only [List.length_append] at *; omega
  · subst b1
    obtain ⟨i2, i3⟩ := inBlocks_cons.mp i2
    have hin : InBlocks mem (l1 ++ [setLen s n] ++ own ++ [cutSeg s n] ++ r) := by
      simp only [inBlocks_append, inBlocks_cons]
      refine ⟨⟨⟨⟨i1, ?_, by simp [InBlocks]⟩, ho⟩, ?_, by simp [InBlocks]⟩, i3⟩
      · simp only [setLen]; omega
      · simp only [cutSeg]; omega
    have hc : content mem (l1 ++ [setLen s n] ++ own ++ [cutSeg s n] ++ r)
        = (content mem (l1 ++ s :: r)).take pos ++ content mem own ++ (content mem (l1 ++ s :: r)).drop pos := by
      simp only [content_append, content_cons, content_nil, List.append_nil]
      rw [bytes_setLen _ _ _ (by omega), bytes_cutSeg, ← b4, ← content_length i1, List.take_length_add_append,
        List.drop_length_add_append, List.take_append_of_le_length (by rw [bytes_length i2]; omega),
        List.drop_append_of_le_length (by rw [bytes_length i2]; omega)]
      simp [List.append_assoc]
    refine ⟨fun hcap => ?_, fun hcap => ?_, fun l x hl => ?_⟩
    · refine ⟨_, _, by rw [b5, if_neg (by omega)], hin, hc⟩
    · rw [b5, if_pos (by omega)]
    · rw [b5] at hl
      split at hl
      · simp at hl
      · simp only [Option.some.injEq, Prod.mk.injEq] at hl
        obtain ⟨rfl, rfl⟩ := hl
        refine ⟨hin, ?_, hc⟩
        simp only [List.length_append, List.length_cons, List.length_nil] at *; omega

example : insertSegs [⟨0, 0, 4⟩, ⟨1, 0, 4⟩] 8 6 [⟨2, 0, 3⟩, ⟨3, 0, 1⟩]
    = some ([⟨0, 0, 4⟩, ⟨1, 0, 2⟩, ⟨2, 0, 3⟩, ⟨3, 0, 1⟩, ⟨1, 2, 2⟩], [⟨1, 0, 4⟩]) := by decide

/-- **C09 (partial)**, `GetNextPart(ptr, len)`: from a buffer without empty segments and a pointer not at the
exhausted end of a segment, a buffer with exactly the next `len > 0` bytes is returned and the pointer
moves behind them; if fewer bytes are left, the null buffer is returned and nothing changes.
Missing: `len = 0` (documented as "rest of the segment") and pointers at the end of a segment, see the
counterexample. -/
theorem C09_getNextPart_partial (mem : Nat → List α) (segs : List Seg) (h : InBlocks mem segs) (p : Ptr) (len : Nat)
    (hne : NoEmpty (segs.map Seg.len)) (hp : OnBuffer (segs.map Seg.len) p) (hr : 0 < p.raw) (h0 : 0 < len) :
    (len ≤ p.full → ∃ l q, getNextPart segs p len true = some (some l, q) ∧ InBlocks mem l ∧
      content mem l = ((content mem segs).drop (pos (segs.map Seg.len) p)).take len ∧
      OnBuffer (segs.map Seg.len) q ∧ pos (segs.map Seg.len) q = pos (segs.map Seg.len) p + len) ∧
    (p.full < len → getNextPart segs p len true = some (none, p)) := by
  refine ⟨fun hf => ?_, fun hf => by simp [getNextPart, hf]⟩
  obtain ⟨l, q, a, b, c, d⟩ := getNextPart_segs hne hp hr h0 hf
  refine ⟨l, q, a, ?_⟩
  rcases d with ⟨A, S, B, e, hA, hl, rfl⟩ | ⟨A, S, M, T, B, n, e, hA, hn, ho, rfl, hl⟩
  · have hpos : pos (segs.map Seg.len) p = totalSize A + p.off := by
      rw [pos, ← hA, e, sum_take_append]
    rw [hpos] at c ⊢
    rw [e] at h
    obtain ⟨i1, i2⟩ := inBlocks_append.mp h
    obtain ⟨i2, i3⟩ := inBlocks_cons.mp i2
    refine ⟨inBlocks_cons.mpr ⟨by simp only [setLen, cutSeg]; omega, by simp [InBlocks]⟩, ?_, b, c⟩
    rw [e, content_append, content_cons, content_cons, content_nil, List.append_nil,
      bytes_setLen _ _ _ (by simp only [cutSeg]; omega), bytes_cutSeg, ← content_length i1, List.drop_length_add_append,
      List.drop_append_of_le_length (by rw [bytes_length i2]; omega),
      List.take_append_of_le_length (by simp only [List.length_drop, bytes_length i2]; omega)]
  · have hpos : pos (segs.map Seg.len) p = totalSize A + p.off := by
      rw [pos, ← hA, e, sum_take_append]
    rw [hpos] at c ⊢
    rw [e] at h
    obtain ⟨i1, i2⟩ := inBlocks_append.mp h
    obtain ⟨i2, i3⟩ := inBlocks_cons.mp i2
    obtain ⟨i3, i4⟩ := inBlocks_append.mp i3
    obtain ⟨i4, i5⟩ := inBlocks_cons.mp i4
    refine ⟨inBlocks_cons.mpr ⟨by simp only [cutSeg]; omega, inBlocks_append.mpr ⟨i3, inBlocks_cons.mpr ⟨by simp only [setLen]; omega, by simp [InBlocks]⟩⟩⟩, ?_, b, c⟩
    rw [e]
    simp only [content_append, content_cons, content_nil, List.append_nil]
    rw [bytes_setLen _ _ _ hn, bytes_cutSeg, ← content_length i1, List.drop_length_add_append,
      List.drop_append_of_le_length (by rw [bytes_length i2]; omega)]
    have t1 : ((S.bytes mem).drop p.off).length + (content mem M).length + n = len := by
      rw [List.length_drop, bytes_length i2, content_length i3]; omega
    rw [← t1, Nat.add_assoc, List.take_length_add_append, List.take_length_add_append,
      List.take_append_of_le_length (by rw [bytes_length i4]; omega)]

example : getNextPart [⟨0, 0, 4⟩, ⟨1, 0, 4⟩, ⟨2, 0, 4⟩] (start [4, 4, 4]) 6 true
    = some (some [⟨0, 0, 4⟩, ⟨1, 0, 2⟩], ⟨1, 2, 2, 6, true⟩) := by
  simp [getNextPart, start, Pointer.segSize, partLoop, partLen, Part.add, Pointer.shift, Pointer.longShift, Pointer.shiftLoop, Pointer.sub32]

/-- **C09 counterexample**: with segments of 1, 1 and 2 bytes and a pointer moved by 2, asking for 2 bytes
(which are there) returns the null buffer; asking for 0 bytes at the begin of a segment of 4 bytes
returns an empty buffer instead of the documented rest of the segment. -/
theorem C09_getNextPart_counterexample :
    (∃ p, Pointer.shift [1, 1, 2] (start [1, 1, 2]) 2 = some (p, 2) ∧ p.full = 2 ∧
      getNextPart [⟨0, 0, 1⟩, ⟨1, 0, 1⟩, ⟨2, 0, 2⟩] p 2 true = some (none, p)) ∧
    (∃ q, getNextPart [⟨0, 0, 4⟩] (start [4]) 0 true = some (some [⟨0, 0, 0⟩], q)) := by
  refine ⟨⟨⟨1, 1, 0, 2, true⟩, ?_⟩, ⟨0, 0, 4, 4, true⟩, ?_⟩
  · simp [Pointer.shift, start, Pointer.segSize, Pointer.longShift, Pointer.shiftLoop, Pointer.sub32, getNextPart, partLoop, partLen]
  · simp [start, Pointer.segSize, getNextPart, partLoop]

end Verif.Buffer
