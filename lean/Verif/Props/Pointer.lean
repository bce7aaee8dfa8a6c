import Verif.PointerLemmas

/-! # Property C10: pointers on segmented buffers behave as offsets in the flat content -/

namespace Verif.Pointer

/-- **C10 (partial)**, moving: `shift(n)` of a pointer reaching to the end of its buffer adds `n` to its
offset for every segmentation and every `n` up to the rest size, whatever segment borders are crossed
or hit; a larger `n` gives the null pointer and returns the rest size.
Missing: pointers limited with `setfullsize`, see `C10_limited_shift_counterexample`. -/
theorem C10_shift_partial {sizes : List Nat} {p : Ptr} (h : OnBuffer sizes p) (n : Nat) :
    (n ≤ p.full → ∃ q, shift sizes p n = some (q, n) ∧ OnBuffer sizes q ∧
      pos sizes q = pos sizes p + n ∧ q.full = p.full - n) ∧
    (p.full < n → shift sizes p n = some (Ptr.null, p.full)) := by
  refine ⟨fun hn => ?_, fun hn => ?_⟩
  · obtain ⟨q, a, b, c, _⟩ := shift_spec h hn
    refine ⟨q, a, b, c, ?_⟩
    have := h.rest; have := b.rest; omega
  · have := raw_le_full h
    unfold shift
    rw [if_neg (by omega), if_pos (by omega)]

/-- A pointer at the begin of a buffer is at offset 0 and reaches to its end. -/
theorem C10_start (sizes : List Nat) (hs : sizes.sum < 2 ^ 32) (hne : sizes ≠ []) :
    OnBuffer sizes (start sizes) ∧ pos sizes (start sizes) = 0 :=
  ⟨start_onBuffer sizes hs hne, by simp [start, pos]⟩

/-- Segments of 3, 4 and 5 bytes: a shift by 7 ends at the border of the second segment. -/
example : OnBuffer [3, 4, 5] (start [3, 4, 5]) ∧ (shift [3, 4, 5] (start [3, 4, 5]) 7).map (fun r => pos [3, 4, 5] r.1) = some 7 := by
  refine ⟨start_onBuffer _ (by decide) (by decide), ?_⟩
  simp [shift, start, segSize, longShift, shiftLoop, sub32, pos]

/-- **C10 counterexample**, limits: on segments of 3, 4 and 4 bytes a pointer limited to 5 bytes that is
moved by 3 reports 4 contiguous bytes although only 2 are left; moving it by 3 more then makes the rest
size wrap around to almost 2^32. -/
theorem C10_limited_shift_counterexample :
    ∃ q r, shift [3, 4, 4] (setFullSize (start [3, 4, 4]) 5) 3 = some (q, 3) ∧ q.full = 2 ∧ q.raw = 4 ∧
      shift [3, 4, 4] q 3 = some (r, 3) ∧ r.full = 2 ^ 32 - 1 := by
  refine ⟨⟨1, 0, 4, 2, true⟩, ⟨1, 3, 1, 2 ^ 32 - 1, true⟩, ?_⟩
  simp [shift, start, setFullSize, segSize, longShift, shiftLoop, sub32]

variable {α : Type}

/-- **C10 (partial)**, copying: between buffers without empty segments, starting at pointers that are
not at the exhausted end of a segment, `copyfrom` transfers exactly the next bytes - the number asked
for (all of the source for 0), or what fits if less is available on one side - and changes nothing else.
Missing: pointers standing at the exhausted end of a segment, see `C10_copy_at_border_counterexample`. -/
theorem C10_copyfrom_partial {src tgt : List (List α)} {tp sp : Ptr} (sz : Nat)
    (hs : OnBuffer (sizesOf src) sp) (ht : OnBuffer (sizesOf tgt) tp)
    (hns : NoEmpty (sizesOf src)) (hnt : NoEmpty (sizesOf tgt))
    (rs : 0 < sp.raw) (rt : 0 < tp.raw) :
    let n := min (min (if sz = 0 then sp.full else sz) sp.full) tp.full
    ∃ tgt', copyFrom src tgt tp sp sz = some (n, tgt') ∧ sizesOf tgt' = sizesOf tgt ∧
      tgt'.flatten = tgt.flatten.take (pos (sizesOf tgt) tp)
        ++ (src.flatten.drop (pos (sizesOf src) sp)).take n
        ++ tgt.flatten.drop (pos (sizesOf tgt) tp + n) := by
  have r1 := raw_le_full hs
  have r2 := raw_le_full ht
  unfold copyFrom
  generalize hk : (if sz = 0 then sp.full else sz) = k
  intro n
  have hk0 : 0 < k := by rw [← hk]; split <;> omega
  by_cases hsimple : k ≤ tp.raw ∧ k ≤ sp.raw
  · have hn : n = k := by simp only [n]; omega
    simp only [if_pos hsimple]
    rw [readMem_spec hs hsimple.2 hk0]
    have hdl : ((src.flatten.drop (pos (sizesOf src) sp)).take k).length = k := by
      have := hs.rest
      rw [sum_sizesOf] at this
      simp only [List.length_take, List.length_drop]
      omega
    obtain ⟨t, w1, w2, w3⟩ := writeMem_spec ht (d := (src.flatten.drop (pos (sizesOf src) sp)).take k) (by omega) (by omega)
    refine ⟨t, ?_, w2, ?_⟩
    · simp only [w1, Option.map_some, hn]
    · rw [w3, hdl, hn]
  · simp only [if_neg hsimple]
    have hn : (if (if k > sp.full then sp.full else k) > tp.full then tp.full else (if k > sp.full then sp.full else k)) = n := by
      simp only [n]; repeat' split
      all_goals omega
    rw [hn]
    have := copyLoop_spec src hns n tgt tp sp 0 hnt ht hs (Or.inl rt) (Or.inl rs) (by simp only [n]; omega) (by simp only [n]; omega)
    rwa [Nat.zero_add] at this

/-- The hypotheses hold e.g. for copying from the begin of a buffer with segments of 2 and 3 bytes into
one with segments of 1 and 4 bytes. -/
example : OnBuffer (sizesOf [[1, 2], [3, 4, 5]]) (start [2, 3]) ∧ OnBuffer (sizesOf [[0], [0, 0, 0, 0]]) (start [1, 4]) ∧
    NoEmpty (sizesOf [[1, 2], [3, 4, 5]]) ∧ NoEmpty (sizesOf [[0], [0, 0, 0, 0]]) ∧ 0 < (start [2, 3]).raw ∧ 0 < (start [1, 4]).raw := by
  refine ⟨start_onBuffer _ (by decide) (by decide), start_onBuffer _ (by decide) (by decide), ?_, ?_, by decide, by decide⟩
  all_goals simp [NoEmpty, sizesOf]

/-- **C10 (partial)**, copying to plain memory: `copyto(area, sz)` fills the area with the next `sz`
bytes, or with all that is left if there are fewer, and returns that number.  Missing as above. -/
theorem C10_copyto_partial {src : List (List α)} {sp : Ptr} (area : List α) (sz : Nat)
    (hs : OnBuffer (sizesOf src) sp) (hns : NoEmpty (sizesOf src)) (rs : 0 < sp.raw) (ha : area.length = sz) (hsz : sz < 2 ^ 32) :
    copyTo src sp area sz = some (min sz sp.full,
      (src.flatten.drop (pos (sizesOf src) sp)).take (min sz sp.full) ++ area.drop (min sz sp.full)) := by
  unfold copyTo
  by_cases h0 : sz = 0
  · subst h0
    simp
  · rw [if_neg h0]
    have r1 := raw_le_full hs
    by_cases h1 : sz ≤ sp.raw
    · rw [if_pos h1, readMem_spec hs h1 (by omega), Nat.min_eq_left (by omega)]
      rfl
    · rw [if_neg h1]
      have hst : OnBuffer (sizesOf [area]) (start [sz]) := by
        have := start_onBuffer (sizesOf [area]) (by simpa [sizesOf, ha] using hsz) (by simp [sizesOf])
        simpa [sizesOf, ha] using this
      obtain ⟨t, e1, _, e2⟩ := C10_copyfrom_partial (tgt := [area]) (tp := start [sz]) sz hs hst hns
        (by simp [NoEmpty, sizesOf]; omega) rs (by simp [start, segSize]; omega)
      have hn : min (min (if sz = 0 then sp.full else sz) sp.full) (start [sz]).full = min sz sp.full := by
        simp only [h0, if_false, start, List.sum_cons, List.sum_nil]; omega
      rw [hn] at e1 e2
      rw [e1]
      simp only [Option.map_some, e2]
      simp [start, pos]

/-- **C10 counterexample**, copying at a border: on segments of 1, 1 and 2 bytes a pointer moved by 2
stands at offset 2 with 2 bytes left, but copying from it transfers nothing. -/
theorem C10_copy_at_border_counterexample :
    ∃ q, shift [1, 1, 2] (start [1, 1, 2]) 2 = some (q, 2) ∧ q.full = 2 ∧
      copyTo [['a'], ['b'], ['c', 'd']] q ['x', 'x'] 2 = some (0, ['x', 'x']) := by
  refine ⟨⟨1, 1, 0, 2, true⟩, ?_⟩
  simp [shift, start, segSize, longShift, shiftLoop, sub32, copyTo, copyFrom]
  simp [copyLoop, copyLen]
  exact ⟨0, _, ⟨rfl, rfl⟩, rfl, rfl⟩

/-- **C10 (partial)**, distance: `distance_to` terminates and gives the difference of the offsets for any two
pointers on the same buffer, unless the one in the earlier segment is an end pointer.
Missing: that case, see `C10_distance_counterexample`. -/
theorem C10_distance_partial {sizes : List Nat} {p c : Ptr} (hp : OnBuffer sizes p) (hc : OnBuffer sizes c)
    (hne : NoEmpty sizes) (h1 : p.segm < c.segm → 0 < p.full) (h2 : c.segm < p.segm → 0 < c.full) :
    distanceTo sizes (sizes.length + 1) p c = some ((pos sizes c : Int) - pos sizes p) := by
  have fwd : ∀ {p c : Ptr}, OnBuffer sizes p → OnBuffer sizes c → p.segm < c.segm → 0 < p.full →
      ∃ q d, distLoop sizes (sizes.length + 1) p c.segm 0 = some (d, q) ∧
        (d : Int) + ((c.off : Int) - q.off) = (pos sizes c : Int) - pos sizes p := by
    intro p c hp hc hlt hf
    have := hc.inb
    obtain ⟨q, d, a, b, e, f⟩ := distLoop_spec hne c.segm hc.inb (sizes.length + 1) p 0 hp (by omega) (by omega) (fun _ => hf)
    refine ⟨q, 0 + d, a, ?_⟩
    simp only [pos, e] at f ⊢
    omega
  unfold distanceTo
  by_cases he : p.segm = c.segm
  · rw [if_pos he]
    simp only [pos, he]
    congr 1; omega
  · rw [if_neg he]
    by_cases hg : p.segm > c.segm
    · rw [if_pos hg]
      obtain ⟨q, d, a, b⟩ := fwd hc hp hg (h2 hg)
      simp only [a, Option.map_some, b]
      congr 1; omega
    · rw [if_neg hg]
      obtain ⟨q, d, a, b⟩ := fwd hp hc (by omega) (h1 (by omega))
      simp only [a, Option.map_some, b]

/-- From the begin of a buffer to a pointer moved by 5 over segments 3, 4, 5. -/
example : ∃ q, shift [3, 4, 5] (start [3, 4, 5]) 5 = some (q, 5) ∧ q.segm = 1 ∧ distanceTo [3, 4, 5] 4 (start [3, 4, 5]) q = some 5 := by
  refine ⟨⟨1, 2, 2, 7, true⟩, ?_⟩
  simp [shift, start, segSize, longShift, shiftLoop, sub32, distanceTo, distLoop]

/-- **C10 counterexample**, distance: a pointer moved from the begin to the end of a buffer with two
segments stays in segment 0; the distance to a pointer in the second segment is never found, the loop
does not end for any number of iterations. -/
theorem C10_distance_counterexample :
    ∃ p c, shift [2, 2] (start [2, 2]) 4 = some (p, 4) ∧ shift [2, 2] (start [2, 2]) 2 = some (c, 2) ∧
      ∀ fuel, distanceTo [2, 2] fuel p c = none := by
  refine ⟨⟨0, 4, 0, 0, true⟩, ⟨1, 0, 2, 2, true⟩, ?_, ?_, ?_⟩
  · simp [shift, start, segSize, longShift]
  · simp [shift, start, segSize, longShift, shiftLoop, sub32]
  · have h : ∀ fuel, distLoop [2, 2] fuel ⟨0, 4, 0, 0, true⟩ 1 0 = none := by
      intro fuel
      induction fuel with
      | zero => rfl
      | succ n ih =>
        simp [distLoop, shift, longShift, ih]
    intro fuel
    simp [distanceTo, h]

end Verif.Pointer
