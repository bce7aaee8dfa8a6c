import Verif.Spec.Pointer

namespace Verif.Pointer

theorem sub32_eq {a b : Nat} (h : b ≤ a) (ha : a < 2 ^ 32) : sub32 a b = a - b := by
  unfold sub32; omega

theorem segSize_eq {sizes : List Nat} {i : Nat} (h : i < sizes.length) : segSize sizes i = sizes[i] := by
  simp [segSize, List.getD, h]

theorem sum_take_succ {sizes : List Nat} {i : Nat} (h : i < sizes.length) :
    (sizes.take (i + 1)).sum = (sizes.take i).sum + segSize sizes i := by
  rw [segSize_eq h, List.take_add_one, List.sum_append]
  simp [h]

theorem sum_take_le (sizes : List Nat) (i : Nat) : (sizes.take i).sum ≤ sizes.sum := by
  have : sizes.sum = (sizes.take i).sum + (sizes.drop i).sum := by
    rw [← List.sum_append, List.take_append_drop]
  omega

/-- The loop of `long_shift` stops in the segment containing the target offset. -/
theorem shiftLoop_spec (sizes : List Nat) (hs : sizes.sum < 2 ^ 32) (segm len full : Nat)
    (hsm : segm ≤ sizes.length)
    (hf : (sizes.take segm).sum + full = sizes.sum) (hlt : len < full) :
    ∃ segm' len', shiftLoop sizes segm len full = (segm', len', sizes.sum - (sizes.take segm').sum) ∧
      segm ≤ segm' ∧ segm' < sizes.length ∧ len' ≤ segSize sizes segm' ∧
      (sizes.take segm').sum + len' = (sizes.take segm).sum + len := by
  induction segm, len, full using shiftLoop.induct sizes with
  | case1 segm len full h ih =>
    obtain ⟨h1, h2⟩ := h
    have e := sum_take_succ h1
    have hsz : sub32 full (segSize sizes segm) = full - segSize sizes segm := sub32_eq (by omega) (by omega)
    obtain ⟨s', l', a, b, c, d, f⟩ := ih h1 (by rw [hsz]; omega) (by rw [hsz]; omega)
    refine ⟨s', l', ?_, by omega, c, d, by omega⟩
    rw [shiftLoop, if_pos ⟨h1, h2⟩, a]
  | case2 segm len full h =>
    have h1 : segm < sizes.length := by
      by_cases hh : segm < sizes.length
      · exact hh
      · have : segm = sizes.length := by omega
        subst this
        simp at hf; omega
    refine ⟨segm, len, ?_, Nat.le_refl _, h1, by omega, rfl⟩
    rw [shiftLoop, if_neg h]
    congr 2
    omega

/-- `shift` is addition of offsets. -/
theorem shift_spec {sizes : List Nat} {p : Ptr} (h : OnBuffer sizes p) {n : Nat} (hn : n ≤ p.full) :
    ∃ q, shift sizes p n = some (q, n) ∧ OnBuffer sizes q ∧ pos sizes q = pos sizes p + n ∧ p.segm ≤ q.segm ∧
      q.attached = p.attached ∧
      (NoEmpty sizes → n ≤ p.raw → (0 < p.raw ∨ p.full = 0) → (0 < q.raw ∨ q.full = 0)) := by
  have hsm := h.small
  have hrest := h.rest
  unfold shift
  by_cases h1 : n < p.raw
  · rw [if_pos h1]
    have hf : p.full < 2 ^ 32 := by omega
    refine ⟨_, rfl, ⟨hsm, ?_, h.inb, ?_⟩, ?_, Nat.le_refl _, rfl, ?_⟩
    · simp only [pos, sub32_eq hn hf] at *; omega
    · rcases h.seg with b | ⟨a, b⟩
      · left; simp only; omega
      · omega
    · simp only [pos]; omega
    · intro _ _ _; left; simp only; omega
  · rw [if_neg h1, if_neg (by omega)]
    unfold longShift
    by_cases h2 : p.full = n
    · rw [if_pos h2]
      refine ⟨_, rfl, ⟨hsm, ?_, h.inb, Or.inr ⟨rfl, rfl⟩⟩, ?_, Nat.le_refl _, rfl, fun _ _ _ => Or.inr rfl⟩
      · simp only [pos] at *; omega
      · simp only [pos] at *; omega
    · rw [if_neg h2]
      have a := h.inb
      rcases h.seg with b | ⟨b, c⟩
      · have e := sum_take_succ a
        have hsub : sub32 p.full p.raw = p.full - p.raw := sub32_eq (by omega) (by omega)
        simp only [pos] at hrest
        obtain ⟨s', l', e1, e2, e3, e4, e5⟩ := shiftLoop_spec sizes hsm (p.segm + 1) (n - p.raw) (p.full - p.raw)
          (by omega) (by omega) (by omega)
        rw [hsub, e1]
        simp only
        rw [if_neg (by omega)]
        have hle := sum_take_le sizes s'
        have hle2 : (sizes.take (s' + 1)).sum ≤ sizes.sum := sum_take_le _ _
        have e6 := sum_take_succ e3
        have hsub2 : sub32 (sizes.sum - (sizes.take s').sum) l' = sizes.sum - (sizes.take s').sum - l' :=
          sub32_eq (by omega) (by omega)
        refine ⟨{ p with segm := s', off := l', raw := segSize sizes s' - l', full := sub32 (sizes.sum - (sizes.take s').sum) l' }, rfl, ⟨hsm, ?_, e3, ?_⟩, ?_, by simp only; omega, rfl, ?_⟩
        · simp only [pos, hsub2]; omega
        · left; simp only; omega
        · simp only [pos]; omega
        · intro hne hle _
          left
          simp only
          have hl : n - p.raw = 0 := by omega
          have : l' = 0 := by
            -- nothing was left to skip, so the loop did not move
            rw [hl] at e1
            rw [shiftLoop, if_neg (by omega)] at e1
            simp only [Prod.mk.injEq] at e1
            omega
          subst this
          have := hne (sizes[s']) (List.getElem_mem e3)
          rw [segSize_eq e3]; omega
      · omega

theorem start_onBuffer (sizes : List Nat) (hs : sizes.sum < 2 ^ 32) (hne : sizes ≠ []) : OnBuffer sizes (start sizes) := by
  refine ⟨hs, by simp [start, pos], ?_, Or.inl (by simp [start])⟩
  cases sizes with
  | nil => exact absurd rfl hne
  | cons a l => simp [start]

theorem raw_le_full {sizes : List Nat} {p : Ptr} (h : OnBuffer sizes p) : p.raw ≤ p.full := by
  have h1 := h.rest
  have h2 := sum_take_le sizes (p.segm + 1)
  rw [sum_take_succ h.inb] at h2
  unfold pos at h1
  rcases h.seg with b | ⟨b, c⟩ <;> omega

section Copy
variable {α : Type}

theorem sum_sizesOf (mem : List (List α)) : (sizesOf mem).sum = mem.flatten.length := by
  simp [sizesOf, List.length_flatten]

theorem sum_take_sizesOf (mem : List (List α)) (i : Nat) : ((sizesOf mem).take i).sum = (mem.take i).flatten.length := by
  rw [← sum_sizesOf]; simp [sizesOf, List.map_take]

theorem sizesOf_length (mem : List (List α)) : (sizesOf mem).length = mem.length := by simp [sizesOf]

theorem segSize_sizesOf {mem : List (List α)} {i : Nat} (h : i < mem.length) : segSize (sizesOf mem) i = mem[i].length := by
  rw [segSize_eq (by simpa [sizesOf] using h)]; simp [sizesOf]

theorem mem_split {mem : List (List α)} {i : Nat} (h : i < mem.length) :
    mem = mem.take i ++ mem[i] :: mem.drop (i + 1) := by
  rw [List.getElem_cons_drop, List.take_append_drop]

theorem pos_eq (mem : List (List α)) (p : Ptr) : pos (sizesOf mem) p = (mem.take p.segm).flatten.length + p.off := by
  simp [pos, sum_take_sizesOf]

theorem off_le {mem : List (List α)} {p : Ptr} (h : OnBuffer (sizesOf mem) p) {n : Nat} (hn : n ≤ p.raw) (h0 : 0 < n) :
    ∃ hi : p.segm < mem.length, p.off + n ≤ mem[p.segm].length := by
  have hi : p.segm < mem.length := by rw [← sizesOf_length]; exact h.inb
  refine ⟨hi, ?_⟩
  rcases h.seg with b | ⟨b, c⟩
  · rw [segSize_sizesOf hi] at b; omega
  · omega

theorem drop_mid {α : Type} (A S B : List α) {o : Nat} (ho : o ≤ S.length) :
    (A ++ (S ++ B)).drop (A.length + o) = S.drop o ++ B := by
  rw [List.drop_append, List.drop_eq_nil_of_le (by omega), List.nil_append,
    show A.length + o - A.length = o by omega, List.drop_append_of_le_length ho]

theorem readMem_zero {mem : List (List α)} {p : Ptr} (h : OnBuffer (sizesOf mem) p) (hoff : p.off ≤ (mem[p.segm]?.getD []).length) :
    readMem mem p 0 = some [] := by
  have hi : p.segm < mem.length := by rw [← sizesOf_length]; exact h.inb
  simp only [readMem, List.getElem?_eq_getElem hi] at *
  simp only [Option.getD_some] at hoff
  rw [if_pos (by omega)]; simp

theorem readMem_spec {mem : List (List α)} {p : Ptr} (h : OnBuffer (sizesOf mem) p) {n : Nat} (hn : n ≤ p.raw) (h0 : 0 < n) :
    readMem mem p n = some ((mem.flatten.drop (pos (sizesOf mem) p)).take n) := by
  obtain ⟨hi, ho⟩ := off_le h hn h0
  simp only [readMem, List.getElem?_eq_getElem hi, if_pos ho]
  congr 1
  rw [pos_eq]
  have e : mem.flatten = (mem.take p.segm).flatten ++ (mem[p.segm] ++ (mem.drop (p.segm + 1)).flatten) := by
    have := congrArg List.flatten (mem_split hi)
    rw [List.flatten_append, List.flatten_cons] at this
    exact this
  rw [e, drop_mid _ _ _ (by omega), List.take_append_of_le_length (by simp only [List.length_drop]; omega)]

theorem writeMem_spec {mem : List (List α)} {p : Ptr} (h : OnBuffer (sizesOf mem) p) {d : List α} (hn : d.length ≤ p.raw) (h0 : 0 < d.length) :
    ∃ mem', writeMem mem p d = some mem' ∧ sizesOf mem' = sizesOf mem ∧
      mem'.flatten = mem.flatten.take (pos (sizesOf mem) p) ++ d ++ mem.flatten.drop (pos (sizesOf mem) p + d.length) := by
  obtain ⟨hi, ho⟩ := off_le h hn h0
  refine ⟨_, by simp only [writeMem, List.getElem?_eq_getElem hi, if_pos ho]; rfl, ?_, ?_⟩
  · simp only [sizesOf, List.map_set]
    have : (mem[p.segm].take p.off ++ d ++ mem[p.segm].drop (p.off + d.length)).length = mem[p.segm].length := by
      simp only [List.length_append, List.length_take, List.length_drop]; omega
    rw [this]
    apply List.ext_getElem?
    intro i
    rw [List.getElem?_set]
    split
    · next e => subst e; simp [hi]
    · rfl
  · have e : mem.flatten = (mem.take p.segm).flatten ++ (mem[p.segm] ++ (mem.drop (p.segm + 1)).flatten) := by
      have := congrArg List.flatten (mem_split hi)
      rw [List.flatten_append, List.flatten_cons] at this
      exact this
    have hset : mem.set p.segm (mem[p.segm].take p.off ++ d ++ mem[p.segm].drop (p.off + d.length))
        = mem.take p.segm ++ (mem[p.segm].take p.off ++ d ++ mem[p.segm].drop (p.off + d.length)) :: mem.drop (p.segm + 1) := by
      rw [List.set_eq_take_append_cons_drop, if_pos hi]
    rw [hset, List.flatten_append, List.flatten_cons, pos_eq]
    generalize hA : (mem.take p.segm).flatten = A at *
    generalize hB : (mem.drop (p.segm + 1)).flatten = B at *
    generalize hS : mem[p.segm] = S at *
    rw [e]
    have t1 : (A ++ (S ++ B)).take (A.length + p.off) = A ++ S.take p.off := by
      rw [List.take_append, List.take_of_length_le (by omega),
        show A.length + p.off - A.length = p.off by omega, List.take_append_of_le_length (by omega)]
    have t2 : (A ++ (S ++ B)).drop (A.length + p.off + d.length) = S.drop (p.off + d.length) ++ B := by
      rw [List.drop_append, List.drop_eq_nil_of_le (by omega), List.nil_append,
        show A.length + p.off + d.length - A.length = p.off + d.length by omega, List.drop_append_of_le_length (by omega)]
    rw [t1, t2]
    simp [List.append_assoc]

/-- A pointer that can be read from: not in the gap after an exhausted segment. -/
def Ready (p : Ptr) : Prop := 0 < p.raw ∨ p.full = 0

theorem copyLoop_spec (src : List (List α)) (hsrc : NoEmpty (sizesOf src)) : ∀ (sz : Nat) (tgt : List (List α)) (tp sp : Ptr) (res : Nat),
    NoEmpty (sizesOf tgt) → OnBuffer (sizesOf tgt) tp → OnBuffer (sizesOf src) sp → Ready tp → Ready sp →
    sz ≤ tp.full → sz ≤ sp.full →
    ∃ tgt', copyLoop src tgt tp sp sz res = some (res + sz, tgt') ∧ sizesOf tgt' = sizesOf tgt ∧
      tgt'.flatten = tgt.flatten.take (pos (sizesOf tgt) tp)
        ++ (src.flatten.drop (pos (sizesOf src) sp)).take sz
        ++ tgt.flatten.drop (pos (sizesOf tgt) tp + sz) := by
  intro sz
  induction sz using Nat.strongRecOn with
  | ind sz ih =>
    intro tgt tp sp res htgt ht hs rt rs h1 h2
    by_cases h0 : sz = 0
    · subst h0
      refine ⟨tgt, by rw [copyLoop]; simp, rfl, ?_⟩
      simp
    · have hraw : 0 < tp.raw ∧ 0 < sp.raw := by
        unfold Ready at rt rs; omega
      have hlen : 0 < copyLen tp sp sz ∧ copyLen tp sp sz ≤ tp.raw ∧ copyLen tp sp sz ≤ sp.raw ∧ copyLen tp sp sz ≤ sz := by
        simp only [copyLen]
        repeat' split
        all_goals omega
      obtain ⟨l1, l2, l3, l4⟩ := hlen
      have rd := readMem_spec hs l3 l1
      have hdl : ((src.flatten.drop (pos (sizesOf src) sp)).take (copyLen tp sp sz)).length = copyLen tp sp sz := by
        have := hs.rest
        rw [sum_sizesOf] at this
        simp only [List.length_take, List.length_drop]
        omega
      obtain ⟨t1, w1, w2, w3⟩ := writeMem_spec ht (d := (src.flatten.drop (pos (sizesOf src) sp)).take (copyLen tp sp sz))
        (by omega) (by omega)
      obtain ⟨tq, q1, q2, q3, _, _, q4⟩ := shift_spec ht (n := copyLen tp sp sz) (by omega)
      obtain ⟨sq, r1, r2, r3, _, _, r4⟩ := shift_spec hs (n := copyLen tp sp sz) (by omega)
      have q5 : pos (sizesOf tgt) tq + tq.full = (sizesOf tgt).sum := q2.rest
      have r5 := r2.rest
      have ht' := ht.rest
      have hs' := hs.rest
      obtain ⟨t2, e1, e2, e3⟩ := ih (sz - copyLen tp sp sz) (by omega) t1 tq sq (res + copyLen tp sp sz)
        (by rw [w2]; exact htgt) (by rw [w2]; exact q2) r2 (q4 htgt l2 rt) (r4 hsrc l3 rs) (by omega) (by omega)
      refine ⟨t2, ?_, by rw [e2, w2], ?_⟩
      · rw [copyLoop, if_neg h0]
        simp only [rd, w1, q1, r1]
        rw [dif_neg (by omega), e1]
        congr 2; omega
      · rw [e3, w2, q3, r3, w3]
        have hT : tgt.flatten.length = (sizesOf tgt).sum := (sum_sizesOf tgt).symm
        have hS : src.flatten.length = (sizesOf src).sum := (sum_sizesOf src).symm
        generalize tgt.flatten = T at *
        generalize src.flatten = S at *
        generalize pos (sizesOf tgt) tp = a at *
        generalize pos (sizesOf src) sp = b at *
        generalize copyLen tp sp sz = k at *
        have hT1 : a + k ≤ T.length := by omega
        have x1 : (T.take a ++ (S.drop b).take k ++ T.drop (a + ((S.drop b).take k).length)).take (a + k) = T.take a ++ (S.drop b).take k := by
          rw [List.take_append_of_le_length (by simp only [List.length_append, List.length_take, List.length_drop]; omega)]
          rw [List.take_of_length_le (by simp only [List.length_append, List.length_take, List.length_drop]; omega)]
        have x2 : (T.take a ++ (S.drop b).take k ++ T.drop (a + ((S.drop b).take k).length)).drop (a + k + (sz - k)) = T.drop (a + sz) := by
          rw [hdl, List.drop_append, List.drop_eq_nil_of_le (by simp only [List.length_append, List.length_take, List.length_drop]; omega),
            List.nil_append, List.drop_drop]
          congr 1
          simp only [List.length_append, List.length_take, List.length_drop]
          omega
        rw [x1, x2]
        have x3 : (S.drop b).take sz = (S.drop b).take k ++ (S.drop (b + k)).take (sz - k) := by
          conv => lhs; rw [show sz = k + (sz - k) by omega, List.take_add, List.drop_drop]
        rw [x3]
        simp [List.append_assoc]

end Copy

/-- Moving a pointer by its raw size brings it to the begin of the next segment. -/
theorem shift_raw {sizes : List Nat} {p : Ptr} (h : OnBuffer sizes p) (hne : NoEmpty sizes) (hf : 0 < p.full)
    (hn : p.segm + 1 < sizes.length) :
    ∃ q, shift sizes p p.raw = some (q, p.raw) ∧ OnBuffer sizes q ∧ q.segm = p.segm + 1 ∧ q.off = 0 ∧ 0 < q.full ∧
      pos sizes q = pos sizes p + p.raw := by
  have hreg : p.off + p.raw = segSize sizes p.segm := by
    rcases h.seg with b | ⟨b, c⟩ <;> omega
  have e1 := sum_take_succ h.inb
  have e2 := sum_take_succ hn
  have h3 := sum_take_le sizes (p.segm + 1 + 1)
  have hpos : 0 < segSize sizes (p.segm + 1) := by
    rw [segSize_eq hn]; exact hne _ (List.getElem_mem hn)
  have hrest := h.rest
  simp only [pos] at hrest
  have hsm := h.small
  have hsub : sub32 p.full p.raw = p.full - p.raw := sub32_eq (by omega) (by omega)
  have hsub0 : sub32 (p.full - p.raw) 0 = p.full - p.raw := sub32_eq (by omega) (by omega)
  refine ⟨{ p with segm := p.segm + 1, off := 0, raw := segSize sizes (p.segm + 1), full := p.full - p.raw }, ?_, ⟨hsm, ?_, hn, Or.inl (by simp)⟩, rfl, rfl, by simp only; omega, ?_⟩
  · unfold shift
    rw [if_neg (by omega), if_neg (by omega)]
    unfold longShift
    rw [if_neg (by omega), hsub, Nat.sub_self, shiftLoop, if_neg (by omega)]
    simp only
    rw [if_neg (by omega), hsub0]
    simp
  · simp only [pos]; omega
  · simp only [pos]; omega

theorem distLoop_spec {sizes : List Nat} (hne : NoEmpty sizes) (target : Nat) (ht : target < sizes.length) :
    ∀ (fuel : Nat) (p : Ptr) (dist : Nat), OnBuffer sizes p → p.segm ≤ target → target - p.segm < fuel →
      (p.segm < target → 0 < p.full) →
      ∃ q d, distLoop sizes fuel p target dist = some (dist + d, q) ∧ OnBuffer sizes q ∧ q.segm = target ∧
        pos sizes q = pos sizes p + d := by
  intro fuel
  induction fuel with
  | zero => intro p dist _ _ h; omega
  | succ fuel ih =>
    intro p dist h hle hfu hfull
    by_cases hlt : p.segm < target
    · obtain ⟨q, q1, q2, q3, q4, q5, q6⟩ := shift_raw h hne (hfull hlt) (by omega)
      obtain ⟨q', d, r1, r2, r3, r4⟩ := ih q (dist + p.raw) q2 (by omega) (by omega) (fun _ => q5)
      refine ⟨q', p.raw + d, ?_, r2, r3, by omega⟩
      simp only [distLoop, if_pos hlt, q1, r1]
      congr 2; omega
    · refine ⟨p, 0, ?_, h, by omega, by omega⟩
      simp only [distLoop, if_neg hlt]
      rfl

end Verif.Pointer
