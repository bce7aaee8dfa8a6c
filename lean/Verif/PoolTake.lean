import Verif.PoolLemmas

namespace Verif.Pool
open Verif.Buffer Verif.Pointer

theorem size_of_sizesOf (p : Pool) (i : Nat) : p.size i = (sizesOf p)[i]?.getD 0 := by
  simp [Pool.size, sizesOf]

theorem size_congr {p q : Pool} (h : sizesOf p = sizesOf q) (i : Nat) : p.size i = q.size i := by
  rw [size_of_sizesOf, size_of_sizesOf, h]

/-- Taking a free block for a segment. -/
theorem PInv.takeOne {p raw R} (h : PInv p raw R) {i : Nat} {rest : List Nat} (hf : p.free = i :: rest) :
    ∃ e, p.arr[i]? = some e ∧ e.refcnt = 0 ∧ e.size = p.size i ∧
      PInv { arr := p.arr.set i { e with refcnt := e.refcnt + 1 }, free := rest } raw (inc R i) := by
  have hm := (h.mem i).mp (by simp [hf])
  obtain ⟨hlt, hz, hnr⟩ := hm
  have he : p.arr[i]? = some p.arr[i] := List.getElem?_eq_getElem hlt
  have hn := h.nodup
  rw [hf, List.nodup_cons] at hn
  refine ⟨p.arr[i], he, by rw [h.ref i _ he, hz], by simp [Pool.size, he], ⟨?_, ?_, hn.2, ?_, h.rawNodup, ?_⟩⟩
  · intro j e hj
    simp only at hj
    by_cases hij : i = j
    · subst hij
      rw [List.getElem?_set_self hlt] at hj
      simp only [Option.some.injEq] at hj
      subst hj
      simp [inc, h.ref i _ he]
    · rw [List.getElem?_set_ne hij] at hj
      simp only [inc, if_neg (Ne.symm hij)]
      exact h.ref j e hj
  · intro j hj
    simp only [List.length_set] at hj
    simp only [inc]; split
    · omega
    · exact h.out j hj
  · intro j
    simp only [List.length_set]
    have hmj := h.mem j
    rw [hf, List.mem_cons] at hmj
    simp only [inc]
    by_cases hj : j = i
    · subst hj
      simp [hn.1]
    · rw [if_neg hj, ← hmj]
      simp [hj]
  · intro j hj
    simp only [List.length_set]
    have := h.rawIn j hj
    refine ⟨this.1, ?_⟩
    simp only [inc]; rw [if_neg (by rintro rfl; exact hnr hj)]; exact this.2

/-- Size-limit under which the 32-bit sum in `_TakeBuffer` cannot wrap. -/
def NoWrap (p : Pool) (size : Nat) : Prop := ∀ i, size + p.size i ≤ 2 ^ 32

theorem takeLoop_spec (size : Nat) (p0 : Pool) : ∀ (free : List Nat) (p : Pool) (raw : List Nat) (R : Nat → Nat) (sum c cnt : Nat),
    PInv p raw R → p.free = free → sizesOf p = sizesOf p0 → needLoop p0 size sum c free = some cnt →
    ∃ q segs, takeLoop size sum p free = some (q, segs) ∧ PInv q raw (fun i => R i + uses segs i) ∧ sizesOf q = sizesOf p0 ∧
      c + segs.length = cnt ∧ free = segs.map Seg.id ++ q.free ∧ (∀ s ∈ segs, s.off = 0 ∧ s.len ≤ p0.size s.id) ∧
      (NoWrap p0 size → totalSize segs = size - sum) ∧ (sum < size → segs ≠ []) := by
  intro free
  induction free with
  | nil =>
    intro p raw R sum c cnt h hf hs hn
    unfold needLoop at hn
    split at hn
    · simp at hn
    · rename_i hlt
      unfold takeLoop
      rw [if_neg hlt]
      simp only [Option.some.injEq] at hn
      refine ⟨p, [], rfl, h.congr (by simp), hs, by simpa using hn, by simp [hf], by simp, fun _ => ?_, fun hh => absurd hh hlt⟩
      simp only [totalSize, List.map_nil, List.sum_nil]; omega
  | cons i rest ih =>
    intro p raw R sum c cnt h hf hs hn
    unfold needLoop at hn
    split at hn
    · rename_i hlt
      simp only at hn
      obtain ⟨e, he, h0, hsz, hinv⟩ := h.takeOne hf
      have hszp : e.size = p0.size i := by rw [hsz, size_congr hs]
      obtain ⟨q, segs, a1, a2, a3, a4, a5, a6, a7, _⟩ := ih _ raw (inc R i) ((sum + p0.size i) % 2 ^ 32) (c + 1) cnt hinv rfl
        ((sizesOf_set he _ _).trans hs) hn
      unfold takeLoop
      rw [if_pos hlt]
      simp only [he]
      rw [← hszp] at a1
      rw [if_neg (by omega), a1]
      refine ⟨q, _, rfl, a2.congr ?_, a3, ?_, ?_, ?_, ?_, by simp⟩
      · intro j
        simp only [uses_cons, inc]
        by_cases hj : j = i
        · subst hj; simp; omega
        · rw [if_neg hj, if_neg (Ne.symm hj)]; omega
      · simp only [List.length_cons]; omega
      · simp [← a5]
      · intro s hs
        rcases List.mem_cons.mp hs with rfl | hs
        · simp only [true_and, hszp]; split <;> omega
        · exact a6 s hs
      · intro hw
        have h1 := a7 hw
        have h2 := hw i
        rw [Nat.mod_eq_of_lt (by omega)] at h1
        simp only [totalSize, List.map_cons, List.sum_cons] at h1 ⊢
        rw [h1]
        split <;> omega
    · rename_i hlt
      unfold takeLoop
      rw [if_neg hlt]
      simp only [Option.some.injEq] at hn
      refine ⟨p, [], rfl, h.congr (by simp), hs, by simpa using hn, by simp [hf], by simp, fun _ => ?_, fun hh => absurd hh hlt⟩
      simp only [totalSize, List.map_nil, List.sum_nil]; omega

/-- Total size of the listed blocks. -/
def blocksSize (p : Pool) (l : List Nat) : Nat := (l.map p.size).sum

theorem needLoop_none {size : Nat} {p : Pool} (hw : NoWrap p size) : ∀ (free : List Nat) (sum c : Nat),
    needLoop p size sum c free = none ↔ sum + blocksSize p free < size := by
  intro free
  induction free with
  | nil =>
    intro sum c
    unfold needLoop
    simp only [blocksSize, List.map_nil, List.sum_nil, Nat.add_zero]
    split <;> simp_all
  | cons i rest ih =>
    intro sum c
    unfold needLoop
    have := hw i
    simp only [blocksSize, List.map_cons, List.sum_cons]
    split
    · rw [ih, Nat.mod_eq_of_lt (by omega)]
      simp only [blocksSize]; omega
    · simp; omega

/-- What `_TakeBuffer` does. -/
theorem takeBuffer_spec {p raw R} (h : PInv p raw R) (size : Nat) :
    ∃ r, p.takeBuffer size true = some r ∧ (∀ q c, r = .ok q c →
      (size ≠ 0 → c.segs ≠ []) ∧ p.free ≠ [] ∧ PInv q raw (fun i => R i + uses c.segs i) ∧ sizesOf q = sizesOf p ∧ c.owner = .pool ∧ c.segs.length ≤ c.cap ∧
      p.free = c.segs.map Seg.id ++ q.free ∧ (∀ s ∈ c.segs, s.off = 0 ∧ s.len ≤ p.size s.id) ∧
      ∃ size', size' = (if size = 0 then p.size (p.free.headD 0) else size) ∧ (NoWrap p size' → totalSize c.segs = size')) ∧
     (r = .fail → p.free = [] ∨ ∃ size', size' = (if size = 0 then p.size (p.free.headD 0) else size) ∧
        (NoWrap p size' → blocksSize p p.free < size')) := by
  unfold Pool.takeBuffer
  by_cases he : p.free.isEmpty
  · rw [if_pos (by simpa using he)]
    refine ⟨_, rfl, by simp, fun _ => Or.inl (by simpa using he)⟩
  · have hne : p.free ≠ [] := by simpa using he
    rw [if_neg (by simp [hne])]
    simp only [and_true]
    generalize hsz : (if size = 0 then p.size (p.free.headD 0) else size) = sz
    cases hn : needLoop p sz 0 0 p.free with
    | none =>
      refine ⟨_, rfl, by simp, fun _ => Or.inr ⟨sz, rfl, fun hw => ?_⟩⟩
      have := (needLoop_none hw p.free 0 0).mp hn
      omega
    | some cnt =>
      simp only
      obtain ⟨q, segs, a1, a2, a3, a4, a5, a6, a7, a8⟩ := takeLoop_spec sz p p.free p raw R 0 0 cnt h rfl rfl hn
      rw [a1]
      simp only [Option.bind_some]
      rw [if_neg (by split <;> omega)]
      refine ⟨_, rfl, ?_, by simp⟩
      rintro q' c ⟨⟩
      refine ⟨fun h0 => a8 (by rw [if_neg h0] at hsz; omega), hne, a2, a3, rfl, by simp only; split <;> omega, a5, a6, sz, rfl, fun hw => by simpa using a7 hw⟩

end Verif.Pool
