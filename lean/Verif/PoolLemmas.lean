import Verif.Spec.Pool
import Verif.BufferPart

namespace Verif.Pool
open Verif.Buffer Verif.Pointer

/-- The invariant of pool, raw blocks and reference numbers `R`. -/
structure PInv (p : Pool) (raw : List Nat) (R : Nat → Nat) : Prop where
  ref : ∀ i e, p.arr[i]? = some e → e.refcnt = R i
  out : ∀ i, p.arr.length ≤ i → R i = 0
  nodup : p.free.Nodup
  mem : ∀ i, i ∈ p.free ↔ i < p.arr.length ∧ R i = 0 ∧ i ∉ raw
  rawNodup : raw.Nodup
  rawIn : ∀ i ∈ raw, i < p.arr.length ∧ R i = 0

theorem nodup_length_le : ∀ (n : Nat) (l : List Nat), l.Nodup → (∀ x ∈ l, x < n) → l.length ≤ n := by
  intro n
  induction n with
  | zero =>
    intro l _ h
    cases l with
    | nil => simp
    | cons a l => exact absurd (h a (by simp)) (by omega)
  | succ n ih =>
    intro l hn h
    have h1 := ih (l.erase n) (hn.erase n) (fun x hx => by
      have h2 := (List.Nodup.mem_erase_iff hn).mp hx
      have h3 := h x h2.2
      omega)
    have h4 := List.length_erase (a := n) (l := l)
    split at h4 <;> omega

/-- If something is missing, the queue of free blocks is not full. -/
theorem PInv.room {p : Pool} {raw R} (h : PInv p raw R) {i : Nat} (hi : i < p.arr.length) (hn : i ∉ p.free) :
    p.free.length < p.arr.length := by
  have := nodup_length_le p.arr.length (i :: p.free) (List.nodup_cons.mpr ⟨hn, h.nodup⟩) (by
    intro x hx
    rcases List.mem_cons.mp hx with rfl | hx
    · exact hi
    · exact ((h.mem x).mp hx).1)
  simp only [List.length_cons] at this
  omega

/-- `R` with one more reference on `i`. -/
def inc (R : Nat → Nat) (i : Nat) : Nat → Nat := fun j => if j = i then R j + 1 else R j

theorem PInv.congr {p raw R R'} (h : PInv p raw R) (e : ∀ i, R' i = R i) : PInv p raw R' := by
  have : R' = R := funext e
  rw [this]; exact h

def sizesOf (p : Pool) : List Nat := p.arr.map Entry.size

theorem sizesOf_set {p : Pool} {i : Nat} {e : Entry} (he : p.arr[i]? = some e) (r : Nat) (f : List Nat) :
    sizesOf { arr := p.arr.set i { e with refcnt := r }, free := f } = sizesOf p := by
  simp only [sizesOf, List.map_set]
  apply List.ext_getElem?
  intro j
  by_cases hj : i = j
  · subst hj
    have hlt : i < p.arr.length := (List.getElem?_eq_some_iff.mp he).1
    rw [List.getElem?_set_self (by simpa using hlt)]
    rw [List.getElem?_map, he]; rfl
  · rw [List.getElem?_set_ne hj]

theorem incOne_spec {p raw R} (h : PInv p raw R) {i : Nat} (hi : 0 < R i) :
    ∃ q, p.incOne i = some q ∧ PInv q raw (inc R i) ∧ sizesOf q = sizesOf p ∧ q.free = p.free := by
  have hlt : i < p.arr.length := by
    rcases Nat.lt_or_ge i p.arr.length with a | a
    · exact a
    · have := h.out i a; omega
  unfold Pool.incOne
  rw [List.getElem?_eq_getElem hlt]
  have he : p.arr[i]? = some p.arr[i] := List.getElem?_eq_getElem hlt
  refine ⟨_, rfl, ⟨?_, ?_, h.nodup, ?_, h.rawNodup, ?_⟩, sizesOf_set he _ _, rfl⟩
  · intro j e hj
    simp only at hj
    by_cases hij : i = j
    · subst hij
      rw [List.getElem?_set_self hlt] at hj
      simp only [Option.some.injEq] at hj
      subst hj
      simp [inc, h.ref i _ he]
    · rw [List.getElem?_set_ne hij] at hj
      simp only [inc, if_neg (Ne.symm hij)]
      exact h.ref j e hj
  · intro j hj
    simp only [List.length_set] at hj
    simp only [inc]; split
    · omega
    · exact h.out j hj
  · intro j
    simp only [List.length_set]
    rw [h.mem j]
    simp only [inc]
    constructor
    · rintro ⟨a, b, c⟩
      refine ⟨a, ?_, c⟩
      rw [if_neg (by rintro rfl; omega)]; exact b
    · rintro ⟨a, b, c⟩
      split at b
      · omega
      · exact ⟨a, b, c⟩
  · intro j hj
    simp only [List.length_set]
    have := h.rawIn j hj
    refine ⟨this.1, ?_⟩
    simp only [inc]; rw [if_neg (by rintro rfl; omega)]; exact this.2

theorem pushFree_spec {p raw R} (hR : PInv p raw R) {i : Nat} {raw' : List Nat} (hi : i < p.arr.length)
    (hn : i ∉ p.free) {R' : Nat → Nat} (arr' : List Entry) (hlen : arr'.length = p.arr.length)
    (href : ∀ j e, arr'[j]? = some e → e.refcnt = R' j) (hout : ∀ j, p.arr.length ≤ j → R' j = 0)
    (hz : R' i = 0) (hraw : i ∉ raw') (hsame : ∀ j, j ≠ i → (R' j = 0 ∧ j ∉ raw' ↔ R j = 0 ∧ j ∉ raw))
    (hrn : raw'.Nodup) (hri : ∀ j ∈ raw', j < p.arr.length ∧ R' j = 0) :
    PInv (Pool.pushFree { p with arr := arr' } i) raw' R' ∧
      (Pool.pushFree { p with arr := arr' } i) = { arr := arr', free := p.free ++ [i] } := by
  have hroom := hR.room hi hn
  have e : (Pool.pushFree { p with arr := arr' } i) = { arr := arr', free := p.free ++ [i] } := by
    unfold Pool.pushFree
    simp only
    rw [if_pos (by omega)]
  refine ⟨?_, e⟩
  rw [e]
  refine ⟨href, fun j hj => hout j (by simp only at hj; omega), ?_, ?_, hrn, fun j hj => ?_⟩
  · simp only
    rw [List.nodup_append]
    refine ⟨hR.nodup, by simp, ?_⟩
    intro a ha b hb
    simp only [List.mem_singleton] at hb
    subst hb
    rintro rfl; exact hn ha
  · intro j
    simp only [List.mem_append, List.mem_singleton, hlen]
    rw [hR.mem j]
    by_cases hj : j = i
    · subst hj
      simp [hi, hz, hraw]
    · have := hsame j hj
      constructor
      · rintro (⟨a, b⟩ | a)
        · exact ⟨a, this.mpr b⟩
        · exact absurd a hj
      · rintro ⟨a, b⟩
        exact Or.inl ⟨a, this.mp b⟩
  · simp only [hlen]; exact hri j hj

/-- `R` with one reference less on `i`. -/
def dec (R : Nat → Nat) (i : Nat) : Nat → Nat := fun j => if j = i then R j - 1 else R j

theorem decOne_spec {p raw R} (h : PInv p raw R) {i : Nat} (hi : 0 < R i) :
    ∃ q, p.decOne i = some q ∧ PInv q raw (dec R i) ∧ sizesOf q = sizesOf p := by
  have hlt : i < p.arr.length := by
    rcases Nat.lt_or_ge i p.arr.length with a | a
    · exact a
    · have := h.out i a; omega
  have he : p.arr[i]? = some p.arr[i] := List.getElem?_eq_getElem hlt
  have hre := h.ref i _ he
  have hnf : i ∉ p.free := fun hm => by have := (h.mem i).mp hm; omega
  have hnr : i ∉ raw := fun hm => by have := h.rawIn i hm; omega
  have href : ∀ j e, (p.arr.set i { p.arr[i] with refcnt := p.arr[i].refcnt - 1 })[j]? = some e → e.refcnt = dec R i j := by
    intro j e hj
    by_cases hij : i = j
    · subst hij
      rw [List.getElem?_set_self hlt] at hj
      simp only [Option.some.injEq] at hj
      subst hj
      simp [dec, hre]
    · rw [List.getElem?_set_ne hij] at hj
      simp only [dec, if_neg (Ne.symm hij)]
      exact h.ref j e hj
  have hout : ∀ j, p.arr.length ≤ j → dec R i j = 0 := by
    intro j hj
    have := h.out j hj
    simp only [dec]; split <;> omega
  have hri : ∀ j ∈ raw, j < p.arr.length ∧ dec R i j = 0 := by
    intro j hj
    have := h.rawIn j hj
    refine ⟨this.1, ?_⟩
    simp only [dec]; split <;> omega
  unfold Pool.decOne
  rw [he]
  simp only
  rw [if_neg (by omega)]
  by_cases hz : p.arr[i].refcnt - 1 = 0
  · rw [if_pos hz]
    obtain ⟨a, b⟩ := pushFree_spec h hlt hnf (raw' := raw) (R' := dec R i) _ (by simp) href hout (by simp [dec]; omega) hnr
      (by intro j hj; simp [dec, hj]) h.rawNodup hri
    refine ⟨_, rfl, a, ?_⟩
    rw [b]; exact sizesOf_set he _ _
  · rw [if_neg hz]
    refine ⟨_, rfl, ⟨href, fun j hj => hout j (by simpa using hj), h.nodup, ?_, h.rawNodup, fun j hj => by simpa using hri j hj⟩,
      sizesOf_set he _ _⟩
    intro j
    simp only [List.length_set]
    rw [h.mem j]
    simp only [dec]
    by_cases hj : j = i
    · subst hj
      rw [if_pos rfl]
      constructor
      · rintro ⟨a, b, c⟩; omega
      · rintro ⟨a, b, c⟩; omega
    · rw [if_neg hj]

theorem uses_cons (s : Seg) (l : List Seg) (i : Nat) : uses (s :: l) i = uses l i + if s.id = i then 1 else 0 := by
  simp [uses, List.count_cons, beq_iff_eq]

theorem uses_append (a b : List Seg) (i : Nat) : uses (a ++ b) i = uses a i + uses b i := by
  simp [uses]

@[simp] theorem uses_nil (i : Nat) : uses [] i = 0 := rfl

theorem uses_eq_of_ids {a b : List Seg} (h : a.map Seg.id = b.map Seg.id) (i : Nat) : uses a i = uses b i := by
  simp [uses, h]

theorem uses_pos {l : List Seg} {i : Nat} : 0 < uses l i ↔ ∃ s ∈ l, s.id = i := by
  simp [uses, List.count_pos_iff]

theorem incRefs_spec (l : List Seg) : ∀ {p raw R}, PInv p raw R → (∀ s ∈ l, 0 < R s.id) →
    ∃ q, p.incRefs l = some q ∧ PInv q raw (fun i => R i + uses l i) ∧ sizesOf q = sizesOf p := by
  induction l with
  | nil => intro p raw R h _; exact ⟨p, rfl, h.congr (by simp), rfl⟩
  | cons s l ih =>
    intro p raw R h hl
    obtain ⟨q, a, b, c, _⟩ := incOne_spec h (hl s (by simp))
    obtain ⟨q', a', b', c'⟩ := ih b (by
      intro t ht
      have := hl t (by simp [ht])
      simp only [inc]; split <;> omega)
    refine ⟨q', ?_, b'.congr ?_, c'.trans c⟩
    · simp [Pool.incRefs, a, a']
    · intro i
      simp only [uses_cons, inc]
      by_cases hi : i = s.id
      · subst hi; simp; omega
      · rw [if_neg hi, if_neg (Ne.symm hi)]; omega

theorem decRefs_spec (l : List Seg) : ∀ {p raw R}, PInv p raw R → (∀ i, uses l i ≤ R i) →
    ∃ q, p.decRefs l = some q ∧ PInv q raw (fun i => R i - uses l i) ∧ sizesOf q = sizesOf p := by
  induction l with
  | nil => intro p raw R h _; exact ⟨p, rfl, h.congr (by simp), rfl⟩
  | cons s l ih =>
    intro p raw R h hl
    obtain ⟨q, a, b, c⟩ := decOne_spec h (i := s.id) (by have := hl s.id; rw [uses_cons, if_pos rfl] at this; omega)
    obtain ⟨q', a', b', c'⟩ := ih b (by
      intro i
      have := hl i
      rw [uses_cons] at this
      simp only [dec]
      by_cases hi : i = s.id
      · subst hi; simp at this ⊢; omega
      · rw [if_neg hi]; rw [if_neg (Ne.symm hi)] at this; omega)
    refine ⟨q', ?_, b'.congr ?_, c'.trans c⟩
    · simp [Pool.decRefs, a, a']
    · intro i
      simp only [uses_cons, dec]
      by_cases hi : i = s.id
      · subst hi; simp; omega
      · rw [if_neg hi, if_neg (Ne.symm hi)]; omega

end Verif.Pool
