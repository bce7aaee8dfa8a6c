import Verif.MbsNetLemmas
import Verif.Spec.MbsSpan

/-! Lemmas for events in several buffers. -/

namespace Verif.MbsNet

open Verif.Bytes Spec

theorem swap_swap : ∀ l : Data, swap (swap l) = l
  | [] => rfl
  | [_] => rfl
  | [_, _] => rfl
  | [_, _, _] => rfl
  | a :: b :: c :: d :: l => by simp only [swap]; rw [swap_swap l]

theorem swap_length : ∀ l : Data, (swap l).length = l.length
  | [] => rfl
  | [_] => rfl
  | [_, _] => rfl
  | [_, _, _] => rfl
  | a :: b :: c :: d :: l => by simp only [swap, List.length_cons]; rw [swap_length l]

theorem swap_append : ∀ l r : Data, l.length % 4 = 0 → swap (l ++ r) = swap l ++ swap r
  | [], _, _ => rfl
  | [_], _, h => by simp at h
  | [_, _], _, h => by simp at h
  | [_, _, _], _, h => by simp at h
  | a :: b :: c :: d :: l, r, h => by
    simp only [List.length_cons] at h
    simp only [List.cons_append, swap]
    rw [swap_append l r (by omega)]

theorem wire_length (sw : Bool) (l : Data) : (wire sw l).length = l.length := by
  cases sw <;> simp [wire, swap_length]

theorem piece_length (e : Event) : (piece e).length = 8 + e.2.length := by
  simp [piece]; omega

theorem header_length (a b : Nat) (c d : Bool) : (header a b c d).length = 48 := by simp [header]

theorem pieces_cons (e : Event) (l : List Event) : pieces (e :: l) = piece e ++ pieces l := rfl

theorem pieces_append (a b : List Event) : pieces (a ++ b) = pieces a ++ pieces b := by
  simp [pieces]

theorem word_piece (e : Event) (x : Data) (h : e.2.length < 8589934592) : word (piece e ++ x) 0 = e.2.length / 2 := by
  unfold piece
  rw [List.append_assoc, List.append_assoc]
  exact word_head _ _ (by omega)

theorem header_of (size used : Nat) (b e : Bool) (hs : size < 4294967248) (hs2 : size % 2 = 0) (hu : used ≤ 65534) (hu2 : used % 2 = 0) :
    (Hdr.ofBytes (header size used b e)).readSize = size ∧ (Hdr.ofBytes (header size used b e)).usedSize = used ∧
    ((Hdr.ofBytes (header size used b e)).hBegin = 0 ↔ b = false) ∧ ((Hdr.ofBytes (header size used b e)).hEnd = 0 ↔ e = false) := by
  have h0 : (Hdr.ofBytes (header size used b e)).words = size / 2 := by
    simp only [Hdr.ofBytes, header]
    exact word_head _ _ (by omega)
  have h1 : (Hdr.ofBytes (header size used b e)).typ = typeOld := by
    simp only [Hdr.ofBytes, header]
    rw [word_next]
    exact word_head _ _ (by omega)
  have h2 : (Hdr.ofBytes (header size used b e)).used =
      used / 2 + (if b then 65536 else 0) + (if e then 16777216 else 0) := by
    simp only [Hdr.ofBytes, header]
    rw [word_next, word_next]
    refine word_head _ _ ?_
    split <;> split <;> omega
  have hne : typeOld ≠ typeNew := by decide
  refine ⟨?_, ?_, ?_, ?_⟩
  · unfold Hdr.readSize Hdr.length
    rw [h1, h0, if_neg hne, if_pos rfl, u32_of_lt (by omega), if_neg (by omega)]
    omega
  · unfold Hdr.usedSize
    rw [h1, h2, if_neg hne, if_pos rfl]
    have : ext16 (used / 2 + (if b then 65536 else 0) + (if e then 16777216 else 0)) = used / 2 := by
      unfold ext16
      have : (used / 2 + (if b then 65536 else 0) + (if e then 16777216 else 0)) % 65536 = used / 2 := by
        split <;> split <;> omega
      rw [this, if_pos (by omega)]
    rw [this, u32_of_lt (by omega)]
    omega
  · unfold Hdr.hBegin
    rw [h2]
    cases b <;> cases e <;> simp <;> omega
  · unfold Hdr.hEnd
    rw [h2]
    cases b <;> cases e <;> simp <;> omega

/-- The loop over the events ends at the last one. -/
theorem walk_pieces (l : List Event) : ∀ (x : Data) (u fuel : Nat), l.length < fuel →
    (∀ e ∈ l, 8 ≤ e.2.length ∧ e.2.length % 2 = 0 ∧ e.2.length < 4294967280) →
    walk fuel (x ++ pieces l) false u x.length = some (if l = [] then u else u + x.length + (pieces l.dropLast).length) := by
  induction l with
  | nil =>
    intro x u fuel hf _
    obtain ⟨fuel, rfl⟩ : ∃ k, fuel = k + 1 := ⟨fuel - 1, by simp at hf; omega⟩
    simp [walk, pieces]
  | cons e l ih =>
    intro x u fuel hf he
    obtain ⟨fuel, rfl⟩ : ∃ k, fuel = k + 1 := ⟨fuel - 1, by simp at hf; omega⟩
    obtain ⟨h1, h2, h3⟩ := he e (List.mem_cons_self ..)
    have hw : u32 (8 + word (piece e ++ pieces l) 0 * 2) = (piece e).length := by
      rw [word_piece e _ (by omega), piece_length, u32_of_lt (by omega)]; omega
    have hl : (piece e ++ pieces l).length = (piece e).length + (pieces l).length := List.length_append
    have hpl := piece_length e
    unfold walk
    simp only [Bool.false_eq_true, if_false, pieces_cons, List.drop_left]
    rw [hw, if_neg (by omega), if_neg (by omega), ih (piece e) (u + x.length) fuel (by simp at hf; omega) fun a ha => he a (List.mem_cons_of_mem _ ha)]
    cases l with
    | nil => simp [pieces]
    | cons a l =>
      simp [List.dropLast, pieces_cons]
      omega

theorem walk_first (l : List Event) (hl : l ≠ []) (fuel : Nat) (hf : l.length < fuel)
    (he : ∀ e ∈ l, 8 ≤ e.2.length ∧ e.2.length % 2 = 0 ∧ e.2.length < 4294967280) :
    walk fuel (pieces l) true 0 0 = some (pieces l.dropLast).length := by
  have h := walk_pieces l [] 0 fuel hf he
  rw [if_neg hl] at h
  have : walk fuel (pieces l) true 0 0 = walk fuel ([] ++ pieces l) false 0 ([] : Data).length := by
    cases fuel <;> simp [walk]
  rw [this, h]
  simp

theorem pieces_len_ge (l : List Event) : l.length ≤ (pieces l).length := by
  induction l with
  | nil => simp
  | cons e l ih =>
    have := piece_length e
    simp only [pieces_cons, List.length_append, List.length_cons]
    omega

theorem mem_pieces_le {l : List Event} {e : Event} (h : e ∈ l) : e.2.length + 8 ≤ (pieces l).length := by
  induction l with
  | nil => cases h
  | cons a l ih =>
    have := piece_length a
    simp only [pieces_cons, List.length_append]
    rcases List.mem_cons.1 h with rfl | h
    · omega
    · have := ih h; omega

theorem pieces_even {l : List Event} (h : ∀ e ∈ l, e.2.length % 2 = 0) : (pieces l).length % 2 = 0 := by
  induction l with
  | nil => simp [pieces]
  | cons e l ih =>
    have h1 := piece_length e
    have h2 := h e (List.mem_cons_self ..)
    have := ih fun a ha => h a (List.mem_cons_of_mem _ ha)
    simp only [pieces_cons, List.length_append]
    omega

/-- The open event as it stands in `fSpanBuffer`. -/
def spanOf (o : Option Event) : Data := (o.map piece).getD []

theorem spanOf_some (e : Event) : spanOf (some e) = piece e := rfl

end Verif.MbsNet
