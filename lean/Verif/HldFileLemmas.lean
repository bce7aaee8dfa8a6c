import Verif.Spec.HldFile
import Verif.HadIterLemmas

/-! # Lemmas about HLD files -/

namespace Verif.HldFile

open Verif.Bytes Verif.File Verif.Pointer Verif.HadTu Verif.HadIter

/-! ## Records -/

/-- Bytes of native words. -/
def wb : List Word → List Byte
  | [] => []
  | w :: l => enc 4 w.toNat ++ wb l

theorem wb_length (l : List Word) : (wb l).length = 4 * l.length := by
  induction l with
  | nil => rfl
  | cons w l ih => rw [wb, List.length_append, enc_length, ih, List.length_cons]; omega

theorem wb_drop (l : List Word) : ∀ i, (wb l).drop (4 * i) = wb (l.drop i) := by
  induction l with
  | nil => intro i; simp [wb]
  | cons w l ih =>
    intro i
    cases i with
    | zero => rfl
    | succ i =>
      rw [wb, List.drop_append, List.drop_of_length_le (by rw [enc_length]; omega), enc_length, List.nil_append,
        show 4 * (i + 1) - 4 = 4 * i by omega, ih]
      rfl

theorem wb_take (l : List Word) : ∀ i, (wb l).take (4 * i) = wb (l.take i) := by
  induction l with
  | nil => intro i; simp [wb]
  | cons w l ih =>
    intro i
    cases i with
    | zero => rfl
    | succ i =>
      rw [wb, List.take_append, List.take_of_length_le (by rw [enc_length]; omega), enc_length,
        show 4 * (i + 1) - 4 = 4 * i by omega, ih]
      rfl

theorem wb_append (a b : List Word) : wb (a ++ b) = wb a ++ wb b := by
  induction a with
  | nil => rfl
  | cons w l ih => rw [List.cons_append, wb, wb, ih, List.append_assoc]

theorem wb_word {l : List Word} {i : Nat} {w : Word} (h : l[i]? = some w) : word [wb l] (hdr 0) (4 * i) = some w := by
  have hi : i < l.length := by
    rw [List.getElem?_eq_some_iff] at h
    exact h.1
  have h4 : ((wb l).drop (4 * i)).take 4 = enc 4 w.toNat := by
    rw [wb_drop]
    rw [List.getElem?_eq_some_iff] at h
    obtain ⟨h0, h⟩ := h
    rw [List.drop_eq_getElem_cons h0, wb, h, List.take_append_of_le_length (by rw [enc_length]), List.take_of_length_le (by rw [enc_length])]
  have := word_eq (mem := [wb l]) (p := hdr 0) (s := wb l) rfl (k := 4 * i) (by rw [wb_length]; show 0 + 4 * i + 4 ≤ _; omega)
  rw [this]
  have e : (hdr 0).off + 4 * i = 4 * i := Nat.zero_add _
  rw [e, h4, ofNat_dec_enc]

theorem wb_put {l : List Word} {i : Nat} (hi : i < l.length) (v : Word) : putWord [wb l] (hdr 0) (4 * i) v = some [wb (l.set i v)] := by
  have := putWord_eq (mem := [wb l]) (p := hdr 0) (s := wb l) rfl (k := 4 * i) (by rw [wb_length]; show 0 + 4 * i + 4 ≤ _; omega) v
  rw [this]
  have e : (hdr 0).off + 4 * i = 4 * i := Nat.zero_add _
  rw [e]
  show some [patch (wb l) (4 * i) (enc 4 v.toNat)] = _
  unfold patch
  rw [enc_length, show 4 * i + 4 = 4 * (i + 1) by omega, wb_drop, wb_take, List.set_eq_take_append_cons_drop, if_pos hi, wb_append, wb, List.append_assoc]

theorem wb_set {l : List Word} {i : Nat} (hi : i < l.length) (h1 : l[1]? = some 0x30001) (v : Word) :
    setField [wb l] (hdr 0) (4 * i) v = some [wb (l.set i v)] := by
  unfold setField
  rw [show (4 : Nat) = 4 * 1 from rfl, wb_word h1]
  dsimp only
  have : value (0x30001 : Word) v = v := by
    unfold value
    rw [show isSwapped (0x30001 : Word) = false by decide]
    rfl
  rw [this]
  exact wb_put hi v

theorem record_eq (id run date time : Word) : record id run date time = some (wb [32, 0x30001, id, 0, date, time, run, 0]) := by
  unfold record initHeader
  rw [show List.replicate 32 (0 : Byte) = wb (List.replicate 8 0) by decide]
  rw [show (4 : Nat) = 4 * 1 from rfl, wb_put (by decide), Option.bind_some,
    show (8 : Nat) = 4 * 2 from rfl, wb_set (by decide) (by rfl), Option.bind_some,
    show (0 : Nat) = 4 * 0 from rfl, wb_set (by simp) (by rfl), Option.bind_some,
    show (16 : Nat) = 4 * 4 from rfl, wb_set (by simp) (by rfl), Option.bind_some,
    show (20 : Nat) = 4 * 5 from rfl, wb_set (by simp) (by rfl), Option.bind_some,
    show (12 : Nat) = 4 * 3 from rfl, wb_set (by simp) (by rfl), Option.bind_some,
    show (24 : Nat) = 4 * 6 from rfl, wb_set (by simp) (by rfl), Option.bind_some,
    show (28 : Nat) = 4 * 7 from rfl, wb_put (by simp)]
  rfl

/-! ## Headers -/

/-- The id field of the header at `o`. -/
def idAt (s : List Byte) (o : Nat) : Nat := number (decide (s[o + 7]? ≠ some 0)) ((s.drop (o + 8)).take 4)

theorem idAt_lt (s : List Byte) (o : Nat) : idAt s o < 2 ^ 32 := by
  unfold idAt number
  have h1 := dec_lt ((s.drop (o + 8)).take 4)
  have h2 := dec_lt ((s.drop (o + 8)).take 4).reverse
  have h3 : ((s.drop (o + 8)).take 4).length ≤ 4 := by rw [List.length_take]; omega
  have h4 : (256 : Nat) ^ ((s.drop (o + 8)).take 4).length ≤ 256 ^ 4 := Nat.pow_le_pow_right (by omega) h3
  rw [List.length_reverse] at h2
  split <;> omega

theorem getId {s : List Byte} {o : Nat} (h : o + 12 ≤ s.length) : getField [s] (hdr o) 8 = some (BitVec.ofNat 32 (idAt s o)) :=
  C31_value (mem := [s]) (p := hdr o) (k := 8) ⟨s, rfl, by show o + 8 ≤ s.length; omega⟩ ⟨s, rfl, h⟩

theorem getPad {s : List Byte} {o : Nat} (h : o + 8 ≤ s.length) : getPadded [s] (hdr o) = some (padded (sizeAt s o)) := getPadded_P 0 h

theorem ofNat_id (n : Nat) (h : n < 2 ^ 32) (w : Word) : BitVec.ofNat 32 n = w ↔ n = w.toNat := by
  constructor
  · intro e
    rw [← e, BitVec.toNat_ofNat, Nat.mod_eq_of_lt h]
  · intro e
    rw [e, BitVec.ofNat_toNat, BitVec.setWidth_eq]

theorem sizeAt_at {s a b : List Byte} {o : Nat} (h : s.drop o = a ++ b) (ha : 8 ≤ a.length) : sizeAt s o = sizeAt a 0 := by
  unfold sizeAt
  rw [h, List.take_append_of_le_length (by omega), ← List.getElem?_drop, h, List.getElem?_append_left (by omega)]
  rfl

theorem idAt_at {s a b : List Byte} {o : Nat} (h : s.drop o = a ++ b) (ha : 12 ≤ a.length) : idAt s o = idAt a 0 := by
  unfold idAt
  rw [← List.drop_drop, h, List.drop_append_of_le_length (by omega), List.take_append_of_le_length (by rw [List.length_drop]; omega), ← List.getElem?_drop, h,
    List.getElem?_append_left (by omega), Nat.zero_add, Nat.zero_add]

theorem sizeAt_prefix {a e : List Byte} (h : a <+: e) (ha : 8 ≤ a.length) : sizeAt a 0 = sizeAt e 0 := by
  obtain ⟨t, rfl⟩ := h
  exact (sizeAt_at (s := a ++ t) (o := 0) rfl ha).symm

theorem idAt_prefix {a e : List Byte} (h : a <+: e) (ha : 12 ≤ a.length) : idAt a 0 = idAt e 0 := by
  obtain ⟨t, rfl⟩ := h
  exact (idAt_at (s := a ++ t) (o := 0) rfl ha).symm

/-! ## The loop over the events -/

theorem walk_done (mem : Mem) (r : Nat) : walk mem r r = some (.done r) := by
  rw [walk, if_neg (Nat.lt_irrefl r)]

theorem walk_event {s e b : List Byte} {r o : Nat} (hd : s.drop o = e ++ b) (he : Event e) (hr : o + e.length ≤ r) (hs : r ≤ s.length) :
    walk [s] r o = walk [s] r (o + e.length) := by
  obtain ⟨h8, h32, hp⟩ := he
  have hpad : getPadded [s] (hdr o) = some e.length := by
    rw [getPad (by omega), sizeAt_at hd (by omega), hp]
  obtain ⟨k, hk⟩ : ∃ k, e.length = k + 1 := ⟨e.length - 1, by omega⟩
  have hrs : restSize [s] r o = some e.length := by
    unfold restSize
    rw [if_pos (by omega), hpad]
  have hst : isStop [s] o e.length = some false := by
    unfold isStop
    rw [if_neg (by omega)]
  rw [walk, if_pos (by omega), hrs]
  dsimp only
  rw [hst]
  dsimp only
  rw [if_neg (by omega), hpad, hk]

theorem walk_events {s : List Byte} {r : Nat} (hs : r ≤ s.length) : ∀ (evs : List (List Byte)) (o : Nat) (b : List Byte), (∀ e ∈ evs, Event e) →
    s.drop o = evs.flatten ++ b → o + evs.flatten.length ≤ r → walk [s] r o = walk [s] r (o + evs.flatten.length) := by
  intro evs
  induction evs with
  | nil => intro o b _ _ _; rfl
  | cons e evs ih =>
    intro o b he hd hr
    rw [List.flatten_cons, List.length_append] at hr
    rw [List.flatten_cons, List.append_assoc] at hd
    rw [walk_event hd (he e List.mem_cons_self) (by omega) hs, List.flatten_cons, List.length_append, ← Nat.add_assoc]
    refine ih _ b (fun x hx => he x (List.mem_cons_of_mem _ hx)) ?_ (by omega)
    rw [← List.drop_drop, hd, List.drop_left]

theorem walk_piece {s e q b : List Byte} {r o : Nat} (hd : s.drop o = q ++ b) (he : Event e) (hq : q <+: e) (hl : q.length < e.length)
    (h8 : 8 ≤ q.length) (hr : o + q.length = r) (hs : r ≤ s.length) : walk [s] r o = some (.back o) := by
  obtain ⟨_, h32, hp⟩ := he
  have hpad : getPadded [s] (hdr o) = some e.length := by
    rw [getPad (by omega), sizeAt_at hd (by omega), sizeAt_prefix hq h8, hp]
  have hrs : restSize [s] r o = some e.length := by
    unfold restSize
    rw [if_pos (by omega), hpad]
  have hst : isStop [s] o e.length = some false := by
    unfold isStop
    rw [if_neg (by omega)]
  rw [walk, if_pos (by omega), hrs]
  dsimp only
  rw [hst]
  dsimp only
  rw [if_pos (by omega)]

/-- At the stop record, or a piece of it with its size field. -/
theorem walk_stop {s e q b : List Byte} {r o : Nat} (hd : s.drop o = q ++ b) (he : IsRecord 0x10003 e) (hq : q <+: e)
    (h8 : 8 ≤ q.length) (hr : o + q.length ≤ r) (hr' : q.length < 32 → o + q.length = r) (hs : r ≤ s.length) (h12 : o + 12 ≤ s.length) :
    walk [s] r o = some (.stop o) ∨ (walk [s] r o = some (.back o) ∧ q.length < 32) := by
  obtain ⟨h32, hp, hid⟩ := he
  change idAt e 0 = _ at hid
  have hq32 := hq.length_le
  have hpad : getPadded [s] (hdr o) = some 32 := by
    rw [getPad (by omega), sizeAt_at hd (by omega), sizeAt_prefix hq h8, hp]
  have hrs : restSize [s] r o = some 32 := by
    unfold restSize
    rw [if_pos (by omega), hpad]
  have hst : isStop [s] o 32 = some (decide (idAt s o = 0x10003)) := by
    unfold isStop
    rw [if_pos rfl, getId h12, Option.map_some]
    congr 1
    rw [decide_eq_decide, ofNat_id _ (idAt_lt s o)]
    rfl
  rw [walk, if_pos (by omega), hrs]
  dsimp only
  rw [hst]
  by_cases hi : idAt s o = 0x10003
  · rw [decide_eq_true hi]
    exact Or.inl rfl
  · rw [decide_eq_false hi]
    have : q.length < 32 := by
      by_contra hc
      rw [idAt_at hd (by omega), idAt_prefix hq (by omega)] at hi
      exact hi hid
    refine Or.inr ⟨?_, this⟩
    dsimp only
    rw [if_pos (by have := hr' this; omega)]

/-- The walk does not hang unless it meets a header with padded size 0. -/
theorem walk_hang (mem : Mem) (r : Nat) : ∀ (n c : Nat), r - c ≤ n → walk mem r c = some .hang → ∃ o, c ≤ o ∧ o < r ∧ getPadded mem (hdr o) = some 0 := by
  intro n
  induction n with
  | zero =>
    intro c hn h
    rw [walk, if_neg (by omega)] at h
    cases h
  | succ n ih =>
    intro c hn h
    rw [walk] at h
    split at h
    · rename_i hlt
      split at h
      · cases h
      · split at h
        · cases h
        · cases h
        · split at h
          · cases h
          · split at h
            · cases h
            · rename_i hz
              exact ⟨c, Nat.le_refl _, hlt, hz⟩
            · obtain ⟨o, h1, h2, h3⟩ := ih _ (by omega) h
              exact ⟨o, by omega, h2, h3⟩
    · cases h

/-! ## Splitting of the bytes read -/

theorem split_events (tail : List Byte) : ∀ (evs : List (List Byte)) (m : Nat),
    ∃ done rest q, evs = done ++ rest ∧ (evs.flatten ++ tail).take m = done.flatten ++ q ∧
      ((∃ e es, rest = e :: es ∧ q <+: e ∧ q.length < e.length ∧ done.flatten.length + q.length = m) ∨
       (rest = [] ∧ done.flatten.length ≤ m ∧ q = tail.take (m - done.flatten.length))) := by
  intro evs
  induction evs with
  | nil =>
    intro m
    exact ⟨[], [], tail.take m, rfl, rfl, Or.inr ⟨rfl, Nat.zero_le _, rfl⟩⟩
  | cons e evs ih =>
    intro m
    by_cases he : e.length ≤ m
    · obtain ⟨done, rest, q, h1, h2, h3⟩ := ih (m - e.length)
      refine ⟨e :: done, rest, q, by rw [h1, List.cons_append], ?_, ?_⟩
      · rw [List.flatten_cons, List.append_assoc, List.take_append, List.take_of_length_le he, h2, List.flatten_cons, List.append_assoc]
      · rw [List.flatten_cons, List.length_append]
        rcases h3 with ⟨x, es, a, b, c, d⟩ | ⟨a, b, c⟩
        · exact Or.inl ⟨x, es, a, b, c, by omega⟩
        · exact Or.inr ⟨a, by omega, by rw [c]; congr 1; omega⟩
    · refine ⟨[], e :: evs, e.take m, rfl, ?_, Or.inl ⟨e, evs, rfl, List.take_prefix _ _, by rw [List.length_take]; omega, by rw [List.length_take]; simp; omega⟩⟩
      rw [List.flatten_cons, List.append_assoc, List.take_append_of_le_length (by omega)]
      rfl

theorem mod8_flatten {evs : List (List Byte)} (h : ∀ e ∈ evs, Event e) : evs.flatten.length % 8 = 0 := by
  induction evs with
  | nil => rfl
  | cons e evs ih =>
    have h1 := (h e List.mem_cons_self).1
    have h2 := ih fun x hx => h x (List.mem_cons_of_mem _ hx)
    rw [List.flatten_cons, List.length_append]
    omega

end Verif.HldFile
