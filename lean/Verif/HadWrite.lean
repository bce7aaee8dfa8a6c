import Verif.HadRead

/-! # Writing HADAQ events -/

namespace Verif.HadIter

open Verif.Bytes Verif.Pointer Verif.HadTu

theorem patch_split {A X R d : List Byte} (h : X.length = d.length) : patch (A ++ X ++ R) A.length d = A ++ d ++ R := by
  unfold patch
  rw [List.append_assoc A X R, List.take_left, ← List.drop_drop, List.drop_left, ← h, List.drop_left]

theorem putWord_at {A X R : List Byte} {o l k : Nat} (h : o + k = A.length) (hX : X.length = 4) (v : Word) :
    putWord [A ++ X ++ R] (P o l) k v = some [A ++ enc 4 v.toNat ++ R] := by
  rw [putWord_eq (mem := [A ++ X ++ R]) (p := P o l) (s := A ++ X ++ R) rfl (by
    show o + k + 4 ≤ _
    simp only [List.length_append]
    omega)]
  show some [patch (A ++ X ++ R) (o + k) (enc 4 v.toNat)] = _
  rw [h, patch_split (by rw [hX, enc_length])]

theorem putWord_words {A R : List Byte} {W : List Word} {l i : Nat} (hi : i < W.length) (v : Word) :
    putWord [A ++ words W ++ R] (P A.length l) (4 * i) v = some [A ++ words (W.set i v) ++ R] := by
  have hw : W = W.take i ++ W[i] :: W.drop (i + 1) := by
    rw [← List.drop_eq_getElem_cons hi, List.take_append_drop]
  have hw2 : W.set i v = W.take i ++ v :: W.drop (i + 1) := by
    rw [List.set_eq_take_append_cons_drop, if_pos hi]
  have e : A ++ words W ++ R = (A ++ words (W.take i)) ++ enc 4 W[i].toNat ++ (words (W.drop (i + 1)) ++ R) := by
    conv => lhs; rw [hw]
    rw [words_append, words_cons]
    simp only [List.append_assoc]
  have e2 : A ++ words (W.set i v) ++ R = (A ++ words (W.take i)) ++ enc 4 v.toNat ++ (words (W.drop (i + 1)) ++ R) := by
    rw [hw2, words_append, words_cons]
    simp only [List.append_assoc]
  rw [e, e2]
  apply putWord_at
  · rw [List.length_append, words_length, List.length_take]
    omega
  · exact enc_length _ _

theorem setField_words {A R : List Byte} {W : List Word} {l i : Nat} {d : Word} (hd : W[1]? = some d) (hi : i < W.length) (v : Word) :
    setField [A ++ words W ++ R] (P A.length l) (4 * i) v = some [A ++ words (W.set i (value d v)) ++ R] := by
  unfold setField
  have := word_words (A := A) (R := R) (l := l) hd
  rw [show (4 : Nat) = 4 * 1 from rfl, this]
  exact putWord_words hi _

/-- `RawEvent::Init` writes the eight words of the header. -/
theorem initEvent_spec {A X R : List Byte} (l : Nat) (hX : X.length = 32) (seq run date time : Word) :
    initEvent [A ++ X ++ R] (P A.length l) seq run date time =
      some [A ++ words [32, 0x30001, 0x2001, seq, date, time, run, 0] ++ R] := by
  obtain ⟨W, hW, rfl⟩ := exists_words 8 X (by rw [hX])
  match W, hW with
  | [w0, w1, w2, w3, w4, w5, w6, w7], _ =>
    unfold initEvent initHeader
    have s1 := putWord_words (A := A) (R := R) (l := l) (i := 1) (W := [w0, w1, w2, w3, w4, w5, w6, w7]) (by simp) 0x30001
    simp only [Nat.reduceMul] at s1
    have s2 := setField_words (A := A) (R := R) (l := l) (i := 2) (W := [w0, 0x30001, w2, w3, w4, w5, w6, w7]) (d := 0x30001) rfl (by simp) 0x2001
    have s3 := setField_words (A := A) (R := R) (l := l) (i := 0) (W := [w0, 0x30001, 0x2001, w3, w4, w5, w6, w7]) (d := 0x30001) rfl (by simp) 32
    have s4 := setField_words (A := A) (R := R) (l := l) (i := 4) (W := [32, 0x30001, 0x2001, w3, w4, w5, w6, w7]) (d := 0x30001) rfl (by simp) date
    have s5 := setField_words (A := A) (R := R) (l := l) (i := 5) (W := [32, 0x30001, 0x2001, w3, date, w5, w6, w7]) (d := 0x30001) rfl (by simp) time
    have s6 := setField_words (A := A) (R := R) (l := l) (i := 3) (W := [32, 0x30001, 0x2001, w3, date, time, w6, w7]) (d := 0x30001) rfl (by simp) seq
    have s7 := setField_words (A := A) (R := R) (l := l) (i := 6) (W := [32, 0x30001, 0x2001, seq, date, time, w6, w7]) (d := 0x30001) rfl (by simp) run
    have s8 := putWord_words (A := A) (R := R) (l := l) (i := 7) (W := [32, 0x30001, 0x2001, seq, date, time, run, w7]) (by simp) 0
    have hv : ∀ v : Word, value 0x30001 v = v := fun v => rfl
    simp only [Nat.reduceMul, hv, List.set_cons_succ, List.set_cons_zero] at s1 s2 s3 s4 s5 s6 s7 s8
    rw [s1]
    dsimp only [Option.bind_some]
    rw [s2]
    dsimp only [Option.bind_some]
    rw [s3]
    dsimp only [Option.bind_some]
    rw [s4]
    dsimp only [Option.bind_some]
    rw [s5]
    dsimp only [Option.bind_some]
    rw [s6]
    dsimp only [Option.bind_some]
    rw [s7]
    dsimp only [Option.bind_some]
    exact s8

/-- State of a writer inside of an event: `A` are the bytes of the events before, `H` the header of the event, `B` its
subevents so far, `R` the rest of the buffer. -/
structure WInv (w : Writer) (A : List Byte) (H : List Word) (B R : List Byte) : Prop where
  mem : w.mem = [A ++ words H ++ B ++ R]
  hH : H.length = 8
  hd : H[1]? = some 0x30001
  ev : w.ev = P A.length (32 + B.length + R.length)
  sub : (w.sub = Ptr.null ∧ B = []) ∨ w.sub = P (A.length + 32 + B.length) R.length
  full : w.full = A.length
  buf : w.isBuf = true
  len : A.length + 32 + B.length + R.length < 2 ^ 32

theorem WInv.head_length {w : Writer} {A : List Byte} {H : List Word} {B R : List Byte} (h : WInv w A H B R) : (words H).length = 32 := by
  rw [words_length, h.hH]

theorem WInv.evNull {w : Writer} {A : List Byte} {H : List Word} {B R : List Byte} (h : WInv w A H B R) : isNull w.ev = false := by
  rw [h.ev, isNull_P]
  exact decide_eq_false (by omega)

theorem subStart_spec {w : Writer} {A : List Byte} {H : List Word} {B R : List Byte} (h : WInv w A H B R) (hR : 0 < R.length) :
    subStart w = some (P (A.length + 32 + B.length) R.length) := by
  unfold subStart
  rcases h.sub with ⟨h1, h2⟩ | h1
  · have hl := h.len
    rw [h1, if_pos isNull_null, h.ev, resetTo_pos (by omega) (by omega) (by omega), h2]
    show some (P (A.length + 32) (32 + 0 + R.length - 32)) = some (P (A.length + 32) R.length)
    rw [show 32 + 0 + R.length - 32 = R.length by omega]
  · rw [h1, isNull_P, if_neg]
    simp only [decide_eq_true_eq]
    omega

theorem split_at {n : Nat} {R : List Byte} (h : n ≤ R.length) : ∃ X R', R = X ++ R' ∧ X.length = n :=
  ⟨R.take n, R.drop n, (List.take_append_drop n R).symm, by rw [List.length_take]; omega⟩

theorem writeMem_split {A X R d : List Byte} {o l : Nat} (h : o = A.length) (hX : X.length = d.length) :
    writeMem [A ++ X ++ R] (P o l) d = some [A ++ d ++ R] := by
  have hle : o + d.length ≤ (A ++ X ++ R).length := by
    simp only [List.length_append]
    omega
  show (if o + d.length ≤ (A ++ X ++ R).length then some [patch (A ++ X ++ R) o d] else none) = _
  rw [if_pos hle, h, patch_split hX]

/-- `AddSubevent` appends the bytes. -/
theorem addSubevent_spec {w : Writer} {A : List Byte} {H : List Word} {B R : List Byte} (h : WInv w A H B R) {bytes : List Byte} (hlt : bytes.length < R.length) :
    ∃ w' R', addSubevent w bytes = some (w', true) ∧ WInv w' A H (B ++ bytes) R' ∧ bytes.length + R'.length = R.length := by
  obtain ⟨X, R', rfl, hX⟩ := split_at (Nat.le_of_lt hlt)
  have hl := h.len
  have hW := h.head_length
  rw [List.length_append] at hlt hl
  have hcopy : copyFromRaw w.mem (P (A.length + 32 + B.length) (X ++ R').length) bytes = some (bytes.length, [A ++ words H ++ (B ++ bytes) ++ R']) := by
    unfold copyFromRaw
    have hsz : (if bytes.length > (P (A.length + 32 + B.length) (X ++ R').length).full then (P (A.length + 32 + B.length) (X ++ R').length).full else bytes.length) = bytes.length := by
      rw [if_neg (by show ¬ bytes.length > (X ++ R').length; rw [List.length_append]; omega)]
    rw [hsz]
    have em : A ++ words H ++ B ++ (X ++ R') = (A ++ words H ++ B) ++ X ++ R' := by simp only [List.append_assoc]
    by_cases h0 : bytes.length = 0
    · have hb : bytes = [] := List.eq_nil_of_length_eq_zero h0
      have hx : X = [] := List.eq_nil_of_length_eq_zero (by omega)
      subst hb hx
      dsimp only
      rw [if_pos (by rfl), h.mem]
      simp
    · rw [if_neg h0, if_neg (by show ¬ bytes.length > (X ++ R').length; rw [List.length_append]; omega), List.take_length, h.mem, em,
        writeMem_split (by simp only [List.length_append]; omega) hX]
      show some (_, _) = _
      congr 3
      simp only [List.append_assoc]
  have hshift : shift (sizesOf w.mem) (P (A.length + 32 + B.length) (X ++ R').length) bytes.length =
      some (P (A.length + 32 + (B ++ bytes).length) R'.length, bytes.length) := by
    rw [shift_P (by rw [List.length_append]; omega) (by rw [List.length_append]; omega)]
    rw [List.length_append, List.length_append]
    congr 3
    · omega
    · omega
  refine ⟨{ w with mem := [A ++ words H ++ (B ++ bytes) ++ R'], sub := P (A.length + 32 + (B ++ bytes).length) R'.length }, R', ?_, ?_, by rw [List.length_append]; omega⟩
  · unfold addSubevent
    rw [h.evNull, if_neg (by decide), subStart_spec h (by rw [List.length_append]; omega)]
    dsimp only
    rw [if_neg (by show ¬ (X ++ R').length < bytes.length; rw [List.length_append]; omega), hcopy]
    dsimp only [Option.bind_some]
    rw [hshift]
    rfl
  · refine ⟨rfl, h.hH, h.hd, ?_, Or.inr rfl, h.full, h.buf, ?_⟩
    · show w.ev = _
      rw [h.ev, List.length_append, List.length_append]
      congr 1
      omega
    · rw [List.length_append]
      omega

/-- Filling a subevent appends its bytes and some padding. -/
theorem fill_spec {w : Writer} {A : List Byte} {H : List Word} {B R : List Byte} (h : WInv w A H B R) {x : Sub} (hlt : x.room < R.length) :
    ∃ w' pad R', writePart w (.fill x) = some (w', true) ∧ WInv w' A H (B ++ (x.bytes ++ pad)) R' ∧ x.bytes.length + pad.length = x.room ∧
      x.room + R'.length = R.length := by
  have hroom : x.room = up8 (16 + x.data.length) := rfl
  have hge := up8_ge (16 + x.data.length)
  have hl := h.len
  have hW := h.head_length
  obtain ⟨X, R1, rfl, hX⟩ := split_at (n := 16) (R := R) (by omega)
  rw [List.length_append] at hlt hl
  obtain ⟨D, R2, rfl, hD⟩ := split_at (n := x.data.length) (R := R1) (by omega)
  rw [List.length_append] at hlt hl
  obtain ⟨pad, R3, rfl, hpad⟩ := split_at (n := x.room - 16 - x.data.length) (R := R2) (by omega)
  rw [List.length_append] at hlt hl
  obtain ⟨V, hV, rfl⟩ := exists_words 4 X (by rw [hX])
  match V, hV with
  | [v0, v1, v2, v3], _ =>
    generalize hC : A ++ words H ++ B = C
    have hCl : C.length = A.length + 32 + B.length := by rw [← hC]; simp only [List.length_append]; omega
    have hRl : (words [v0, v1, v2, v3] ++ (D ++ (pad ++ R3))).length = x.room + R3.length := by
      simp only [List.length_append, words_length]
      show 4 * 4 + _ = _
      omega
    have em : A ++ words H ++ B ++ (words [v0, v1, v2, v3] ++ (D ++ (pad ++ R3))) = C ++ words [v0, v1, v2, v3] ++ (D ++ (pad ++ R3)) := by
      rw [← hC]
      simp only [List.append_assoc]
    have hmem : w.mem = [C ++ words [v0, v1, v2, v3] ++ (D ++ (pad ++ R3))] := by rw [h.mem, em]
    have hp : ∀ l, P (A.length + 32 + B.length) l = P C.length l := fun l => by rw [hCl]
    have hss : subStart w = some (P C.length (x.room + R3.length)) := by
      rw [subStart_spec h (by omega), hRl, hp]
    have n1 : newSubevent w x.data.length x.trig = some ({ w with mem := [C ++ words [v0, v1, v2, value v1 x.trig] ++ (D ++ (pad ++ R3))], sub := P C.length (x.room + R3.length) }, true) := by
      unfold newSubevent
      rw [h.evNull, if_neg (by decide), hss]
      dsimp only
      rw [if_neg (by show ¬ x.room + R3.length < _; omega), hmem]
      have s := setField_words (A := C) (R := D ++ (pad ++ R3)) (l := x.room + R3.length) (i := 3) (W := [v0, v1, v2, v3]) (d := v1) rfl (by simp) x.trig
      simp only [Nat.reduceMul, List.set_cons_succ, List.set_cons_zero] at s
      rw [s]
      rfl
    have s1 := putWord_words (A := C) (R := D ++ (pad ++ R3)) (l := x.room + R3.length) (i := 1) (W := [v0, v1, v2, value v1 x.trig]) (by simp) x.decoding
    have s2 := setField_words (A := C) (R := D ++ (pad ++ R3)) (l := x.room + R3.length) (i := 3) (W := [v0, x.decoding, v2, value v1 x.trig]) (d := x.decoding) rfl (by simp) x.trig
    have s3 := setField_words (A := C) (R := D ++ (pad ++ R3)) (l := x.room + R3.length) (i := 2) (W := [v0, x.decoding, v2, value x.decoding x.trig]) (d := x.decoding) rfl (by simp) x.id
    have s4 := setField_words (A := C) (R := x.data ++ (pad ++ R3)) (l := x.room + R3.length) (i := 0) (W := [v0, x.decoding, value x.decoding x.id, value x.decoding x.trig])
      (d := x.decoding) rfl (by simp) (BitVec.ofNat 32 (x.data.length + 16))
    simp only [Nat.reduceMul, List.set_cons_succ, List.set_cons_zero] at s1 s2 s3 s4
    have hw1 : writeMem [C ++ words [v0, x.decoding, value x.decoding x.id, value x.decoding x.trig] ++ (D ++ (pad ++ R3))]
        { P C.length (x.room + R3.length) with off := C.length + 16 } x.data =
        some [C ++ words [v0, x.decoding, value x.decoding x.id, value x.decoding x.trig] ++ (x.data ++ (pad ++ R3))] := by
      have e1 : C ++ words [v0, x.decoding, value x.decoding x.id, value x.decoding x.trig] ++ (D ++ (pad ++ R3)) =
        (C ++ words [v0, x.decoding, value x.decoding x.id, value x.decoding x.trig]) ++ D ++ (pad ++ R3) := by simp only [List.append_assoc]
      rw [e1]
      refine (writeMem_split (o := C.length + 16) (by rw [List.length_append, words_length]; rfl) hD).trans ?_
      simp only [List.append_assoc]
    have hbytes : words [value x.decoding (BitVec.ofNat 32 (x.data.length + 16)), x.decoding, value x.decoding x.id, value x.decoding x.trig] ++ x.data = x.bytes := by
      unfold Sub.bytes
      rw [Nat.add_comm x.data.length 16]
    have em2 : C ++ words [value x.decoding (BitVec.ofNat 32 (x.data.length + 16)), x.decoding, value x.decoding x.id, value x.decoding x.trig] ++ (x.data ++ (pad ++ R3)) =
        C ++ x.bytes ++ (pad ++ R3) := by
      rw [← hbytes]
      simp only [List.append_assoc]
    have hsz : getPadded [C ++ x.bytes ++ (pad ++ R3)] (P C.length (x.room + R3.length)) = some x.room := by
      rw [getPadded_P _ (by simp only [List.length_append, Sub.bytes_length]; omega), (sub_at (by omega) 0 0).1, up8_padded (by omega)]
      rfl
    refine ⟨{ w with mem := [C ++ x.bytes ++ (pad ++ R3)], sub := P (C.length + x.room) R3.length }, pad, R3, ?_, ?_, ?_, by rw [hRl]⟩
    · show andThen (newSubevent w x.data.length x.trig) _ = _
      unfold andThen
      rw [n1]
      dsimp only
      unfold setDecodingDirect
      rw [s1]
      dsimp only [Option.bind_some]
      rw [s2]
      dsimp only [Option.bind_some]
      rw [s3]
      dsimp only [Option.bind_some]
      have hw1' := hw1
      rw [show ({ P C.length (x.room + R3.length) with off := (P C.length (x.room + R3.length)).off + 16 } : Ptr) = { P C.length (x.room + R3.length) with off := C.length + 16 } from rfl, hw1]
      dsimp only [Option.bind_some]
      unfold finishSubEvent
      dsimp only
      rw [isNull_P, if_neg (by simp only [decide_eq_true_eq]; omega)]
      have hmr : maxRaw ({ w with mem := [C ++ words [v0, x.decoding, value x.decoding x.id, value x.decoding x.trig] ++ (x.data ++ (pad ++ R3))], sub := P C.length (x.room + R3.length) } : Writer) = x.room + R3.length - 16 := by
        unfold maxRaw
        dsimp only
        rw [isNull_P, if_neg (by simp only [decide_eq_true_eq]; omega)]
        show sub32 (x.room + R3.length) 16 = _
        rw [sub32_eq (by omega) (by omega)]
      rw [hmr, if_neg (by omega), s4]
      dsimp only [Option.bind_some]
      rw [em2, hsz]
      dsimp only [Option.bind_some]
      rw [shift_P (by omega) (by omega)]
      show some (({ w with mem := _, sub := P (C.length + x.room) (x.room + R3.length - x.room) } : Writer), true) = _
      rw [show x.room + R3.length - x.room = R3.length by omega]
    · refine ⟨?_, h.hH, h.hd, ?_, Or.inr ?_, h.full, h.buf, ?_⟩
      · show [C ++ x.bytes ++ (pad ++ R3)] = _
        rw [← hC]
        simp only [List.append_assoc]
      · show w.ev = _
        rw [h.ev, hRl]
        simp only [List.length_append, Sub.bytes_length]
        congr 1
        omega
      · show P (C.length + x.room) R3.length = _
        rw [hCl]
        simp only [List.length_append, Sub.bytes_length]
        congr 1
        omega
      · simp only [List.length_append, Sub.bytes_length]
        omega
    · rw [Sub.bytes_length]
      omega

/-- Writing the parts of an event. -/
theorem writeParts_spec : ∀ {ps : List Part} {l : List Sub}, Brings ps l → ∀ {w : Writer} {A : List Byte} {H : List Word} {B R : List Byte}, WInv w A H B R →
    (l.map Sub.room).sum < R.length →
    ∃ w' B' R', writeParts w ps = some (w', true) ∧ SubsIn l B' ∧ WInv w' A H (B ++ B') R' ∧ B'.length + R'.length = R.length := by
  intro ps l hb
  induction hb with
  | nil =>
    intro w A H B R h _
    exact ⟨w, [], R, rfl, SubsIn.nil, by rw [List.append_nil]; exact h, Nat.zero_add _⟩
  | @fill x ps l _ ih =>
    intro w A H B R h hlt
    rw [List.map_cons, List.sum_cons] at hlt
    obtain ⟨w1, pad, R1, h1, h2, h3, h4⟩ := fill_spec h (x := x) (by omega)
    obtain ⟨w2, B', R2, k1, k2, k3, k4⟩ := ih h2 (by omega)
    refine ⟨w2, x.bytes ++ pad ++ B', R2, ?_, SubsIn.cons h3 k2, by rw [← List.append_assoc]; exact k3, ?_⟩
    · unfold writeParts andThen
      rw [h1]
      exact k1
    · simp only [List.length_append]
      omega
  | @copy a Bc ps l ha _ ih =>
    intro w A H B R h hlt
    rw [List.map_append, List.sum_append] at hlt
    have hal := ha.length
    obtain ⟨w1, R1, h1, h2, h3⟩ := addSubevent_spec h (bytes := Bc) (by omega)
    obtain ⟨w2, B', R2, k1, k2, k3, k4⟩ := ih h2 (by omega)
    refine ⟨w2, Bc ++ B', R2, ?_, ha.append k2, by rw [← List.append_assoc]; exact k3, ?_⟩
    · unfold writeParts andThen
      show (match addSubevent w Bc with | some (w, true) => writeParts w ps | r => r) = _
      rw [h1]
      exact k1
    · simp only [List.length_append]
      omega

/-- State of a writer between events: `A` are the bytes of the events so far. -/
structure WBetween (w : Writer) (A R : List Byte) : Prop where
  mem : w.mem = [A ++ R]
  ev : w.ev = P A.length R.length ∨ (A = [] ∧ w.ev = Ptr.null)
  full : w.full = A.length
  buf : w.isBuf = true
  len : A.length + R.length < 2 ^ 32

/-- Writing an event. -/
theorem writeEvent_spec {w : Writer} {A R : List Byte} (h : WBetween w A R) {e : Ev} {ps : List Part} (hb : Brings ps e.subs) (hlt : e.room < R.length) :
    ∃ w' E R', writeEvent w e ps = some (w', true) ∧ EvIn e E ∧ WBetween w' (A ++ E) R' ∧ E.length + R'.length = R.length := by
  have hroom : e.room = 32 + (e.subs.map Sub.room).sum := rfl
  have hl := h.len
  obtain ⟨X, R1, rfl, hX⟩ := split_at (n := 32) (R := R) (by omega)
  rw [List.length_append] at hlt hl
  have n1 : newEvent w e.seq e.run 0 e.date e.time = some ({ w with mem := [A ++ words [32, 0x30001, 0x2001, e.seq, e.date, e.time, e.run, 0] ++ R1], ev := P A.length (32 + R1.length), sub := Ptr.null }, true) := by
    unfold newEvent
    rw [h.buf, if_neg (by decide)]
    have hev : (if isNull w.ev then start (sizesOf w.mem) else w.ev) = P A.length (32 + R1.length) := by
      rcases h.ev with hv | ⟨hA, hv⟩
      · rw [hv, isNull_P, if_neg (by simp only [decide_eq_true_eq, List.length_append]; omega), List.length_append, hX]
      · rw [hv, if_pos isNull_null, h.mem, start_P, hA, List.nil_append, List.length_append, hX]
        rfl
    rw [hev]
    dsimp only
    rw [if_neg (by show ¬ (32 + R1.length < 32 + 0); omega), h.mem, ← List.append_assoc, initEvent_spec _ hX]
    rfl
  have hinv : WInv { w with mem := [A ++ words [32, 0x30001, 0x2001, e.seq, e.date, e.time, e.run, 0] ++ R1], ev := P A.length (32 + R1.length), sub := Ptr.null } A
      [32, 0x30001, 0x2001, e.seq, e.date, e.time, e.run, 0] [] R1 := by
    refine ⟨?_, rfl, rfl, ?_, Or.inl ⟨rfl, rfl⟩, h.full, h.buf, ?_⟩
    · show [_] = [_]
      rw [List.append_nil]
    · show P A.length (32 + R1.length) = P A.length (32 + 0 + R1.length)
      rw [Nat.add_zero]
    · show A.length + 32 + 0 + R1.length < 2 ^ 32
      omega
  obtain ⟨w1, B, R2, k1, k2, k3, k4⟩ := writeParts_spec hb hinv (by omega)
  rw [List.nil_append] at k3
  have hBl := k2.length
  have hm8 := k2.mod8
  have hB32 : e.room = 32 + B.length := by rw [hBl]; rfl
  have hdist : (if isNull w1.sub then some 32 else (distanceTo (sizesOf w1.mem) (w1.mem.length + 1) w1.ev w1.sub).map fun d => (d % 2 ^ 32).toNat) = some (32 + B.length) := by
    rcases k3.sub with ⟨s1, s2⟩ | s1
    · rw [s1, if_pos isNull_null, s2]
      rfl
    · rw [s1, isNull_P, if_neg (by simp only [decide_eq_true_eq]; omega), k3.ev]
      unfold distanceTo
      rw [if_pos (by rfl)]
      show some (((((A.length + 32 + B.length : Nat) : Int) - (A.length : Nat)) % 2 ^ 32).toNat) = _
      congr 1
      omega
  have hset := setField_words (A := A) (R := B ++ R2) (l := 32 + B.length + R2.length) (i := 0) (W := [32, 0x30001, 0x2001, e.seq, e.date, e.time, e.run, 0]) (d := 0x30001) rfl (by simp)
    (BitVec.ofNat 32 (32 + B.length))
  simp only [Nat.reduceMul, List.set_cons_zero] at hset
  rw [show value 0x30001 (BitVec.ofNat 32 (32 + B.length)) = BitVec.ofNat 32 e.room by rw [hB32]; rfl] at hset
  generalize hH : ([BitVec.ofNat 32 e.room, 0x30001, 0x2001, e.seq, e.date, e.time, e.run, 0] : List Word) = H at hset
  have hHl : (words H).length = 32 := by rw [words_length, ← hH]; rfl
  have hsz : getPadded [A ++ words H ++ (B ++ R2)] (P A.length (32 + B.length + R2.length)) = some (32 + B.length) := by
    rw [getPadded_P _ (by simp only [List.length_append, hHl]; omega), sizeAt_words (d := 0x30001) (w := BitVec.ofNat 32 e.room) (by rw [← hH]; rfl) (by rw [← hH]; rfl)]
    show some (padded (BitVec.ofNat 32 e.room).toNat) = _
    rw [BitVec.toNat_ofNat, hB32, Nat.mod_eq_of_lt (by omega)]
    unfold padded
    rw [if_pos (by omega)]
  refine ⟨{ w1 with mem := [A ++ (words H ++ B) ++ R2], ev := P (A.length + (32 + B.length)) R2.length, full := A.length + (32 + B.length) }, words H ++ B, R2, ?_, ?_, ?_, ?_⟩
  · unfold writeEvent andThen
    rw [n1]
    dsimp only
    rw [k1]
    dsimp only
    unfold finishEvent
    rw [k3.evNull, if_neg (by decide)]
    dsimp only
    rw [hdist]
    dsimp only [Option.bind_some]
    rw [k3.ev, k3.mem, List.append_assoc (A ++ words _), hset]
    dsimp only [Option.bind_some]
    rw [hsz]
    dsimp only [Option.bind_some]
    rw [shift_P (by omega) (by omega), k3.full]
    show some (({ w1 with mem := _, ev := P (A.length + (32 + B.length)) (32 + B.length + R2.length - (32 + B.length)), full := (A.length + (32 + B.length)) % 2 ^ 32 } : Writer), true) = _
    rw [Nat.mod_eq_of_lt (by omega), show 32 + B.length + R2.length - (32 + B.length) = R2.length by omega]
    congr 4
    simp only [List.append_assoc]
  · rw [← hH]
    exact EvIn.mk k2
  · refine ⟨rfl, Or.inl ?_, ?_, k3.buf, ?_⟩
    · show P _ _ = _
      rw [List.length_append, List.length_append, hHl]
    · show A.length + (32 + B.length) = _
      rw [List.length_append, List.length_append, hHl]
    · simp only [List.length_append, hHl]
      omega
  · simp only [List.length_append, hHl, hX]
    omega

/-- Writing events. -/
theorem writeEvents_spec : ∀ (es : List (Ev × List Part)) {w : Writer} {A R : List Byte}, WBetween w A R → (∀ e ∈ es, Brings e.2 e.1.subs) →
    (es.map fun e => e.1.room).sum < R.length →
    ∃ w' E R', writeEvents w es = some (w', true) ∧ EvsIn (es.map fun e => e.1) E ∧ WBetween w' (A ++ E) R' ∧ E.length + R'.length = R.length := by
  intro es
  induction es with
  | nil =>
    intro w A R h _ _
    exact ⟨w, [], R, rfl, EvsIn.nil, by rw [List.append_nil]; exact h, Nat.zero_add _⟩
  | cons e es ih =>
    intro w A R h hb hlt
    rw [List.map_cons, List.sum_cons] at hlt
    obtain ⟨w1, E1, R1, h1, h2, h3, h4⟩ := writeEvent_spec h (hb e (List.mem_cons_self ..)) (by omega)
    have hE1 := h2.length
    obtain ⟨w2, E2, R2, k1, k2, k3, k4⟩ := ih h3 (fun x hx => hb x (List.mem_cons_of_mem _ hx)) (by omega)
    refine ⟨w2, E1 ++ E2, R2, ?_, EvsIn.cons h2 k2, by rw [← List.append_assoc]; exact k3, ?_⟩
    · unfold writeEvents andThen
      rw [h1]
      exact k1
    · rw [List.length_append]
      omega

end Verif.HadIter
