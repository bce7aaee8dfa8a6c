import Verif.MbsRead

/-! # Writing MBS events -/

namespace Verif.MbsIter

open Verif.Bytes Verif.Pointer Verif.HadTu
open Verif.HadIter (isNull resetTo words Inside P start_P inside_P isNull_null isNull_P Inside_P Inside_null shift_P shift_P_gt setFull_P resetTo_full resetTo_pos
  words_length words_cons words_append word_words exists_words putWord_words writeMem_split split_at)

theorem distance_P (mem : Mem) {o o' l l' : Nat} (h : o ≤ o') (hlt : o' < 2 ^ 32) : distance mem (P o l) (P o' l') = some (o' - o) := by
  unfold distance distanceTo
  rw [if_pos (by rfl)]
  show some ((((o' : Nat) : Int) - (o : Nat)) % 2 ^ 32).toNat = _
  congr 1
  omega

theorem setSize_words {A R : List Byte} {w : Word} {W : List Word} {l n : Nat} (h8 : 8 ≤ n) (hn : n < 2 ^ 32) :
    setSize [A ++ words (w :: W) ++ R] (P A.length l) n = some [A ++ words (BitVec.ofNat 32 ((n - 8) / 2) :: W) ++ R] := by
  unfold setSize
  rw [sub32_eq h8 hn]
  have := putWord_words (A := A) (R := R) (l := l) (i := 0) (W := w :: W) (by simp) (BitVec.ofNat 32 ((n - 8) / 2))
  rw [show 4 * 0 = 0 from rfl, List.set_cons_zero] at this
  exact this

theorem fullSize_words {A R : List Byte} {W : List Word} {l n : Nat} (hn : n < 2 ^ 32) (h8 : 8 ≤ n) (he : n % 2 = 0) :
    fullSize [A ++ words (BitVec.ofNat 32 ((n - 8) / 2) :: W) ++ R] (P A.length l) = some n := by
  rw [fullSize_P _ (by rw [List.length_append, List.length_append, words_length, List.length_cons]; omega), sizeAt_words (w := BitVec.ofNat 32 ((n - 8) / 2)) rfl, BitVec.toNat_ofNat]
  have hm : (n - 8) / 2 % 2 ^ 32 = (n - 8) / 2 := Nat.mod_eq_of_lt (by omega)
  rw [hm, Nat.mod_eq_of_lt (by omega)]
  congr 1
  omega

/-- Copying bytes with `copyfrom`. -/
theorem copyFrom_P {A X R bytes : List Byte} {l : Nat} (hX : X.length = bytes.length) (hl : bytes.length ≤ l) :
    copyFrom [bytes] [A ++ X ++ R] (P A.length l) (start [bytes.length]) 0 = some (bytes.length, [A ++ bytes ++ R]) := by
  have hst : start [bytes.length] = P 0 bytes.length := start_P bytes
  rw [hst]
  unfold copyFrom
  rw [if_pos rfl]
  dsimp only
  rw [if_pos (show (P 0 bytes.length).full ≤ (P A.length l).raw ∧ (P 0 bytes.length).full ≤ (P 0 bytes.length).raw from ⟨hl, Nat.le_refl _⟩)]
  have hrd : readMem [bytes] (P 0 bytes.length) (P 0 bytes.length).full = some bytes := by
    show (if 0 + bytes.length ≤ bytes.length then some ((bytes.drop 0).take bytes.length) else none) = _
    rw [if_pos (by omega), List.drop_zero, List.take_length]
  rw [hrd]
  dsimp only
  rw [writeMem_split rfl hX]
  rfl

/-- State of a writer inside of an event: `A` are the bytes of the events before, `H` the header of the event, `B` its
subevents so far, `R` the rest of the buffer. -/
structure WInv (w : Writer) (A : List Byte) (H : List Word) (B R : List Byte) : Prop where
  mem : w.mem = [A ++ words H ++ B ++ R]
  hH : H.length = 4
  ev : w.ev = P A.length (16 + B.length + R.length)
  sub : w.sub = P (A.length + 16 + B.length) R.length
  data : isNull w.data = true
  full : w.full = A.length
  len : A.length + 16 + B.length + R.length < 2 ^ 32

theorem initSub_spec {A X R : List Byte} (l : Nat) (hX : X.length = 12) (id : Word) :
    initSub [A ++ X ++ R] (P A.length l) id = some [A ++ words [0, 0x1000a, id] ++ R] := by
  obtain ⟨W, hW, rfl⟩ := exists_words 3 X (by rw [hX])
  match W, hW with
  | [w0, w1, w2], _ =>
    unfold initSub
    have s1 := putWord_words (A := A) (R := R) (l := l) (i := 0) (W := [w0, w1, w2]) (by simp) 0
    have s2 := putWord_words (A := A) (R := R) (l := l) (i := 1) (W := [0, w1, w2]) (by simp) 0x1000a
    have s3 := putWord_words (A := A) (R := R) (l := l) (i := 2) (W := [0, 0x1000a, w2]) (by simp) id
    simp only [Nat.reduceMul, List.set_cons_succ, List.set_cons_zero] at s1 s2 s3
    rw [s1]
    dsimp only [Option.bind_some]
    rw [s2]
    dsimp only [Option.bind_some]
    exact s3

theorem initEvent_spec {A X R : List Byte} (l : Nat) (hX : X.length = 16) (number : Word) :
    initEvent [A ++ X ++ R] (P A.length l) number = some [A ++ words [0, 0x1000a, 0x10000, number] ++ R] := by
  obtain ⟨W, hW, rfl⟩ := exists_words 4 X (by rw [hX])
  match W, hW with
  | [w0, w1, w2, w3], _ =>
    unfold initEvent
    have s1 := putWord_words (A := A) (R := R) (l := l) (i := 0) (W := [w0, w1, w2, w3]) (by simp) 0
    have s2 := putWord_words (A := A) (R := R) (l := l) (i := 1) (W := [0, w1, w2, w3]) (by simp) 0x1000a
    have s3 := putWord_words (A := A) (R := R) (l := l) (i := 2) (W := [0, 0x1000a, w2, w3]) (by simp) 0x10000
    have s4 := putWord_words (A := A) (R := R) (l := l) (i := 3) (W := [0, 0x1000a, 0x10000, w3]) (by simp) number
    simp only [Nat.reduceMul, List.set_cons_succ, List.set_cons_zero] at s1 s2 s3 s4
    rw [s1]
    dsimp only [Option.bind_some]
    rw [s2]
    dsimp only [Option.bind_some]
    rw [s3]
    dsimp only [Option.bind_some]
    exact s4

/-- State of a writer inside of a subevent: `C` is everything before, `D` the data, of which `k` bytes were added by `AddRawData`. -/
structure SInv (w : Writer) (C : List Byte) (id : Word) (D : List Byte) (k : Nat) (R : List Byte) : Prop where
  mem : w.mem = [C ++ words [0, 0x1000a, id] ++ D ++ R]
  sub : w.sub = P C.length (12 + D.length + R.length)
  data : w.data = P (C.length + 12 + k) (D.length - k + R.length)
  hk : k ≤ D.length
  len : C.length + 12 + D.length + R.length < 2 ^ 32

theorem startSub_spec {w : Writer} {A : List Byte} {H : List Word} {B R : List Byte} (h : WInv w A H B R) (id : Word) (hlt : 12 ≤ R.length) :
    ∃ w' R', startSub w id = some (w', true) ∧ SInv w' (A ++ words H ++ B) id [] 0 R' ∧ R.length = 12 + R'.length ∧ w'.ev = w.ev ∧ w'.full = w.full := by
  obtain ⟨X, R', rfl, hX⟩ := split_at hlt
  have hl := h.len
  rw [List.length_append] at hl
  have hW : (words H).length = 16 := by rw [words_length, h.hH]
  have hC : (A ++ words H ++ B).length = A.length + 16 + B.length := by simp only [List.length_append, hW]
  refine ⟨{ w with mem := [A ++ words H ++ B ++ words [0, 0x1000a, id] ++ R'], data := P (A.length + 16 + B.length + 12) R'.length }, R', ?_, ?_, by rw [List.length_append, hX], rfl, rfl⟩
  · unfold startSub
    rw [h.mem, h.sub, ← hC, ← List.append_assoc, initSub_spec _ hX]
    dsimp only [Option.bind_some]
    rw [resetTo_pos (by rw [List.length_append]; omega) (by omega) (by rw [List.length_append]; omega)]
    dsimp only [Option.map_some]
    rw [show (X ++ R').length - 12 = R'.length by rw [List.length_append]; omega]
  · refine ⟨?_, ?_, ?_, Nat.le_refl _, ?_⟩
    · show [_] = [_]
      rw [List.append_nil]
    · show w.sub = _
      rw [h.sub, hC, List.length_append, hX]
      rfl
    · show P _ _ = _
      rw [hC]
      show _ = P _ (0 - 0 + R'.length)
      rw [Nat.sub_self, Nat.zero_add]
    · rw [hC]
      show _ + 0 + _ < _
      omega

theorem addRaw_spec {w : Writer} {C : List Byte} {id : Word} {D R : List Byte} (h : SInv w C id D D.length R) {d : List Byte} (hd : d ≠ []) (hlt : d.length ≤ R.length) :
    ∃ w' R', addRawData w d = some (w', true) ∧ SInv w' C id (D ++ d) (D ++ d).length R' ∧ R.length = d.length + R'.length ∧ w'.ev = w.ev ∧ w'.full = w.full := by
  obtain ⟨X, R', rfl, hX⟩ := split_at hlt
  have hl := h.len
  have hdl : 0 < d.length := List.length_pos_iff.2 hd
  have hdata : w.data = P (C.length + 12 + D.length) (X ++ R').length := by
    rw [h.data, Nat.sub_self, Nat.zero_add]
  rw [List.length_append] at hl hlt
  have hCl : (C ++ words [0, 0x1000a, id] ++ D).length = C.length + 12 + D.length := by
    simp only [List.length_append, words_length]
    rfl
  have hcopy : copyFromRaw w.mem (P (C.length + 12 + D.length) (X ++ R').length) d = some (d.length, [C ++ words [0, 0x1000a, id] ++ (D ++ d) ++ R']) := by
    unfold copyFromRaw
    have hsz : (if d.length > (P (C.length + 12 + D.length) (X ++ R').length).full then (P (C.length + 12 + D.length) (X ++ R').length).full else d.length) = d.length := by
      rw [if_neg (by show ¬ d.length > (X ++ R').length; rw [List.length_append]; omega)]
    rw [hsz]
    dsimp only
    rw [if_neg (by omega), if_neg (by show ¬ d.length > (X ++ R').length; rw [List.length_append]; omega), List.take_length, h.mem,
      show C ++ words [0, 0x1000a, id] ++ D ++ (X ++ R') = (C ++ words [0, 0x1000a, id] ++ D) ++ X ++ R' by simp only [List.append_assoc],
      writeMem_split hCl.symm hX]
    show some (_, _) = _
    congr 3
    simp only [List.append_assoc]
  refine ⟨{ w with mem := [C ++ words [0, 0x1000a, id] ++ (D ++ d) ++ R'], data := P (C.length + 12 + D.length + d.length) R'.length }, R', ?_, ?_, by rw [List.length_append, hX], rfl, rfl⟩
  · unfold addRawData
    rw [hdata, h.sub, isNull_P, if_neg, hcopy]
    · dsimp only [Option.bind_some]
      rw [shift_P (by rw [List.length_append]; omega) (by rw [List.length_append]; omega)]
      dsimp only [Option.map_some]
      rw [show (X ++ R').length - d.length = R'.length by rw [List.length_append]; omega]
    · simp only [Bool.or_eq_true, decide_eq_true_eq, not_or, List.length_append]
      refine ⟨by omega, ?_⟩
      show ¬ d.length > 12 + D.length + _
      omega
  · refine ⟨rfl, ?_, ?_, Nat.le_refl _, ?_⟩
    · show w.sub = _
      rw [h.sub]
      simp only [List.length_append, hX]
      congr 1
      omega
    · show P _ _ = _
      rw [Nat.sub_self, Nat.zero_add, List.length_append]
      congr 1
      omega
    · simp only [List.length_append]
      omega

theorem addPieces_spec : ∀ (ds : List (List Byte)) {w : Writer} {C : List Byte} {id : Word} {D R : List Byte}, SInv w C id D D.length R → (∀ d ∈ ds, d ≠ []) →
    ds.flatten.length ≤ R.length →
    ∃ w' R', addPieces w ds = some (w', true) ∧ SInv w' C id (D ++ ds.flatten) (D ++ ds.flatten).length R' ∧ R.length = ds.flatten.length + R'.length ∧ w'.ev = w.ev ∧
      w'.full = w.full
  | [], w, C, id, D, R, h, _, _ => ⟨w, R, rfl, by rw [List.flatten_nil, List.append_nil]; exact h, by rw [List.flatten_nil]; exact (Nat.zero_add _).symm, rfl, rfl⟩
  | d :: ds, w, C, id, D, R, h, hne, hlt => by
    rw [List.flatten_cons, List.length_append] at hlt
    obtain ⟨w1, R1, h1, h2, h3, h4, h5⟩ := addRaw_spec h (hne d (List.mem_cons_self ..)) (by omega)
    obtain ⟨w2, R2, k1, k2, k3, k4, k5⟩ := addPieces_spec ds h2 (fun x hx => hne x (List.mem_cons_of_mem _ hx)) (by omega)
    refine ⟨w2, R2, ?_, ?_, ?_, k4.trans h4, k5.trans h5⟩
    · unfold addPieces andThen
      rw [h1]
      exact k1
    · rw [List.flatten_cons, ← List.append_assoc]
      exact k2
    · rw [List.flatten_cons, List.length_append]
      omega

/-- `FinishSubEvent` writes the size and goes behind the subevent. -/
theorem finishSub_spec {w : Writer} {C : List Byte} {id : Word} {D R : List Byte} {k : Nat} (h : SInv w C id D k R) {n : Nat} (he : D.length % 2 = 0)
    (hn : (n = 0 ∧ k = D.length) ∨ (n = D.length ∧ 0 < n)) :
    finishSubEvent w n = some ({ w with mem := [C ++ (Sub.mk id D).bytes ++ R], sub := P (C.length + (12 + D.length)) R.length, data := Ptr.null }, true) := by
  have hl := h.len
  have hk := h.hk
  have hmax : maxRaw w = D.length + R.length := by
    unfold maxRaw
    rw [h.sub, isNull_P, if_neg (by simp only [decide_eq_true_eq]; omega)]
    show sub32 (12 + D.length + R.length) 12 = _
    rw [sub32_eq (by omega) (by omega)]
    omega
  have hfill : (if isNull w.data then some (maxRaw w) else (distance w.mem w.sub w.data).map fun d => sub32 d 12) = some (if D.length - k + R.length = 0 then D.length + R.length else k) := by
    rw [h.data, isNull_P, hmax]
    by_cases h0 : D.length - k + R.length = 0
    · rw [if_pos (by simp only [decide_eq_true_eq]; exact h0), if_pos h0]
    · rw [if_neg (by simp only [decide_eq_true_eq]; exact h0), if_neg h0, h.sub, distance_P _ (by omega) (by omega)]
      show some (sub32 (C.length + 12 + k - C.length) 12) = _
      rw [show C.length + 12 + k - C.length = 12 + k by omega, sub32_eq (by omega) (by omega)]
      congr 1
      omega
  unfold finishSubEvent
  rw [if_neg (by rw [h.sub, isNull_P]; simp only [decide_eq_true_eq]; omega)]
  dsimp only
  rw [hfill]
  dsimp only [Option.bind_some]
  have hr : (if n = 0 then (if D.length - k + R.length = 0 then D.length + R.length else k) else n) = D.length := by
    rcases hn with ⟨h1, h2⟩ | ⟨h1, h2⟩
    · rw [if_pos h1]
      split <;> omega
    · rw [if_neg (by omega), h1]
  rw [hr, hmax, if_neg (by omega), Nat.mod_eq_of_lt (by omega), h.mem, h.sub,
    show C ++ words [0, 0x1000a, id] ++ D ++ R = C ++ words [0, 0x1000a, id] ++ (D ++ R) by simp only [List.append_assoc],
    setSize_words (by omega) (by omega)]
  dsimp only [Option.bind_some]
  rw [fullSize_words (by omega) (by omega) (by omega)]
  dsimp only [Option.bind_some]
  rw [shift_P (by omega) (by omega)]
  show some (({ w with mem := _, sub := P _ _, data := Ptr.null } : Writer), true) = _
  have e1 : C ++ words [BitVec.ofNat 32 ((D.length + 12 - 8) / 2), 0x1000a, id] ++ (D ++ R) = C ++ (Sub.mk id D).bytes ++ R := by
    unfold Sub.bytes
    rw [show (D.length + 12 - 8) / 2 = 2 + D.length / 2 by omega]
    simp only [List.append_assoc]
  rw [e1, show 12 + D.length + R.length - (D.length + 12) = R.length by omega, Nat.add_comm D.length 12]

theorem after_sub {w : Writer} {A : List Byte} {H : List Word} {B R : List Byte} (h : WInv w A H B R) {w' : Writer} {x : Sub} {R' : List Byte} (hR : R.length = x.room + R'.length)
    (hm : w'.mem = [A ++ words H ++ B ++ x.bytes ++ R']) (hs : w'.sub = P ((A ++ words H ++ B).length + x.room) R'.length) (hd : isNull w'.data = true) (hev : w'.ev = w.ev)
    (hf : w'.full = w.full) : WInv w' A H (B ++ x.bytes) R' := by
  have hl := h.len
  have hxl := x.bytes_length
  have hW : (words H).length = 16 := by rw [words_length, h.hH]
  refine ⟨?_, h.hH, ?_, ?_, hd, hf.trans h.full, ?_⟩
  · rw [hm]
    simp only [List.append_assoc]
  · rw [hev, h.ev, List.length_append]
    congr 1
    omega
  · rw [hs]
    simp only [List.length_append, hW]
    congr 1
    omega
  · rw [List.length_append]
    omega

theorem pieces_spec {w : Writer} {A : List Byte} {H : List Word} {B R : List Byte} (h : WInv w A H B R) {id : Word} {ds : List (List Byte)} (hne : ∀ d ∈ ds, d ≠ [])
    (hev : (Sub.mk id ds.flatten).Even) (hlt : (Sub.mk id ds.flatten).room ≤ R.length) :
    ∃ w' R', writePart w (.pieces id ds) = some (w', true) ∧ WInv w' A H (B ++ (Sub.mk id ds.flatten).bytes) R' ∧ (Sub.mk id ds.flatten).room + R'.length = R.length := by
  have hroom : (Sub.mk id ds.flatten).room = 12 + ds.flatten.length := rfl
  obtain ⟨w1, R1, h1, h2, h3, h4, h5⟩ := startSub_spec h id (by omega)
  obtain ⟨w2, R2, k1, k2, k3, k4, k5⟩ := addPieces_spec ds h2 hne (by omega)
  rw [List.nil_append] at k2
  have hf := finishSub_spec k2 (n := 0) hev (Or.inl ⟨rfl, rfl⟩)
  refine ⟨_, R2, ?_, after_sub h (x := Sub.mk id ds.flatten) (w' := { w2 with mem := [A ++ words H ++ B ++ (Sub.mk id ds.flatten).bytes ++ R2], sub := P ((A ++ words H ++ B).length + (12 + ds.flatten.length)) R2.length, data := Ptr.null }) (by omega) rfl rfl rfl (k4.trans h4) (k5.trans h5), by omega⟩
  show andThen (newSubevent2 w id) _ = _
  have hn2 : newSubevent2 w id = some (w1, true) := by
    unfold newSubevent2
    rw [h.sub, isNull_P, if_neg (by simp only [decide_eq_true_eq]; omega), h.data, if_neg (by decide)]
    exact h1
  rw [hn2]
  unfold andThen
  dsimp only
  rw [k1]
  dsimp only
  exact hf

theorem direct_spec {w : Writer} {A : List Byte} {H : List Word} {B R : List Byte} (h : WInv w A H B R) {crate : BitVec 8} {procid : BitVec 16} {control : BitVec 8} {data : List Byte}
    (hev : (Sub.mk (control ++ crate ++ procid) data).Even) (hlt : (Sub.mk (control ++ crate ++ procid) data).room ≤ R.length) :
    ∃ w' R', writePart w (.direct crate procid control data) = some (w', true) ∧ WInv w' A H (B ++ (Sub.mk (control ++ crate ++ procid) data).bytes) R' ∧
      (Sub.mk (control ++ crate ++ procid) data).room + R'.length = R.length := by
  have hroom : (Sub.mk (control ++ crate ++ procid) data).room = 12 + data.length := rfl
  have hev : data.length % 2 = 0 := hev
  generalize hid : (control ++ crate ++ procid : BitVec 32) = id at *
  obtain ⟨w1, R1, h1, h2, h3, h4, h5⟩ := startSub_spec h id (by omega)
  obtain ⟨X, R2, rfl, hX⟩ := split_at (n := data.length) (R := R1) (by omega)
  rw [List.length_append] at h3
  have hl2 := h2.len
  rw [List.length_append (as := X), List.length_nil] at hl2
  have h2s := h2.sub
  have h2m := h2.mem
  have h2d := h2.data
  rw [List.length_nil, Nat.add_zero, List.length_append (as := X)] at h2s
  rw [List.append_nil] at h2m
  rw [List.length_nil, Nat.sub_self, Nat.zero_add, Nat.add_zero, List.length_append (as := X)] at h2d
  have hCl : (A ++ words H ++ B ++ words [0, 0x1000a, id]).length = (A ++ words H ++ B).length + 12 := by
    rw [List.length_append, words_length]
    rfl
  have hwr : writeMem w1.mem { w1.sub with off := w1.sub.off + 12 } data = some [A ++ words H ++ B ++ words [0, 0x1000a, id] ++ data ++ R2] := by
    rw [h2m, h2s, ← List.append_assoc _ X R2]
    exact writeMem_split (l := 12 + (X.length + R2.length)) (o := (A ++ words H ++ B).length + 12) hCl.symm hX
  have hs : SInv { w1 with mem := [A ++ words H ++ B ++ words [0, 0x1000a, id] ++ data ++ R2] } (A ++ words H ++ B) id data 0 R2 := by
    refine ⟨rfl, ?_, ?_, Nat.zero_le _, ?_⟩
    · show w1.sub = _
      rw [h2s]
      congr 1
      omega
    · show w1.data = _
      rw [h2d, hX]
      rfl
    · omega
  have hf := finishSub_spec hs (n := data.length) hev (by omega)
  refine ⟨_, R2, ?_, after_sub h (x := Sub.mk id data) (w' := { w1 with mem := [A ++ words H ++ B ++ (Sub.mk id data).bytes ++ R2], sub := P ((A ++ words H ++ B).length + (12 + data.length)) R2.length, data := Ptr.null }) (by omega) rfl rfl rfl h4 h5, by omega⟩
  show andThen (newSubevent w data.length crate procid control) _ = _
  have hn2 : newSubevent w data.length crate procid control = some (w1, true) := by
    unfold newSubevent
    rw [h.sub, isNull_P, if_neg (by simp only [decide_eq_true_eq]; omega), h.data, if_neg (by decide), if_neg (by show ¬ R.length < 12 + data.length; omega), hid]
    exact h1
  rw [hn2]
  unfold andThen
  dsimp only
  rw [hwr]
  dsimp only [Option.bind_some]
  exact hf

theorem addSub_spec {w : Writer} {A : List Byte} {H : List Word} {B R : List Byte} (h : WInv w A H B R) {bytes : List Byte} (hne : bytes ≠ []) (hlt : bytes.length ≤ R.length) :
    ∃ w' R', addSubevent w bytes = some (w', true) ∧ WInv w' A H (B ++ bytes) R' ∧ bytes.length + R'.length = R.length := by
  obtain ⟨X, R', rfl, hX⟩ := split_at hlt
  have hl := h.len
  have hpos : 0 < bytes.length := List.length_pos_iff.2 hne
  rw [List.length_append] at hl hlt
  have hW : (words H).length = 16 := by rw [words_length, h.hH]
  have hC : (A ++ words H ++ B).length = A.length + 16 + B.length := by simp only [List.length_append, hW]
  refine ⟨{ w with mem := [A ++ words H ++ (B ++ bytes) ++ R'], sub := P (A.length + 16 + (B ++ bytes).length) R'.length }, R', ?_, ?_, by rw [List.length_append, hX]⟩
  · unfold addSubevent
    rw [h.sub, isNull_P, if_neg (by simp only [decide_eq_true_eq, List.length_append]; omega),
      if_neg (by show ¬ (X ++ R').length < bytes.length; rw [List.length_append]; omega), h.mem, ← hC, ← List.append_assoc _ X R',
      copyFrom_P hX (by rw [List.length_append]; omega)]
    dsimp only [Option.bind_some]
    rw [shift_P (by rw [List.length_append]; omega) (by rw [List.length_append]; omega)]
    show some (({ w with mem := _, sub := P _ _ } : Writer), true) = _
    rw [show (X ++ R').length - bytes.length = R'.length by rw [List.length_append]; omega, hC, List.append_assoc _ B bytes, List.length_append, Nat.add_assoc (A.length + 16)]
  · refine ⟨rfl, h.hH, ?_, rfl, h.data, h.full, ?_⟩
    · show w.ev = _
      rw [h.ev, List.length_append, List.length_append]
      congr 1
      omega
    · rw [List.length_append]
      omega

/-- Writing the parts of an event. -/
theorem writeParts_spec : ∀ {ps : List Part} {l : List Sub}, Brings ps l → (∀ x ∈ l, x.Even) → ∀ {w : Writer} {A : List Byte} {H : List Word} {B R : List Byte}, WInv w A H B R →
    (l.map Sub.room).sum ≤ R.length →
    ∃ w' R', writeParts w ps = some (w', true) ∧ WInv w' A H (B ++ (l.map Sub.bytes).flatten) R' ∧ (l.map Sub.room).sum + R'.length = R.length := by
  intro ps l hb
  induction hb with
  | nil =>
    intro _ w A H B R h _
    exact ⟨w, R, rfl, by rw [List.map_nil, List.flatten_nil, List.append_nil]; exact h, Nat.zero_add _⟩
  | @pieces id ds ps xs hne _ ih =>
    intro hev w A H B R h hlt
    rw [List.map_cons, List.sum_cons] at hlt
    obtain ⟨w1, R1, h1, h2, h3⟩ := pieces_spec h hne (hev _ (List.mem_cons_self ..)) (by omega)
    obtain ⟨w2, R2, k1, k2, k3⟩ := ih (fun y hy => hev y (List.mem_cons_of_mem _ hy)) h2 (by omega)
    refine ⟨w2, R2, ?_, ?_, ?_⟩
    · unfold writeParts andThen
      rw [h1]
      exact k1
    · rw [List.map_cons, List.flatten_cons, ← List.append_assoc]
      exact k2
    · rw [List.map_cons, List.sum_cons]
      omega
  | @direct crate procid control data ps xs _ ih =>
    intro hev w A H B R h hlt
    rw [List.map_cons, List.sum_cons] at hlt
    obtain ⟨w1, R1, h1, h2, h3⟩ := direct_spec h (hev _ (List.mem_cons_self ..)) (by omega)
    obtain ⟨w2, R2, k1, k2, k3⟩ := ih (fun y hy => hev y (List.mem_cons_of_mem _ hy)) h2 (by omega)
    refine ⟨w2, R2, ?_, ?_, ?_⟩
    · unfold writeParts andThen
      rw [h1]
      exact k1
    · rw [List.map_cons, List.flatten_cons, ← List.append_assoc]
      exact k2
    · rw [List.map_cons, List.sum_cons]
      omega
  | @copy l ps xs hne _ ih =>
    intro hev w A H B R h hlt
    rw [List.map_append, List.sum_append] at hlt
    have hfl := flat_length l
    have hnb : (l.map Sub.bytes).flatten ≠ [] := by
      intro h0
      cases l with
      | nil => exact hne rfl
      | cons x l =>
        have h1 := x.bytes_length
        have h2 : x.room = 12 + x.data.length := rfl
        rw [List.map_cons, List.flatten_cons, List.append_eq_nil_iff] at h0
        rw [h0.1, List.length_nil] at h1
        omega
    obtain ⟨w1, R1, h1, h2, h3⟩ := addSub_spec h hnb (by omega)
    obtain ⟨w2, R2, k1, k2, k3⟩ := ih (fun y hy => hev y (List.mem_append_right _ hy)) h2 (by omega)
    refine ⟨w2, R2, ?_, ?_, ?_⟩
    · unfold writeParts andThen
      show (match addSubevent w (l.map Sub.bytes).flatten with | some (w, true) => writeParts w ps | r => r) = _
      rw [h1]
      exact k1
    · rw [List.map_append, List.flatten_append, ← List.append_assoc]
      exact k2
    · rw [List.map_append, List.sum_append]
      omega

/-- State of a writer between events: `A` are the bytes of the events so far. -/
structure WBetween (w : Writer) (A R : List Byte) : Prop where
  mem : w.mem = [A ++ R]
  ev : w.ev = P A.length R.length
  sub : isNull w.sub = true
  data : isNull w.data = true
  full : w.full = A.length
  len : A.length + R.length < 2 ^ 32

/-- `FinishEvent` writes the size and goes behind the event. -/
theorem finishEvent_spec {w : Writer} {A : List Byte} {h0 : Word} {H : List Word} {B R : List Byte} (h : WInv w A (h0 :: H) B R) :
    ∃ w', finishEvent w = some (w', true) ∧ WBetween w' (A ++ (words (BitVec.ofNat 32 (4 + B.length / 2) :: H) ++ B)) R := by
  have hl := h.len
  have hW : ∀ v, (words (v :: H)).length = 16 := fun v => by rw [words_length]; have := h.hH; rw [List.length_cons] at this ⊢; omega
  have hsize : (if isNull w.sub then some w.ev.full else distance w.mem w.ev w.sub) = some (16 + B.length) := by
    rw [h.sub, isNull_P, h.ev]
    by_cases hR : R.length = 0
    · rw [if_pos (by simp only [decide_eq_true_eq]; exact hR), hR]
      rfl
    · rw [if_neg (by simp only [decide_eq_true_eq]; exact hR), distance_P _ (by omega) (by omega)]
      congr 1
      omega
  refine ⟨{ w with mem := [A ++ (words (BitVec.ofNat 32 (4 + B.length / 2) :: H) ++ B) ++ R], ev := P (A.length + (16 + B.length)) R.length, sub := Ptr.null, full := A.length + (16 + B.length) }, ?_, ?_⟩
  · unfold finishEvent
    rw [if_neg (by rw [h.ev, isNull_P]; simp only [decide_eq_true_eq]; omega)]
    dsimp only
    rw [hsize]
    dsimp only [Option.bind_some]
    rw [h.mem, h.ev, List.append_assoc (A ++ words _), setSize_words (by omega) (by omega)]
    dsimp only [Option.bind_some]
    rw [shift_P (by omega) (by omega), h.full, Nat.mod_eq_of_lt (by omega)]
    show some (({ w with mem := _, ev := P _ _, sub := Ptr.null, full := _ } : Writer), true) = _
    rw [show 16 + B.length + R.length - (16 + B.length) = R.length by omega, show (16 + B.length - 8) / 2 = 4 + B.length / 2 by omega]
    congr 4
    simp only [List.append_assoc]
  · refine ⟨rfl, ?_, rfl, h.data, ?_, ?_⟩
    · show P _ _ = _
      simp only [List.length_append, hW]
    · show A.length + (16 + B.length) = _
      simp only [List.length_append, hW]
    · simp only [List.length_append, hW]
      omega

theorem newEvent_spec {w : Writer} {A R : List Byte} (h : WBetween w A R) (number : Word) (hlt : 16 ≤ R.length) :
    ∃ w' R', newEvent w number 0 = some (w', true) ∧ WInv w' A [0, 0x1000a, 0x10000, number] [] R' ∧ 16 + R'.length = R.length := by
  obtain ⟨X, R', rfl, hX⟩ := split_at hlt
  have hl := h.len
  rw [List.length_append] at hl
  refine ⟨{ w with mem := [A ++ words [0, 0x1000a, 0x10000, number] ++ R'], sub := P (A.length + 16) R'.length }, R', ?_, ?_, by rw [List.length_append, hX]⟩
  · unfold newEvent
    rw [h.sub, if_neg (by decide), h.ev, isNull_P, if_neg (by simp only [decide_eq_true_eq, List.length_append]; omega),
      if_neg (by show ¬ (X ++ R').length < 16 + 0; rw [List.length_append]; omega), resetTo_pos (by rw [List.length_append]; omega) (by omega) (by rw [List.length_append]; omega)]
    dsimp only [Option.bind_some]
    rw [h.mem, ← List.append_assoc, initEvent_spec _ hX]
    dsimp only [Option.map_some]
    rw [show (X ++ R').length - 16 = R'.length by rw [List.length_append]; omega]
  · refine ⟨?_, rfl, ?_, rfl, h.data, h.full, ?_⟩
    · show [_] = [_]
      rw [List.append_nil]
    · show w.ev = _
      rw [h.ev, List.length_append, hX]
      rfl
    · show A.length + 16 + 0 + _ < _
      omega

theorem copyEvent_spec {w : Writer} {A R : List Byte} (h : WBetween w A R) (e : Ev) (hlt : e.room ≤ R.length) :
    ∃ w' R', copyEventFrom w e.bytes false = some (w', true) ∧ copyEventFrom w e.bytes true = finishEvent w' ∧
      WInv w' A [BitVec.ofNat 32 (4 + (e.subs.map Sub.room).sum / 2), 0x1000a, e.trig, e.number] (e.subs.map Sub.bytes).flatten R' ∧ e.room + R'.length = R.length := by
  have hel := e.bytes_length
  have hroom : e.room = 16 + (e.subs.map Sub.room).sum := rfl
  obtain ⟨X, R', rfl, hX⟩ := split_at (n := e.bytes.length) (R := R) (by omega)
  have hl := h.len
  rw [List.length_append] at hl hlt
  have hpre : ∀ fin, copyEventFrom w e.bytes fin = (if fin then finishEvent { w with mem := [A ++ e.bytes ++ R'], sub := P (A.length + e.bytes.length) R'.length }
      else some ({ w with mem := [A ++ e.bytes ++ R'], sub := P (A.length + e.bytes.length) R'.length }, true)) := by
    intro fin
    unfold copyEventFrom
    rw [h.sub, if_neg (by decide), h.ev, isNull_P, if_neg (by simp only [decide_eq_true_eq, List.length_append]; omega),
      if_neg (by show ¬ (X ++ R').length < e.bytes.length; rw [List.length_append]; omega), h.mem, ← List.append_assoc, copyFrom_P hX (by rw [List.length_append]; omega)]
    dsimp only [Option.bind_some]
    rw [resetTo_pos (by rw [List.length_append]; omega) (by omega) (by rw [List.length_append]; omega)]
    dsimp only [Option.bind_some]
    rw [show (X ++ R').length - e.bytes.length = R'.length by rw [List.length_append]; omega]
  refine ⟨{ w with mem := [A ++ e.bytes ++ R'], sub := P (A.length + e.bytes.length) R'.length }, R', by rw [hpre]; rfl, by rw [hpre]; rfl, ?_, by rw [List.length_append, hX, hel]⟩
  have hfl := flat_length e.subs
  refine ⟨?_, rfl, ?_, ?_, h.data, h.full, ?_⟩
  · show [_] = [_]
    unfold Ev.bytes
    rw [← List.append_assoc]
  · show w.ev = _
    rw [h.ev, hfl, List.length_append, hX, hel, hroom]
  · show P _ _ = _
    rw [hfl, hel, hroom]
    congr 1
    omega
  · rw [hfl]
    omega

/-- Writing an event. -/
theorem writeEntry_spec {w : Writer} {A R : List Byte} (h : WBetween w A R) {t : Entry} {e : Ev} (hg : Gives t e) (hev : ∀ x ∈ e.subs, x.Even) (hlt : e.room ≤ R.length) :
    ∃ w' R', writeEntry w t = some (w', true) ∧ WBetween w' (A ++ e.bytes) R' ∧ e.room + R'.length = R.length := by
  have hroom : e.room = 16 + (e.subs.map Sub.room).sum := rfl
  have fin : ∀ {w1 : Writer} {h0 : Word} {R1 : List Byte}, WInv w1 A [h0, 0x1000a, e.trig, e.number] (e.subs.map Sub.bytes).flatten R1 →
      ∃ w', finishEvent w1 = some (w', true) ∧ WBetween w' (A ++ e.bytes) R1 := by
    intro w1 h0 R1 hi
    obtain ⟨w', h1, h2⟩ := finishEvent_spec hi
    rw [flat_length] at h2
    exact ⟨w', h1, h2⟩
  cases hg with
  | @build number ps l hb =>
    have hroom : (Ev.mk 0x10000 number l).room = 16 + (l.map Sub.room).sum := rfl
    obtain ⟨w1, R1, h1, h2, h3⟩ := newEvent_spec h number (by omega)
    obtain ⟨w2, R2, k1, k2, k3⟩ := writeParts_spec hb hev h2 (by omega)
    rw [List.nil_append] at k2
    obtain ⟨w3, f1, f2⟩ := fin k2
    refine ⟨w3, R2, ?_, f2, by omega⟩
    show andThen (newEvent w number 0) (fun w => andThen (writeParts w ps) finishEvent) = _
    unfold andThen
    rw [h1]
    dsimp only
    rw [k1]
    exact f1
  | copy =>
    obtain ⟨w1, R1, h1, h2, h3, h4⟩ := copyEvent_spec h e hlt
    obtain ⟨w3, f1, f2⟩ := fin h3
    exact ⟨w3, R1, by show copyEventFrom w e.bytes true = _; rw [h2]; exact f1, f2, h4⟩
  | @extend e' ps l hb =>
    have hr' : e'.room = 16 + (e'.subs.map Sub.room).sum := rfl
    have hr2 : ({ e' with subs := e'.subs ++ l } : Ev).room = 16 + ((e'.subs ++ l).map Sub.room).sum := rfl
    rw [List.map_append, List.sum_append] at hr2
    obtain ⟨w1, R1, h1, h2, h3, h4⟩ := copyEvent_spec h e' (by omega)
    obtain ⟨w2, R2, k1, k2, k3⟩ := writeParts_spec hb (fun x hx => hev x (List.mem_append_right _ hx)) h3 (by omega)
    rw [← List.flatten_append, ← List.map_append] at k2
    obtain ⟨w3, f1, f2⟩ := fin k2
    refine ⟨w3, R2, ?_, f2, by omega⟩
    show andThen (copyEventFrom w e'.bytes false) (fun w => andThen (writeParts w ps) finishEvent) = _
    unfold andThen
    rw [h1]
    dsimp only
    rw [k1]
    exact f1

/-- Writing events. -/
theorem writeEntries_spec : ∀ (ts : List (Entry × Ev)) {w : Writer} {A R : List Byte}, WBetween w A R → (∀ t ∈ ts, Gives t.1 t.2 ∧ ∀ x ∈ t.2.subs, x.Even) →
    (ts.map fun t => t.2.room).sum ≤ R.length →
    ∃ w' R', writeEntries w (ts.map fun t => t.1) = some (w', true) ∧ WBetween w' (A ++ (ts.map fun t => t.2.bytes).flatten) R' ∧
      (ts.map fun t => t.2.room).sum + R'.length = R.length
  | [], w, A, R, h, _, _ => ⟨w, R, rfl, by rw [List.map_nil, List.flatten_nil, List.append_nil]; exact h, Nat.zero_add _⟩
  | t :: ts, w, A, R, h, hg, hlt => by
    rw [List.map_cons, List.sum_cons] at hlt
    obtain ⟨g1, g2⟩ := hg t (List.mem_cons_self ..)
    obtain ⟨w1, R1, h1, h2, h3⟩ := writeEntry_spec h g1 g2 (by omega)
    obtain ⟨w2, R2, k1, k2, k3⟩ := writeEntries_spec ts h2 (fun x hx => hg x (List.mem_cons_of_mem _ hx)) (by omega)
    refine ⟨w2, R2, ?_, ?_, ?_⟩
    · rw [List.map_cons]
      unfold writeEntries andThen
      rw [h1]
      exact k1
    · rw [List.map_cons, List.flatten_cons, ← List.append_assoc]
      exact k2
    · rw [List.map_cons, List.sum_cons]
      omega

end Verif.MbsIter
