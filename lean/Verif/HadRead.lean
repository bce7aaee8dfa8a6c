import Verif.HadIterLemmas
import Verif.Spec.HadWrite

/-! # Reading well-formed HADAQ events -/

namespace Verif.HadIter

open Verif.Bytes Verif.Pointer Verif.HadTu

theorem words_length (l : List Word) : (words l).length = 4 * l.length := by
  induction l with
  | nil => rfl
  | cons a l ih =>
    show (enc 4 a.toNat ++ words l).length = _
    rw [List.length_append, ih, enc_length, List.length_cons]
    omega

theorem words_cons (a : Word) (l : List Word) : words (a :: l) = enc 4 a.toNat ++ words l := rfl

theorem words_append (a b : List Word) : words (a ++ b) = words a ++ words b := by
  unfold words
  rw [List.map_append, List.flatten_append]

/-- Any bytes of the right number are words. -/
theorem exists_words : ∀ (n : Nat) (X : List Byte), X.length = 4 * n → ∃ W, W.length = n ∧ X = words W := by
  intro n
  induction n with
  | zero =>
    intro X h
    exact ⟨[], rfl, List.eq_nil_of_length_eq_zero h⟩
  | succ n ih =>
    intro X h
    obtain ⟨W, h1, h2⟩ := ih (X.drop 4) (by rw [List.length_drop]; omega)
    have h4 : (X.take 4).length = 4 := by rw [List.length_take]; omega
    refine ⟨BitVec.ofNat 32 (dec (X.take 4)) :: W, by rw [List.length_cons, h1], ?_⟩
    rw [words_cons, ← h2]
    have hlt := dec_lt (X.take 4)
    rw [h4] at hlt
    rw [BitVec.toNat_ofNat, Nat.mod_eq_of_lt (by omega)]
    have := enc_dec (X.take 4)
    rw [h4] at this
    rw [this, List.take_append_drop]

theorem word_at {A R : List Byte} {w : Word} {o l k : Nat} (h : o + k = A.length) : word [A ++ enc 4 w.toNat ++ R] (P o l) k = some w := by
  rw [word_eq (mem := [A ++ enc 4 w.toNat ++ R]) (p := P o l) (k := k) rfl (by simp [P]; omega)]
  show some (BitVec.ofNat 32 (dec (((A ++ enc 4 w.toNat ++ R).drop (o + k)).take 4))) = _
  rw [h, List.append_assoc, List.drop_left]
  have : ((enc 4 w.toNat ++ R).take 4) = enc 4 w.toNat := by
    rw [List.take_append_of_le_length (by rw [enc_length]), List.take_of_length_le (by rw [enc_length])]
  rw [this, ofNat_dec_enc]

theorem word_words {A R : List Byte} {W : List Word} {l i : Nat} {w : Word} (h : W[i]? = some w) :
    word [A ++ words W ++ R] (P A.length l) (4 * i) = some w := by
  have hi : i < W.length := by
    rcases Nat.lt_or_ge i W.length with hi | hi
    · exact hi
    · rw [List.getElem?_eq_none hi] at h; cases h
  have hw : W = W.take i ++ w :: W.drop (i + 1) := by
    rw [List.getElem?_eq_getElem hi] at h
    injection h with h
    rw [← h, ← List.drop_eq_getElem_cons hi, List.take_append_drop]
  have e : A ++ words W ++ R = (A ++ words (W.take i)) ++ enc 4 w.toNat ++ (words (W.drop (i + 1)) ++ R) := by
    conv => lhs; rw [hw]
    rw [words_append, words_cons]
    simp only [List.append_assoc]
  rw [e]
  apply word_at
  rw [List.length_append, words_length, List.length_take]
  omega

theorem getField_words {A R : List Byte} {W : List Word} {l i : Nat} {d w : Word} (hd : W[1]? = some d) (h : W[i]? = some w) :
    getField [A ++ words W ++ R] (P A.length l) (4 * i) = some (value d w) := by
  unfold getField
  have := word_words (A := A) (R := R) (l := l) hd
  rw [show (4 : Nat) = 4 * 1 from rfl, this, word_words h]

theorem sizeAt_words {A R : List Byte} {W : List Word} {d w : Word} (hd : W[1]? = some d) (h : W[0]? = some w) :
    sizeAt (A ++ words W ++ R) A.length = (value d w).toNat := by
  have hl : 2 ≤ W.length := by
    rcases Nat.lt_or_ge 1 W.length with hi | hi
    · exact hi
    · rw [List.getElem?_eq_none hi] at hd; cases hd
  have h1 := getSize_P (s := A ++ words W ++ R) (o := A.length) 0 (by rw [List.length_append, List.length_append, words_length]; omega)
  unfold getSize at h1
  have h2 := getField_words (A := A) (R := R) (l := 0) hd h
  rw [show 4 * 0 = 0 from rfl] at h2
  rw [h2] at h1
  injection h1 with h1
  exact h1.symm

theorem up8_padded {n : Nat} (h : up8 n < 2 ^ 32) : padded n = up8 n := by
  unfold up8 at *
  unfold padded
  split <;> omega

theorem up8_ge (n : Nat) : n ≤ up8 n := by unfold up8; omega

theorem up8_dvd (n : Nat) : up8 n % 8 = 0 := by unfold up8; omega

theorem Sub.bytes_length (x : Sub) : x.bytes.length = 16 + x.data.length := by
  unfold Sub.bytes
  rw [List.length_append, words_length]
  rfl

theorem SubsIn.length {l : List Sub} {B : List Byte} (h : SubsIn l B) : B.length = (l.map Sub.room).sum := by
  induction h with
  | nil => rfl
  | cons hx _ ih => rw [List.length_append, List.length_append, ih, hx, List.map_cons, List.sum_cons]

theorem SubsIn.append {a b : List Sub} {A B : List Byte} (ha : SubsIn a A) (hb : SubsIn b B) : SubsIn (a ++ b) (A ++ B) := by
  induction ha with
  | nil => exact hb
  | cons hx _ ih =>
    rw [List.append_assoc]
    exact SubsIn.cons hx ih

theorem SubsIn.mod8 {l : List Sub} {B : List Byte} (h : SubsIn l B) : B.length % 8 = 0 := by
  induction h with
  | nil => rfl
  | @cons x _ _ _ hx _ ih =>
    rw [List.length_append, List.length_append, hx]
    have := up8_dvd (16 + x.data.length)
    show (up8 (16 + x.data.length) + _) % 8 = 0
    omega

theorem EvIn.length {e : Ev} {E : List Byte} (h : EvIn e E) : E.length = e.room := by
  cases h with
  | mk hB =>
    rw [List.length_append, words_length, hB.length]
    rfl

theorem EvsIn.length {l : List Ev} {B : List Byte} (h : EvsIn l B) : B.length = (l.map Ev.room).sum := by
  induction h with
  | nil => rfl
  | cons he _ ih => rw [List.length_append, ih, he.length, List.map_cons, List.sum_cons]

theorem EvsIn.append {a b : List Ev} {A B : List Byte} (ha : EvsIn a A) (hb : EvsIn b B) : EvsIn (a ++ b) (A ++ B) := by
  induction ha with
  | nil => exact hb
  | cons hx _ ih =>
    rw [List.append_assoc]
    exact EvsIn.cons hx ih

/-- A subevent in the content. -/
theorem sub_at {A R : List Byte} {x : Sub} (hlt : 16 + x.data.length < 2 ^ 32) (l l' : Nat) :
    sizeAt (A ++ x.bytes ++ R) A.length = 16 + x.data.length ∧
    seenSub [A ++ x.bytes ++ R] (P A.length l) (P (A.length + 16) l') = x.seen := by
  have e : A ++ x.bytes ++ R = A ++ words [value x.decoding (BitVec.ofNat 32 (16 + x.data.length)), x.decoding, value x.decoding x.id, value x.decoding x.trig] ++ (x.data ++ R) := by
    unfold Sub.bytes
    simp only [List.append_assoc]
  have hsz : sizeAt (A ++ x.bytes ++ R) A.length = 16 + x.data.length := by
    rw [e, sizeAt_words (d := x.decoding) (w := value x.decoding (BitVec.ofNat 32 (16 + x.data.length))) rfl rfl, value_value, BitVec.toNat_ofNat, Nat.mod_eq_of_lt hlt]
  refine ⟨hsz, ?_⟩
  have hd : (getSize [A ++ x.bytes ++ R] (P A.length l)).bind (fun n => readMem [A ++ x.bytes ++ R] (P (A.length + 16) l') (n - 16)) = some x.data := by
    rw [getSize_P _ (by rw [List.length_append, List.length_append, Sub.bytes_length]; omega), hsz]
    show readMem [A ++ x.bytes ++ R] (P (A.length + 16) l') (16 + x.data.length - 16) = _
    have hr := readMem_eq (mem := [A ++ x.bytes ++ R]) (p := P A.length l') (s := A ++ x.bytes ++ R) rfl (k := 16) (n := x.data.length)
      (by show A.length + 16 + x.data.length ≤ _; rw [List.length_append, List.length_append, Sub.bytes_length]; omega)
    rw [show 16 + x.data.length - 16 = x.data.length by omega]
    refine hr.trans ?_
    show some (((A ++ x.bytes ++ R).drop (A.length + 16)).take x.data.length) = _
    rw [e, ← List.drop_drop]
    have e2 : A ++ words [value x.decoding (BitVec.ofNat 32 (16 + x.data.length)), x.decoding, value x.decoding x.id, value x.decoding x.trig] ++ (x.data ++ R) =
      A ++ (words [value x.decoding (BitVec.ofNat 32 (16 + x.data.length)), x.decoding, value x.decoding x.id, value x.decoding x.trig] ++ (x.data ++ R)) := by
      rw [List.append_assoc]
    rw [e2, List.drop_left, List.drop_left' (by rw [words_length]; rfl), List.take_left]
  unfold seenSub
  rw [hd, e]
  have f1 := getField_words (A := A) (R := x.data ++ R) (l := l) (i := 1)
    (W := [value x.decoding (BitVec.ofNat 32 (16 + x.data.length)), x.decoding, value x.decoding x.id, value x.decoding x.trig]) rfl rfl
  have f2 := getField_words (A := A) (R := x.data ++ R) (l := l) (i := 2)
    (W := [value x.decoding (BitVec.ofNat 32 (16 + x.data.length)), x.decoding, value x.decoding x.id, value x.decoding x.trig]) rfl rfl
  have f3 := getField_words (A := A) (R := x.data ++ R) (l := l) (i := 3)
    (W := [value x.decoding (BitVec.ofNat 32 (16 + x.data.length)), x.decoding, value x.decoding x.id, value x.decoding x.trig]) rfl rfl
  rw [value_value] at f2 f3
  rw [show 4 * 1 = 4 from rfl] at f1
  rw [show 4 * 2 = 8 from rfl] at f2
  rw [show 4 * 3 = 12 from rfl] at f3
  rw [f1, f2, f3]
  rfl

/-- Reading subevents one after the other, the first one is the current one. -/
theorem readSubs_next {subs : List Sub} : ∀ (fuel : Nat) (A S R : List Byte) (x : Sub) (r : Reader), SubsIn (x :: subs) S → subs.length < fuel →
    (A ++ S ++ R).length < 2 ^ 32 → RInv (A ++ S ++ R) r → r.sub = P A.length S.length →
    ∃ r', readSubs [A ++ S ++ R] fuel r = some (r', subs.map Sub.seen) ∧ RInv (A ++ S ++ R) r' ∧ r'.ev = r.ev ∧ r'.typ = r.typ ∧ r'.first = r.first := by
  induction subs with
  | nil =>
    intro fuel A S R x r hS hf hlen hi hsub
    obtain ⟨fuel, rfl⟩ : ∃ k, fuel = k + 1 := ⟨fuel - 1, by have : 0 < fuel := hf; omega⟩
    cases hS with
    | cons hx hnil =>
      cases hnil
      rename_i pad
      have hxl := Sub.bytes_length x
      have hroom : x.room = up8 (16 + x.data.length) := rfl
      have hrr := up8_ge (16 + x.data.length)
      simp only [List.append_nil] at *
      have e : A ++ (x.bytes ++ pad) ++ R = A ++ x.bytes ++ (pad ++ R) := by simp only [List.append_assoc]
      have hlen' := hlen
      simp only [List.length_append] at hlen'
      have hnn : isNull r.sub = false := by
        rw [hsub, isNull_P]
        apply decide_eq_false
        rw [List.length_append]
        omega
      obtain ⟨r', b, h1, h2, h3, h4, h5, h6, h7⟩ := nextSub_next hlen hi hnn
      have hsz : sizeAt (A ++ (x.bytes ++ pad) ++ R) r.sub.off = 16 + x.data.length := by
        rw [hsub, e]
        exact (sub_at (by omega) 0 0).1
      rw [hsz, up8_padded (by omega)] at h6
      have hfull : r.sub.full = (x.bytes ++ pad).length := by rw [hsub]; rfl
      rw [List.length_append] at hfull
      cases b
      · refine ⟨r', ?_, h2, h5, h3, h4⟩
        unfold readSubs
        rw [h1]
        rfl
      · obtain ⟨o, l, g1, g2, g3, g4, g5, g6⟩ := h6 rfl
        omega
  | cons y subs ih =>
    intro fuel A S R x r hS hf hlen hi hsub
    obtain ⟨fuel, rfl⟩ : ∃ k, fuel = k + 1 := ⟨fuel - 1, by rw [List.length_cons] at hf; omega⟩
    cases hS with
    | cons hx hS' =>
      rename_i pad B
      have hxl := Sub.bytes_length x
      have hroom : x.room = up8 (16 + x.data.length) := rfl
      have hrr := up8_ge (16 + x.data.length)
      have hyl : 16 + y.data.length ≤ B.length := by
        cases hS' with
        | cons hy _ =>
          have := Sub.bytes_length y
          simp only [List.length_append]
          omega
      have e : A ++ (x.bytes ++ pad ++ B) ++ R = A ++ x.bytes ++ (pad ++ B ++ R) := by simp only [List.append_assoc]
      have e2 : A ++ (x.bytes ++ pad ++ B) ++ R = (A ++ x.bytes ++ pad) ++ B ++ R := by simp only [List.append_assoc]
      have hlen' := hlen
      simp only [List.length_append] at hlen'
      have hnn : isNull r.sub = false := by
        rw [hsub, isNull_P]
        apply decide_eq_false
        simp only [List.length_append]
        omega
      obtain ⟨r', b, h1, h2, h3, h4, h5, h6, h7⟩ := nextSub_next hlen hi hnn
      have hsz : sizeAt (A ++ (x.bytes ++ pad ++ B) ++ R) r.sub.off = 16 + x.data.length := by
        rw [hsub, e]
        exact (sub_at (by omega) 0 0).1
      rw [hsz, up8_padded (by omega)] at h6 h7
      have hfull : r.sub.full = (x.bytes ++ pad ++ B).length := by rw [hsub]; rfl
      simp only [List.length_append] at hfull
      have hoff : r.sub.off = A.length := by rw [hsub]; rfl
      have hnext : r.sub.off + up8 (16 + x.data.length) = (A ++ x.bytes ++ pad).length := by
        simp only [List.length_append]
        omega
      have hy : sizeAt (A ++ (x.bytes ++ pad ++ B) ++ R) (A ++ x.bytes ++ pad).length = 16 + y.data.length ∧
          ∀ l l', seenSub [A ++ (x.bytes ++ pad ++ B) ++ R] (P (A ++ x.bytes ++ pad).length l) (P ((A ++ x.bytes ++ pad).length + 16) l') = y.seen := by
        cases hS' with
        | cons hy hB' =>
          rename_i pad' B'
          have e3 : A ++ (x.bytes ++ pad ++ (y.bytes ++ pad' ++ B')) ++ R = (A ++ x.bytes ++ pad) ++ y.bytes ++ (pad' ++ B' ++ R) := by simp only [List.append_assoc]
          rw [e3]
          have hyl' := Sub.bytes_length y
          simp only [List.length_append] at hlen'
          exact ⟨(sub_at (by omega) 0 0).1, fun l l' => (sub_at (by omega) l l').2⟩
      cases b
      · obtain ⟨f1, f2⟩ := h7 rfl
        rw [hnext, hy.1] at f2
        rcases f2 with f2 | f2
        · omega
        · omega
      · obtain ⟨o, l, g1, g2, g3, g4, g5, g6⟩ := h6 rfl
        have ho : o = (A ++ x.bytes ++ pad).length := by rw [g1]; exact hnext
        have hl : l = B.length := by
          rw [ho] at g2
          simp only [List.length_append] at g2
          omega
        have hraw : ∃ l', r'.raw = P ((A ++ x.bytes ++ pad).length + 16) l' := by
          rw [g6, ho]
          unfold rawOf
          split
          · exact ⟨_, rfl⟩
          · exact ⟨_, rfl⟩
        obtain ⟨l', hraw⟩ := hraw
        have h2' : RInv ((A ++ x.bytes ++ pad) ++ B ++ R) r' := by rw [← e2]; exact h2
        obtain ⟨r2, k1, k2, k3, k4, k5⟩ := ih fuel (A ++ x.bytes ++ pad) B R y r' hS' (by rw [List.length_cons] at hf; omega) (by rw [← e2]; exact hlen) h2'
          (by rw [g3, ho, hl])
        rw [← e2] at k1 k2
        refine ⟨r2, ?_, k2, k3.trans h5, k4.trans h3, k5.trans h4⟩
        unfold readSubs
        rw [h1]
        dsimp only
        rw [k1, g3, ho, hraw]
        show some (r2, _ :: _) = _
        rw [hy.2 l l']
        rfl

/-- Reading the subevents of the current event. -/
theorem readSubs_first {subs : List Sub} {fuel : Nat} {A B R : List Byte} {H : List Word} {r : Reader} (hB : SubsIn subs B) (hf : subs.length < fuel)
    (hH : H.length = 8) (hd : H[1]? = some 0x30001) (hz : H[0]? = some (BitVec.ofNat 32 (32 + B.length)))
    (hlen : (A ++ words H ++ B ++ R).length < 2 ^ 32) (hi : RInv (A ++ words H ++ B ++ R) r) (hev : r.ev = P A.length (32 + B.length + R.length))
    (ht : r.typ = .events) (hfirst : r.first = false) (hsub : r.sub = Ptr.null) :
    ∃ r', readSubs [A ++ words H ++ B ++ R] fuel r = some (r', subs.map Sub.seen) ∧ RInv (A ++ words H ++ B ++ R) r' ∧ r'.ev = r.ev ∧ r'.typ = r.typ ∧ r'.first = false := by
  have hWl : (words H).length = 32 := by rw [words_length, hH]
  have hlen' := hlen
  simp only [List.length_append, hWl] at hlen'
  have hoff : r.ev.off = A.length := by rw [hev]; rfl
  have hfull : r.ev.full = 32 + B.length + R.length := by rw [hev]; rfl
  have hnn : isNull r.ev = false := by
    rw [hev, isNull_P]
    exact decide_eq_false (by omega)
  have hsz : sizeAt (A ++ words H ++ B ++ R) A.length = 32 + B.length := by
    rw [List.append_assoc (A ++ words H), sizeAt_words hd hz]
    show (BitVec.ofNat 32 (32 + B.length)).toNat = _
    rw [BitVec.toNat_ofNat, Nat.mod_eq_of_lt (by omega)]
  have hm8 := hB.mod8
  have hpad : padded (32 + B.length) = 32 + B.length := by
    unfold padded
    rw [if_pos (by omega)]
  have hend : blockEnd (A ++ words H ++ B ++ R) r = A.length + (32 + B.length) := by
    unfold blockEnd
    rw [ht]
    show r.ev.off + min (padded (sizeAt _ r.ev.off)) r.ev.full = _
    rw [hoff, hsz, hpad, hfull, Nat.min_eq_left (by omega)]
  have hhs : headSize r.typ = 32 := by rw [ht]; rfl
  obtain ⟨fuel, rfl⟩ : ∃ k, fuel = k + 1 := ⟨fuel - 1, by omega⟩
  obtain ⟨r', b, h1, h2, h3, h4, h5, h6, h7⟩ := nextSub_first hlen hi (Or.inl hfirst) (by rw [hsub]; rfl) hnn
  rw [hend, hoff, hhs] at h6 h7
  cases hB with
  | nil =>
    cases b
    · refine ⟨r', ?_, h2, h5, h3, by rw [h4]; exact hfirst⟩
      unfold readSubs
      rw [h1]
      rfl
    · obtain ⟨o, l, g1, g2, g3, g4, g5, g6⟩ := h6 rfl
      have : ([] : List Byte).length = 0 := rfl
      omega
  | @cons x subs pad B' hx hB' =>
    have hxl := Sub.bytes_length x
    simp only [List.length_append] at hlen' hfull h6 h7
    have e : A ++ words H ++ (x.bytes ++ pad ++ B') ++ R = (A ++ words H) ++ x.bytes ++ (pad ++ B' ++ R) := by simp only [List.append_assoc]
    have hAl : (A ++ words H).length = A.length + 32 := by rw [List.length_append, hWl]
    have hx1 : sizeAt (A ++ words H ++ (x.bytes ++ pad ++ B') ++ R) (A.length + 32) = 16 + x.data.length := by
      rw [e, ← hAl]
      exact (sub_at (by omega) 0 0).1
    have hx2 : ∀ l l', seenSub [A ++ words H ++ (x.bytes ++ pad ++ B') ++ R] (P (A.length + 32) l) (P (A.length + 32 + 16) l') = x.seen := by
      intro l l'
      rw [e, ← hAl]
      exact (sub_at (by omega) l l').2
    cases b
    · obtain ⟨f1, f2⟩ := h7 rfl
      rw [hx1] at f2
      omega
    · obtain ⟨o, l, g1, g2, g3, g4, g5, g6⟩ := h6 rfl
      have hl : l = (x.bytes ++ pad ++ B').length := by
        simp only [List.length_append]
        omega
      obtain ⟨r2, k1, k2, k3, k4, k5⟩ := readSubs_next fuel (A ++ words H) (x.bytes ++ pad ++ B') R x r' (SubsIn.cons hx hB')
        (by rw [List.length_cons] at hf; omega) hlen h2 (by rw [g3, g1, hl, hAl])
      have hraw : ∃ l', r'.raw = P (A.length + 32 + 16) l' := by
        rw [g6, g1]
        unfold rawOf
        split
        · exact ⟨_, rfl⟩
        · exact ⟨_, rfl⟩
      obtain ⟨l', hraw⟩ := hraw
      refine ⟨r2, ?_, k2, k3.trans h5, k4.trans h3, by rw [k5, h4]; exact hfirst⟩
      unfold readSubs
      rw [h1]
      dsimp only
      rw [k1, g3, g1, hraw]
      show some (r2, _ :: _) = _
      rw [hx2]
      rfl

/-- Reading events one after the other. -/
theorem readEvents_spec (subfuel : Nat) : ∀ (es : List Ev) (fuel : Nat) (A E : List Byte) (r : Reader), EvsIn es E → es.length < fuel →
    (∀ e ∈ es, e.subs.length < subfuel) → (A ++ E).length < 2 ^ 32 → RInv (A ++ E) r → r.typ = .events → isNull r.ev = false →
    A.length = (if r.first then r.ev.off else r.ev.off + padded (sizeAt (A ++ E) r.ev.off)) → r.ev.off + r.ev.full = (A ++ E).length →
    readEvents [A ++ E] subfuel fuel r = some (es.map Ev.seen) := by
  intro es
  induction es with
  | nil =>
    intro fuel A E r hE hf _ hlen hi ht hnn hoff hfull
    obtain ⟨fuel, rfl⟩ : ∃ k, fuel = k + 1 := ⟨fuel - 1, by have : 0 < fuel := hf; omega⟩
    cases hE
    obtain ⟨r', b, h1, h2, h3, h4, h5, h6⟩ := nextBlock_spec hlen hi (hd := 32) (by omega) (by rw [ht]; rfl) hnn
    unfold readEvents nextEvent
    rw [hnn, if_neg (by decide), if_neg (fun hn => hn ht), h1]
    cases b
    · rfl
    · obtain ⟨g1, g2, g3, g4, g5⟩ := h5 rfl
      rw [← hoff] at g1
      rw [List.length_append] at hfull
      have : ([] : List Byte).length = 0 := rfl
      omega
  | cons e es ih =>
    intro fuel A E r hE hf hsf hlen hi ht hnn hoff hfull
    obtain ⟨fuel, rfl⟩ : ∃ k, fuel = k + 1 := ⟨fuel - 1, by rw [List.length_cons] at hf; omega⟩
    cases hE with
    | @cons _ _ E1 R he hR =>
      cases he with
      | @mk B hB =>
        generalize hH : ([BitVec.ofNat 32 e.room, 0x30001, 0x2001, e.seq, e.date, e.time, e.run, 0] : List Word) = H at *
        have hWl : (words H).length = 32 := by rw [words_length, ← hH]; rfl
        have hroom : e.room = 32 + B.length := by rw [hB.length]; rfl
        have eq : A ++ (words H ++ B ++ R) = A ++ words H ++ B ++ R := by simp only [List.append_assoc]
        rw [eq] at hlen hi hoff hfull ⊢
        have hlen' := hlen
        simp only [List.length_append, hWl] at hlen' hfull
        have hsz : sizeAt (A ++ words H ++ B ++ R) A.length = 32 + B.length := by
          rw [List.append_assoc (A ++ words H), sizeAt_words (d := 0x30001) (w := BitVec.ofNat 32 e.room) (by rw [← hH]; rfl) (by rw [← hH]; rfl)]
          show (BitVec.ofNat 32 e.room).toNat = _
          rw [BitVec.toNat_ofNat, hroom, Nat.mod_eq_of_lt (by omega)]
        obtain ⟨r', b, h1, h2, h3, h4, h5, h6⟩ := nextBlock_spec hlen hi (hd := 32) (by omega) (by rw [ht]; rfl) hnn
        have hne : nextEvent [A ++ words H ++ B ++ R] r = some (r', b) := by
          unfold nextEvent
          rw [hnn, if_neg (by decide), if_neg (fun hn => hn ht), h1]
        cases b
        · obtain ⟨-, o, f1, f2⟩ := h6 rfl
          rw [← hoff] at f1
          rw [f1, hsz] at f2
          omega
        · obtain ⟨g1, g2, g3, g4, g5⟩ := h5 rfl
          rw [← hoff] at g1
          have hnn' : isNull r'.ev = false := by
            cases hc : isNull r'.ev
            · rfl
            · exfalso
              rcases h2.ev with w | ⟨w1, w2, w3, w4⟩
              · rw [w] at g4
                exact absurd g4 (by decide)
              · rw [isNull, w1] at hc
                have := of_decide_eq_true (show decide (r'.ev.full = 0) = true from hc)
                omega
          have hev' := (inside_P h2.ev hnn').1
          have hf' : r'.ev.full = 32 + B.length + R.length := by omega
          rw [g1, hf'] at hev'
          obtain ⟨r2, k1, k2, k3, k4, k5⟩ := readSubs_first (subs := e.subs) (fuel := subfuel) (A := A) (B := B) (R := R) (H := H) (r := r') hB
            (hsf e (List.mem_cons_self ..)) (by rw [← hH]; rfl) (by rw [← hH]; rfl) (by rw [← hH, ← hroom]; rfl) hlen h2 hev' (by rw [h3]; exact ht) h4 g2
          have hm8 := hB.mod8
          have hpad : padded (32 + B.length) = 32 + B.length := by
            unfold padded
            rw [if_pos (by omega)]
          have eq2 : A ++ words H ++ B ++ R = (A ++ words H ++ B) ++ R := rfl
          have hi2 : RInv ((A ++ words H ++ B) ++ R) r2 := k2
          have hrest := ih fuel (A ++ words H ++ B) R r2 hR (by rw [List.length_cons] at hf; omega) (fun x hx => hsf x (List.mem_cons_of_mem _ hx))
            hlen hi2 (by rw [k4, h3]; exact ht) (by rw [k3]; exact hnn')
            (by
              rw [k5, k3, g1]
              show _ = A.length + padded (sizeAt (A ++ words H ++ B ++ R) A.length)
              rw [hsz, hpad]
              simp only [List.length_append, hWl]
              omega)
            (by
              rw [k3, g1, hf']
              simp only [List.length_append, hWl]
              omega)
          have fld : ∀ i w, H[i]? = some w → getField [A ++ words H ++ B ++ R] r'.ev (4 * i) = some w := by
            intro i w hw
            rw [hev', List.append_assoc (A ++ words H), getField_words (d := 0x30001) (by rw [← hH]; rfl) hw]
            rfl
          unfold readEvents
          rw [hne]
          dsimp only
          rw [k1]
          show ((readEvents [A ++ words H ++ B ++ R] subfuel fuel r2).map _) = _
          rw [hrest]
          show some (_ :: _) = some (_ :: _)
          have f3 := fld 3 e.seq (by rw [← hH]; rfl)
          have f6 := fld 6 e.run (by rw [← hH]; rfl)
          have f2 := fld 2 0x2001 (by rw [← hH]; rfl)
          have f4 := fld 4 e.date (by rw [← hH]; rfl)
          have f5 := fld 5 e.time (by rw [← hH]; rfl)
          simp only [Nat.reduceMul] at f3 f6 f2 f4 f5
          rw [f3, f6, f2, f4, f5]
          rfl

/-- Reading a buffer with events. -/
theorem read_all {es : List Ev} {E : List Byte} (hE : EvsIn es E) {fuel subfuel : Nat} (hf : es.length < fuel) (hs : ∀ e ∈ es, e.subs.length < subfuel)
    (hlen : E.length < 2 ^ 32) : readEvents [E] subfuel fuel (reset [E] .events).1 = some (es.map Ev.seen) := by
  have hr : (reset [E] .events).1 = { closed with ev := P 0 E.length, first := true, typ := .events } := by
    unfold reset
    rw [if_neg (by decide), start_P]
  have hi := reset_inv E .events
  by_cases h0 : E.length = 0
  · have hn : isNull (reset [E] .events).1.ev = true := by
      rw [hr]
      exact decide_eq_true h0
    obtain ⟨fuel, rfl⟩ : ∃ k, fuel = k + 1 := ⟨fuel - 1, by omega⟩
    unfold readEvents nextEvent
    rw [hn, if_pos rfl]
    cases hE with
    | nil => rfl
    | cons he _ =>
      cases he
      rw [List.length_append, List.length_append, words_length] at h0
      exact absurd h0 (by simp)
  · have hnn : isNull (reset [E] .events).1.ev = false := by
      rw [hr]
      exact decide_eq_false h0
    exact readEvents_spec subfuel es fuel [] E _ hE hf hs hlen hi (by rw [hr]) hnn (by rw [hr]; rfl) (by rw [hr]; exact Nat.zero_add _)

end Verif.HadIter
