import Verif.MbsIterLemmas

/-! # Reading well-formed MBS events -/

namespace Verif.MbsIter

open Verif.Bytes Verif.Pointer Verif.HadTu
open Verif.HadIter (isNull resetTo words Inside P start_P inside_P isNull_null isNull_P Inside_P Inside_null shift_P shift_P_gt setFull_P resetTo_full resetTo_pos
  words_length words_cons words_append word_words)

theorem sizeAt_words {A R : List Byte} {W : List Word} {w : Word} (h : W[0]? = some w) :
    sizeAt (A ++ words W ++ R) A.length = (8 + 2 * w.toNat) % 2 ^ 32 := by
  have hl : 1 ≤ W.length := by
    rcases Nat.lt_or_ge 0 W.length with hi | hi
    · exact hi
    · rw [List.getElem?_eq_none hi] at h; cases h
  have h1 := fullSize_P (s := A ++ words W ++ R) (o := A.length) 0 (by rw [List.length_append, List.length_append, words_length]; omega)
  unfold fullSize at h1
  have h2 := word_words (A := A) (R := R) (l := 0) h
  rw [show 4 * 0 = 0 from rfl] at h2
  rw [h2] at h1
  injection h1 with h1
  rw [← h1, Nat.mul_comm]

theorem Sub.bytes_length (x : Sub) : x.bytes.length = x.room := by
  unfold Sub.bytes Sub.room
  rw [List.length_append, words_length]
  rfl

theorem flat_length (l : List Sub) : (l.map Sub.bytes).flatten.length = (l.map Sub.room).sum := by
  induction l with
  | nil => rfl
  | cons x l ih => rw [List.map_cons, List.flatten_cons, List.length_append, ih, Sub.bytes_length, List.map_cons, List.sum_cons]

theorem rooms_even : ∀ (l : List Sub), (∀ x ∈ l, x.Even) → (l.map Sub.room).sum % 2 = 0
  | [], _ => rfl
  | x :: l, h => by
    have h1 : x.data.length % 2 = 0 := h x (List.mem_cons_self ..)
    have h2 := rooms_even l fun y hy => h y (List.mem_cons_of_mem _ hy)
    rw [List.map_cons, List.sum_cons]
    have : x.room = 12 + x.data.length := rfl
    omega

theorem Ev.bytes_length (e : Ev) : e.bytes.length = e.room := by
  unfold Ev.bytes Ev.room
  rw [List.length_append, words_length, flat_length]
  rfl

theorem evs_length (l : List Ev) : (l.map Ev.bytes).flatten.length = (l.map Ev.room).sum := by
  induction l with
  | nil => rfl
  | cons x l ih => rw [List.map_cons, List.flatten_cons, List.length_append, ih, Ev.bytes_length, List.map_cons, List.sum_cons]

/-- A subevent in the content. -/
theorem sub_at {A R : List Byte} {x : Sub} (hx : x.Even) (hlt : x.room < 2 ^ 32) :
    sizeAt (A ++ x.bytes ++ R) A.length = x.room ∧
    ∀ l, seenSub [A ++ x.bytes ++ R] (P A.length l) (P (A.length + 12) x.data.length) = x.seen := by
  have hroom : x.room = 12 + x.data.length := rfl
  have hx : x.data.length % 2 = 0 := hx
  have e : A ++ x.bytes ++ R = A ++ words [BitVec.ofNat 32 (2 + x.data.length / 2), 0x1000a, x.id] ++ (x.data ++ R) := by
    unfold Sub.bytes
    simp only [List.append_assoc]
  refine ⟨?_, fun l => ?_⟩
  · have hm : (2 + x.data.length / 2) % 2 ^ 32 = 2 + x.data.length / 2 := Nat.mod_eq_of_lt (by omega)
    rw [e, sizeAt_words (w := BitVec.ofNat 32 (2 + x.data.length / 2)) rfl, BitVec.toNat_ofNat, hm]
    rw [Nat.mod_eq_of_lt (by omega)]
    omega
  · have hd : readMem [A ++ x.bytes ++ R] (P (A.length + 12) x.data.length) x.data.length = some x.data := by
      have hr := readMem_eq (mem := [A ++ x.bytes ++ R]) (p := P A.length x.data.length) (s := A ++ x.bytes ++ R) rfl (k := 12) (n := x.data.length)
        (by show A.length + 12 + x.data.length ≤ _; rw [List.length_append, List.length_append, Sub.bytes_length]; omega)
      refine hr.trans ?_
      show some (((A ++ x.bytes ++ R).drop (A.length + 12)).take x.data.length) = _
      rw [e, ← List.drop_drop]
      have e2 : A ++ words [BitVec.ofNat 32 (2 + x.data.length / 2), 0x1000a, x.id] ++ (x.data ++ R) =
        A ++ (words [BitVec.ofNat 32 (2 + x.data.length / 2), 0x1000a, x.id] ++ (x.data ++ R)) := by
        rw [List.append_assoc]
      rw [e2, List.drop_left, List.drop_left' (by rw [words_length]; rfl), List.take_left]
    unfold seenSub
    rw [show (P (A.length + 12) x.data.length).full = x.data.length from rfl, hd, e]
    have f1 := word_words (A := A) (R := x.data ++ R) (l := l) (i := 1) (W := [BitVec.ofNat 32 (2 + x.data.length / 2), 0x1000a, x.id]) rfl
    have f2 := word_words (A := A) (R := x.data ++ R) (l := l) (i := 2) (W := [BitVec.ofNat 32 (2 + x.data.length / 2), 0x1000a, x.id]) rfl
    rw [show 4 * 1 = 4 from rfl] at f1
    rw [show 4 * 2 = 8 from rfl] at f2
    rw [f1, f2]
    rfl

/-- Reading subevents one after the other, the first one is the current one. -/
theorem readSubs_next {subs : List Sub} : ∀ (fuel : Nat) (A R : List Byte) (x : Sub) (r : Reader) (s : List Byte),
    s = A ++ (x.bytes ++ (subs.map Sub.bytes).flatten) ++ R → (∀ y ∈ x :: subs, y.Even) → subs.length < fuel →
    s.length < 2 ^ 32 → RInv s r → r.sub = P A.length (x.room + (subs.map Sub.room).sum) →
    ∃ r', readSubs [s] fuel r = some (r', subs.map Sub.seen) ∧ RInv s r' ∧ r'.ev = r.ev ∧ r'.first = r.first := by
  induction subs with
  | nil =>
    intro fuel A R x r s hs hev hf hlen hi hsub
    obtain ⟨fuel, rfl⟩ : ∃ k, fuel = k + 1 := ⟨fuel - 1, by have : 0 < fuel := hf; omega⟩
    have hroom : x.room = 12 + x.data.length := rfl
    have hxl := Sub.bytes_length x
    have hlen' := hlen
    rw [hs] at hlen'
    simp only [List.map_nil, List.flatten_nil, List.append_nil, List.length_append] at hlen' hs
    rw [List.map_nil, List.sum_nil, Nat.add_zero] at hsub
    have hnn : isNull r.sub = false := by
      rw [hsub, isNull_P]
      exact decide_eq_false (by omega)
    obtain ⟨r', b, h1, h2, h3, h4, h5, h6⟩ := nextSub_next hlen hi hnn
    have hsz : sizeAt s r.sub.off = x.room := by
      rw [hsub, hs]
      exact (sub_at (hev x (List.mem_cons_self ..)) (by omega)).1
    have hfull : r.sub.full = x.room := by rw [hsub]; rfl
    rw [hsz] at h5
    cases b
    · refine ⟨r', ?_, h2, h4, h3⟩
      unfold readSubs
      rw [h1]
      rfl
    · obtain ⟨o, l, g1, g2, g3, g4, g5, g6⟩ := h5 rfl
      omega
  | cons y subs ih =>
    intro fuel A R x r s hs hev hf hlen hi hsub
    obtain ⟨fuel, rfl⟩ : ∃ k, fuel = k + 1 := ⟨fuel - 1, by rw [List.length_cons] at hf; omega⟩
    have hroom : x.room = 12 + x.data.length := rfl
    have hroomy : y.room = 12 + y.data.length := rfl
    have hxl := Sub.bytes_length x
    have hyl := Sub.bytes_length y
    rw [List.map_cons, List.flatten_cons] at hs
    have hfl := flat_length subs
    have hlen' := hlen
    rw [hs] at hlen'
    simp only [List.length_append] at hlen'
    rw [List.map_cons, List.sum_cons] at hsub
    have hnn : isNull r.sub = false := by
      rw [hsub, isNull_P]
      exact decide_eq_false (by omega)
    obtain ⟨r', b, h1, h2, h3, h4, h5, h6⟩ := nextSub_next hlen hi hnn
    have e1 : s = A ++ x.bytes ++ (y.bytes ++ (subs.map Sub.bytes).flatten ++ R) := by rw [hs]; simp only [List.append_assoc]
    have e2 : s = (A ++ x.bytes) ++ y.bytes ++ ((subs.map Sub.bytes).flatten ++ R) := by rw [hs]; simp only [List.append_assoc]
    have e3 : s = (A ++ x.bytes) ++ (y.bytes ++ (subs.map Sub.bytes).flatten) ++ R := by rw [hs]; simp only [List.append_assoc]
    have hsz : sizeAt s r.sub.off = x.room := by
      rw [hsub, e1]
      exact (sub_at (hev x (List.mem_cons_self ..)) (by omega)).1
    have hAx : (A ++ x.bytes).length = A.length + x.room := by rw [List.length_append, hxl]
    have hy := sub_at (A := A ++ x.bytes) (R := (subs.map Sub.bytes).flatten ++ R) (hev y (List.mem_cons_of_mem _ (List.mem_cons_self ..))) (by omega)
    rw [← e2, hAx] at hy
    have hoff : r.sub.off = A.length := by rw [hsub]; rfl
    have hfull : r.sub.full = x.room + (y.room + (subs.map Sub.room).sum) := by rw [hsub]; rfl
    rw [hsz, hoff] at h5 h6
    cases b
    · obtain ⟨f1, f2⟩ := h6 rfl
      rw [hy.1] at f2
      omega
    · obtain ⟨o, l, g1, g2, g3, g4, g5, g6⟩ := h5 rfl
      subst g1
      have hl : l = y.room + (subs.map Sub.room).sum := by omega
      subst hl
      rw [hy.1, Nat.min_eq_right (by omega), show y.room - 12 = y.data.length by omega] at g6
      obtain ⟨r2, k1, k2, k3, k4⟩ := ih fuel (A ++ x.bytes) R y r' s e3 (fun z hz => hev z (List.mem_cons_of_mem _ hz)) (by rw [List.length_cons] at hf; omega) hlen h2
        (by rw [g3, hAx])
      refine ⟨r2, ?_, k2, k3.trans h4, k4.trans h3⟩
      unfold readSubs
      rw [h1]
      dsimp only
      rw [k1, g3, g6]
      show some (r2, _ :: _) = _
      rw [hy.2]
      rfl

/-- Reading the subevents of the current event. -/
theorem readSubs_first {e : Ev} {fuel : Nat} {A R : List Byte} {r : Reader} {s : List Byte} (hs : s = A ++ e.bytes ++ R) (hev : ∀ x ∈ e.subs, x.Even) (hf : e.subs.length < fuel)
    (hlen : s.length < 2 ^ 32) (hi : RInv s r) (hr : r.ev = P A.length (e.room + R.length)) (hfirst : r.first = false) (hsub : r.sub = Ptr.null) :
    sizeAt s A.length = e.room ∧
    ∃ r', readSubs [s] fuel r = some (r', e.subs.map Sub.seen) ∧ RInv s r' ∧ r'.ev = r.ev ∧ r'.first = false := by
  obtain ⟨trig, number, subs⟩ := e
  dsimp only at hev hf ⊢
  have hroom : ({ trig := trig, number := number, subs := subs } : Ev).room = 16 + (subs.map Sub.room).sum := rfl
  rw [hroom] at hr ⊢
  have hes := rooms_even subs hev
  have hfl := flat_length subs
  unfold Ev.bytes at hs
  dsimp only at hs
  generalize hH : ([BitVec.ofNat 32 (4 + (subs.map Sub.room).sum / 2), 0x1000a, trig, number] : List Word) = H at hs
  have hWl : (words H).length = 16 := by rw [words_length, ← hH]; rfl
  have hlen' := hlen
  rw [hs] at hlen'
  simp only [List.length_append, hWl] at hlen'
  have e0 : s = A ++ words H ++ ((subs.map Sub.bytes).flatten ++ R) := by rw [hs]; simp only [List.append_assoc]
  have hsz : sizeAt s A.length = 16 + (subs.map Sub.room).sum := by
    have hm : (4 + (subs.map Sub.room).sum / 2) % 2 ^ 32 = 4 + (subs.map Sub.room).sum / 2 := Nat.mod_eq_of_lt (by omega)
    rw [e0, sizeAt_words (w := BitVec.ofNat 32 (4 + (subs.map Sub.room).sum / 2)) (by rw [← hH]; rfl), BitVec.toNat_ofNat, hm, Nat.mod_eq_of_lt (by omega)]
    omega
  refine ⟨hsz, ?_⟩
  have hoff : r.ev.off = A.length := by rw [hr]; rfl
  have hnn : isNull r.ev = false := by
    rw [hr, isNull_P]
    exact decide_eq_false (by omega)
  obtain ⟨fuel, rfl⟩ : ∃ k, fuel = k + 1 := ⟨fuel - 1, by omega⟩
  obtain ⟨r', b, h1, h2, h3, h4, h5, h6⟩ := nextSub_first hlen hi hfirst (by rw [hsub]; rfl) hnn
  rw [hoff, hsz] at h5 h6
  cases subs with
  | nil =>
    cases b
    · refine ⟨r', ?_, h2, h4, h3⟩
      unfold readSubs
      rw [h1]
      rfl
    · obtain ⟨l, g1, g2, g3, g4, g5⟩ := h5 rfl
      rw [List.map_nil, List.sum_nil] at g1
      omega
  | cons x subs =>
    have hxl := Sub.bytes_length x
    have hroomx : x.room = 12 + x.data.length := rfl
    have hfs := flat_length subs
    rw [List.map_cons, List.sum_cons] at h5 h6
    rw [List.map_cons, List.flatten_cons] at e0
    simp only [List.map_cons, List.flatten_cons, List.length_append] at hlen'
    have e1 : s = (A ++ words H) ++ x.bytes ++ ((subs.map Sub.bytes).flatten ++ R) := by rw [e0]; simp only [List.append_assoc]
    have e2 : s = (A ++ words H) ++ (x.bytes ++ (subs.map Sub.bytes).flatten) ++ R := by rw [e0]; simp only [List.append_assoc]
    have hAl : (A ++ words H).length = A.length + 16 := by rw [List.length_append, hWl]
    have hx := sub_at (A := A ++ words H) (R := (subs.map Sub.bytes).flatten ++ R) (hev x (List.mem_cons_self ..)) (by omega)
    rw [← e1, hAl] at hx
    rw [hx.1] at h5 h6
    cases b
    · obtain ⟨f1, f2⟩ := h6 rfl
      omega
    · obtain ⟨l, g1, g2, g3, g4, g5⟩ := h5 rfl
      have hl : l = x.room + (subs.map Sub.room).sum := by omega
      subst hl
      rw [Nat.min_eq_right (by omega), show x.room - 12 = x.data.length by omega] at g5
      obtain ⟨r2, k1, k2, k3, k4⟩ := readSubs_next fuel (A ++ words H) R x r' s e2 hev (by rw [List.length_cons] at hf; omega) hlen h2 (by rw [g2, hAl])
      refine ⟨r2, ?_, k2, k3.trans h4, k4.trans h3⟩
      unfold readSubs
      rw [h1]
      dsimp only
      rw [k1, g2, g5]
      show some (r2, _ :: _) = _
      rw [hx.2]
      rfl

theorem ev_fields {e : Ev} {A R : List Byte} (l : Nat) :
    word [A ++ e.bytes ++ R] (P A.length l) 4 = some 0x1000a ∧ word [A ++ e.bytes ++ R] (P A.length l) 8 = some e.trig ∧
    word [A ++ e.bytes ++ R] (P A.length l) 12 = some e.number := by
  have e0 : A ++ e.bytes ++ R = A ++ words [BitVec.ofNat 32 (4 + (e.subs.map Sub.room).sum / 2), 0x1000a, e.trig, e.number] ++ ((e.subs.map Sub.bytes).flatten ++ R) := by
    unfold Ev.bytes
    simp only [List.append_assoc]
  rw [e0]
  exact ⟨word_words (i := 1) rfl, word_words (i := 2) rfl, word_words (i := 3) rfl⟩

/-- Reading events one after the other. -/
theorem readEvents_spec (subfuel : Nat) : ∀ (es : List Ev) (fuel : Nat) (A : List Byte) (r : Reader) (s : List Byte), s = A ++ (es.map Ev.bytes).flatten → es.length < fuel →
    (∀ e ∈ es, e.subs.length < subfuel ∧ ∀ x ∈ e.subs, x.Even) → s.length < 2 ^ 32 → RInv s r → isNull r.ev = false →
    A.length = nextOff s r → r.ev.off + r.ev.full = s.length → readEvents [s] subfuel fuel r = some (es.map Ev.seen) := by
  intro es
  induction es with
  | nil =>
    intro fuel A r s hs hf _ hlen hi hnn hoff hfull
    obtain ⟨fuel, rfl⟩ : ∃ k, fuel = k + 1 := ⟨fuel - 1, by have : 0 < fuel := hf; omega⟩
    rw [List.map_nil, List.flatten_nil, List.append_nil] at hs
    obtain ⟨r', b, h1, h2, h3, h4, h5⟩ := nextEvent_spec hlen hi hnn
    unfold readEvents
    rw [h1]
    cases b
    · rfl
    · obtain ⟨g1, g2, g3, g4, g5⟩ := h4 rfl
      rw [← hoff, hfull, hs] at g3
      omega
  | cons e es ih =>
    intro fuel A r s hs hf hsf hlen hi hnn hoff hfull
    obtain ⟨fuel, rfl⟩ : ∃ k, fuel = k + 1 := ⟨fuel - 1, by rw [List.length_cons] at hf; omega⟩
    have hroom : e.room = 16 + (e.subs.map Sub.room).sum := rfl
    rw [List.map_cons, List.flatten_cons, ← List.append_assoc] at hs
    have hel := Ev.bytes_length e
    have hlen' := hlen
    rw [hs] at hlen'
    simp only [List.length_append] at hlen'
    have hsl : s.length = A.length + e.room + ((es.map Ev.bytes).flatten).length := by rw [hs]; simp only [List.length_append, hel]
    obtain ⟨hsf1, hsf2⟩ := hsf e (List.mem_cons_self ..)
    obtain ⟨r', b, h1, h2, h3, h4, h5⟩ := nextEvent_spec hlen hi hnn
    rw [← hoff] at h4 h5
    have hsz : sizeAt s A.length = e.room := by
      have hes := rooms_even e.subs hsf2
      have e0 : s = A ++ words [BitVec.ofNat 32 (4 + (e.subs.map Sub.room).sum / 2), 0x1000a, e.trig, e.number] ++ ((e.subs.map Sub.bytes).flatten ++ (es.map Ev.bytes).flatten) := by
        rw [hs]
        unfold Ev.bytes
        simp only [List.append_assoc]
      have hm : (4 + (e.subs.map Sub.room).sum / 2) % 2 ^ 32 = 4 + (e.subs.map Sub.room).sum / 2 := Nat.mod_eq_of_lt (by omega)
      rw [e0, sizeAt_words (w := BitVec.ofNat 32 (4 + (e.subs.map Sub.room).sum / 2)) rfl, BitVec.toNat_ofNat, hm, Nat.mod_eq_of_lt (by omega)]
      omega
    cases b
    · obtain ⟨-, f2⟩ := h5 rfl
      rw [hsz] at f2
      omega
    · obtain ⟨g1, g2, g3, g4, g5⟩ := h4 rfl
      have hfl : r'.ev.full = e.room + ((es.map Ev.bytes).flatten).length := by omega
      rw [hfl] at g1
      obtain ⟨-, r2, k1, k2, k3, k4⟩ := readSubs_first (fuel := subfuel) hs hsf2 hsf1 hlen h2 g1 h3 g2
      have hr2 : r2.ev = P A.length (e.room + ((es.map Ev.bytes).flatten).length) := k3.trans g1
      have hn2 : nextOff s r2 = (A ++ e.bytes).length := by
        unfold nextOff
        rw [k4, hr2]
        show A.length + sizeAt s A.length = _
        rw [hsz, List.length_append, hel]
      have hfin := ih fuel (A ++ e.bytes) r2 s hs (by rw [List.length_cons] at hf; omega) (fun x hx => hsf x (List.mem_cons_of_mem _ hx)) hlen k2
        (by rw [hr2, isNull_P]; exact decide_eq_false (by omega)) hn2.symm (by rw [hr2]; show A.length + (e.room + _) = _; omega)
      unfold readEvents
      rw [h1]
      dsimp only
      rw [k1]
      show ((readEvents [s] subfuel fuel r2).map fun l => _ :: l) = _
      rw [hfin, g1]
      obtain ⟨w1, w2, w3⟩ := ev_fields (e := e) (A := A) (R := (es.map Ev.bytes).flatten) (e.room + ((es.map Ev.bytes).flatten).length)
      rw [← hs] at w1 w2 w3
      rw [w1, w2, w3]
      rfl

end Verif.MbsIter
