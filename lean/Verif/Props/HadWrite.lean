import Verif.HadWrite

/-! # C32: events written by the HADAQ write iterator are read back -/

namespace Verif.HadIter

open Verif.Bytes Verif.Pointer Verif.HadTu

/-- Start of writing: a buffer with one segment. -/
theorem wreset_between {s : List Byte} (h : 48 ≤ s.length) (hs : s.length < 2 ^ 32) :
    (wreset [s]).2 = true ∧ WBetween (wreset [s]).1 [] s := by
  have e : wreset [s] = ({ noWriter with mem := [s], isBuf := true }, true) := by
    unfold wreset
    rw [if_neg]
    show ¬ ([s.length].sum < 48)
    simp only [List.sum_cons, List.sum_nil]
    omega
  rw [e]
  refine ⟨rfl, rfl, Or.inr ⟨rfl, rfl⟩, rfl, rfl, ?_⟩
  show 0 + s.length < 2 ^ 32
  omega

theorem wclose_between {w : Writer} {E R : List Byte} (h : WBetween w E R) (hE : 0 < E.length) : wclose w = [E] := by
  unfold wclose
  rw [h.full, h.mem, if_pos]
  · show (if E.length = 0 then [] else if E.length ≤ (E ++ R).length then [(E ++ R).take E.length] else _) = _
    rw [if_neg (by omega), if_pos (by rw [List.length_append]; omega), List.take_left]
  · refine ⟨hE, ?_⟩
    show [(E ++ R).length].sum ≥ E.length
    simp only [List.sum_cons, List.sum_nil, List.length_append]
    omega

theorem EvsIn.pos {es : List Ev} {E : List Byte} (h : EvsIn es E) (hne : es ≠ []) : 0 < E.length := by
  cases h with
  | nil => exact absurd rfl hne
  | cons he _ =>
    have := he.length
    rw [List.length_append]
    unfold Ev.room at this
    omega

/-- **C32** (bytes). Events, brought in any mix of filled and copied subevents, that together need less than the size of the
buffer are all accepted, and the closed buffer has the bytes of exactly these events in the HADAQ format.
Partial: one segment, and at least one byte of the buffer has to stay free (`C32_exact_counterexample`). -/
theorem C32_bytes_partial {s : List Byte} (h48 : 48 ≤ s.length) (hs : s.length < 2 ^ 32) {es : List (Ev × List Part)} (hne : es ≠ [])
    (hb : ∀ e ∈ es, Brings e.2 e.1.subs) (hroom : (es.map fun e => e.1.room).sum < s.length) :
    ∃ w E, writeEvents (wreset [s]).1 es = some (w, true) ∧ wclose w = [E] ∧ EvsIn (es.map fun e => e.1) E := by
  obtain ⟨w, E, R, h1, h2, h3, -⟩ := writeEvents_spec es (wreset_between h48 hs).2 hb hroom
  rw [List.nil_append] at h3
  exact ⟨w, E, h1, wclose_between h3 (h2.pos (by simpa using hne)), h2⟩

/-- **C32** (read back). Reading the closed buffer gives the events that were written: numbers, byte order, ids, trigger
numbers and data of every subevent, in order, and nothing else. Partial as `C32_bytes_partial`. -/
theorem C32_roundtrip_partial {s : List Byte} (h48 : 48 ≤ s.length) (hs : s.length < 2 ^ 32) {es : List (Ev × List Part)} (hne : es ≠ [])
    (hb : ∀ e ∈ es, Brings e.2 e.1.subs) (hroom : (es.map fun e => e.1.room).sum < s.length) :
    ∃ w, writeEvents (wreset [s]).1 es = some (w, true) ∧
      ∀ fuel subfuel, es.length < fuel → (∀ e ∈ es, e.1.subs.length < subfuel) →
        readEvents (wclose w) subfuel fuel (reset (wclose w) .events).1 = some (es.map fun e => e.1.seen) := by
  obtain ⟨w, E, R, h1, h2, h3, h4⟩ := writeEvents_spec es (wreset_between h48 hs).2 hb hroom
  rw [List.nil_append] at h3
  refine ⟨w, h1, fun fuel subfuel hf hsub => ?_⟩
  rw [wclose_between h3 (h2.pos (by simpa using hne)), read_all h2 (by simpa using hf) (by simpa using hsub) (by omega), List.map_map]
  rfl

/-- **C32** (reading). Whatever wrote them: bytes of events in the HADAQ format are read as these events, whatever the padding
bytes are. -/
theorem C32_read {es : List Ev} {E : List Byte} (hE : EvsIn es E) (hlen : E.length < 2 ^ 32) {fuel subfuel : Nat} (hf : es.length < fuel)
    (hs : ∀ e ∈ es, e.subs.length < subfuel) : readEvents [E] subfuel fuel (reset [E] .events).1 = some (es.map Ev.seen) :=
  read_all hE hf hs hlen

theorem numLoop_spec : ∀ (es : List Ev) (fuel : Nat) (A E : List Byte) (r : Reader) (n : Nat), EvsIn es E → es.length < fuel →
    (A ++ E).length < 2 ^ 32 → RInv (A ++ E) r → r.typ = .events → isNull r.ev = false →
    A.length = (if r.first then r.ev.off else r.ev.off + padded (sizeAt (A ++ E) r.ev.off)) → r.ev.off + r.ev.full = (A ++ E).length →
    numLoop [A ++ E] fuel r n = some (n + es.length) := by
  intro es
  induction es with
  | nil =>
    intro fuel A E r n hE hf hlen hi ht hnn hoff hfull
    obtain ⟨fuel, rfl⟩ : ∃ k, fuel = k + 1 := ⟨fuel - 1, by have : 0 < fuel := hf; omega⟩
    cases hE
    obtain ⟨r', b, h1, h2, h3, h4, h5, h6⟩ := nextBlock_spec hlen hi (hd := 32) (by omega) (by rw [ht]; rfl) hnn
    unfold numLoop nextEvent
    rw [hnn, if_neg (by decide), if_neg (fun hn => hn ht), h1]
    cases b
    · rfl
    · obtain ⟨g1, g2, g3, g4, g5⟩ := h5 rfl
      rw [← hoff] at g1
      rw [List.length_append] at hfull
      have : ([] : List Byte).length = 0 := rfl
      omega
  | cons e es ih =>
    intro fuel A E r n hE hf hlen hi ht hnn hoff hfull
    obtain ⟨fuel, rfl⟩ : ∃ k, fuel = k + 1 := ⟨fuel - 1, by rw [List.length_cons] at hf; omega⟩
    cases hE with
    | @cons _ _ E1 R he hR =>
      have hEl := he.length
      cases he with
      | @mk B hB =>
        generalize hH : ([BitVec.ofNat 32 e.room, 0x30001, 0x2001, e.seq, e.date, e.time, e.run, 0] : List Word) = H at *
        have hWl : (words H).length = 32 := by rw [words_length, ← hH]; rfl
        have hroom : e.room = 32 + B.length := by rw [hB.length]; rfl
        have eq : A ++ (words H ++ B ++ R) = A ++ words H ++ (B ++ R) := by simp only [List.append_assoc]
        have hlen' := hlen
        simp only [List.length_append, hWl] at hlen' hfull
        have hsz : sizeAt (A ++ (words H ++ B ++ R)) A.length = 32 + B.length := by
          rw [eq, sizeAt_words (d := 0x30001) (w := BitVec.ofNat 32 e.room) (by rw [← hH]; rfl) (by rw [← hH]; rfl)]
          show (BitVec.ofNat 32 e.room).toNat = _
          rw [BitVec.toNat_ofNat, hroom, Nat.mod_eq_of_lt (by omega)]
        obtain ⟨r', b, h1, h2, h3, h4, h5, h6⟩ := nextBlock_spec hlen hi (hd := 32) (by omega) (by rw [ht]; rfl) hnn
        have hne : nextEvent [A ++ (words H ++ B ++ R)] r = some (r', b) := by
          unfold nextEvent
          rw [hnn, if_neg (by decide), if_neg (fun hn => hn ht), h1]
        cases b
        · obtain ⟨-, o, f1, f2⟩ := h6 rfl
          rw [← hoff] at f1
          rw [f1, hsz] at f2
          omega
        · obtain ⟨g1, g2, g3, g4, g5⟩ := h5 rfl
          rw [← hoff] at g1
          have hnn' : isNull r'.ev = false := by
            cases hc : isNull r'.ev
            · rfl
            · exfalso
              rcases h2.ev with w | ⟨w1, w2, w3, w4⟩
              · rw [w] at g4
                exact absurd g4 (by decide)
              · rw [isNull, w1] at hc
                have := of_decide_eq_true (show decide (r'.ev.full = 0) = true from hc)
                omega
          have hm8 := hB.mod8
          have hpad : padded (32 + B.length) = 32 + B.length := by
            unfold padded
            rw [if_pos (by omega)]
          have eq2 : A ++ (words H ++ B ++ R) = (A ++ (words H ++ B)) ++ R := by simp only [List.append_assoc]
          unfold numLoop
          rw [hne]
          dsimp only
          rw [eq2] at hlen h2 ⊢
          rw [ih fuel (A ++ (words H ++ B)) R r' (n + 1) hR (by rw [List.length_cons] at hf; omega) hlen h2 (by rw [h3]; exact ht) hnn'
            (by
              rw [h4, g1, ← eq2]
              show _ = A.length + padded (sizeAt (A ++ (words H ++ B ++ R)) A.length)
              rw [hsz, hpad]
              simp only [List.length_append, hWl])
            (by
              simp only [List.length_append, hWl]
              omega), List.length_cons]
          congr 1
          omega

/-- **C32** (number). `NumEvents` is the number of events. -/
theorem C32_count {es : List Ev} {E : List Byte} (hE : EvsIn es E) (hlen : E.length < 2 ^ 32) {fuel : Nat} (hf : es.length < fuel) :
    numEvents [E] fuel = some es.length := by
  have hr : (reset [E] .events).1 = { closed with ev := P 0 E.length, first := true, typ := .events } := by
    unfold reset
    rw [if_neg (by decide), start_P]
  have hi := reset_inv E .events
  unfold numEvents
  by_cases h0 : E.length = 0
  · have hn : isNull (reset [E] .events).1.ev = true := by
      rw [hr]
      exact decide_eq_true h0
    obtain ⟨fuel, rfl⟩ : ∃ k, fuel = k + 1 := ⟨fuel - 1, by omega⟩
    unfold numLoop nextEvent
    rw [hn, if_pos rfl]
    cases es with
    | nil => rfl
    | cons e es =>
      have := hE.pos (by simp)
      omega
  · have hnn : isNull (reset [E] .events).1.ev = false := by
      rw [hr]
      exact decide_eq_false h0
    exact (numLoop_spec es fuel [] E _ 0 hE hf hlen hi (by rw [hr]) hnn (by rw [hr]; rfl) (by rw [hr]; exact Nat.zero_add _)).trans (by rw [Nat.zero_add])

theorem place_between {w : Writer} {A R : List Byte} (h : WBetween w A R) (hR : R ≠ []) (n : Nat) (seq run date time : Word) :
    (isPlace w n = true ↔ 32 + n ≤ R.length) ∧ ∃ w', newEvent w seq run n date time = some (w', isPlace w n) := by
  have hRl : 0 < R.length := List.length_pos_iff.mpr hR
  have hp : (if isNull w.ev then (sizesOf w.mem).sum else w.ev.full) = R.length := by
    rcases h.ev with hv | ⟨hA, hv⟩
    · rw [hv, isNull_P, if_neg (by simp only [decide_eq_true_eq]; omega)]
      rfl
    · rw [hv, if_pos isNull_null, h.mem, hA]
      show [R.length].sum = _
      rw [List.sum_singleton]
  have hev : (if isNull w.ev then start (sizesOf w.mem) else w.ev) = P A.length R.length := by
    rcases h.ev with hv | ⟨hA, hv⟩
    · rw [hv, isNull_P, if_neg (by simp only [decide_eq_true_eq]; omega)]
    · rw [hv, if_pos isNull_null, h.mem, start_P, hA, List.nil_append]
      rfl
  have hpl : isPlace w n = decide (R.length ≥ 32 + n) := by
    unfold isPlace
    rw [hp]
  refine ⟨by rw [hpl]; exact decide_eq_true_iff, ?_⟩
  unfold newEvent
  rw [h.buf, if_neg (by decide), hev, hpl]
  dsimp only
  by_cases hlt : R.length < 32 + n
  · rw [if_pos (show (P A.length R.length).full < 32 + n from hlt), decide_eq_false (by omega)]
    exact ⟨_, rfl⟩
  · rw [if_neg (show ¬ (P A.length R.length).full < 32 + n from hlt), decide_eq_true (by omega)]
    obtain ⟨X, R1, rfl, hX⟩ := split_at (n := 32) (R := R) (by omega)
    rw [h.mem, ← List.append_assoc, initEvent_spec _ hX]
    exact ⟨_, rfl⟩

/-- **C32** (place). After any events `IsPlaceForEvent` tells exactly whether an event with subevents of this size fits into the
rest of the buffer, and `NewEvent` accepts it then. Partial as `C32_bytes_partial`. -/
theorem C32_place_partial {s : List Byte} (h48 : 48 ≤ s.length) (hs : s.length < 2 ^ 32) {es : List (Ev × List Part)}
    (hb : ∀ e ∈ es, Brings e.2 e.1.subs) (hroom : (es.map fun e => e.1.room).sum < s.length) (n : Nat) (seq run date time : Word) :
    ∃ w, writeEvents (wreset [s]).1 es = some (w, true) ∧ (isPlace w n = true ↔ (es.map fun e => e.1.room).sum + 32 + n ≤ s.length) ∧
      ∃ w', newEvent w seq run n date time = some (w', isPlace w n) := by
  obtain ⟨w, E, R, h1, h2, h3, h4⟩ := writeEvents_spec es (wreset_between h48 hs).2 hb hroom
  have hEl := h2.length
  rw [List.map_map] at hEl
  have hEl' : E.length = (es.map fun e => e.1.room).sum := hEl
  obtain ⟨k1, k2⟩ := place_between h3 (R := R) (by intro hn; rw [hn, List.length_nil] at h4; omega) n seq run date time
  exact ⟨w, h1, by rw [k1]; omega, k2⟩

theorem walk_spec {A R B0 : List Byte} {H : List Word} {T : Nat} (hH : H.length = 8) (hd : H[1]? = some 0x30001)
    (hz : H[0]? = some (BitVec.ofNat 32 T)) (hT : T < 2 ^ 32) (l : Nat) : ∀ (subs : List Sub) (fuel : Nat) (C B : List Byte), B0 = C ++ B → T = 32 + B0.length →
    SubsIn subs B → subs.length < fuel → ∀ k, k = 32 + C.length →
    walk [A ++ words H ++ B0 ++ R] (P A.length l) fuel (if subs = [] then none else some k) = some (positions k subs) := by
  have hWl : (words H).length = 32 := by rw [words_length, hH]
  intro subs
  induction subs with
  | nil =>
    intro fuel C B _ _ _ hf k _
    obtain ⟨fuel, rfl⟩ : ∃ k, fuel = k + 1 := ⟨fuel - 1, by have : 0 < fuel := hf; omega⟩
    rfl
  | cons x subs ih =>
    intro fuel C B hB0 hT0 hB hf k hk
    obtain ⟨fuel, rfl⟩ : ∃ k, fuel = k + 1 := ⟨fuel - 1, by rw [List.length_cons] at hf; omega⟩
    rw [if_neg (by simp)]
    cases hB with
    | @cons _ _ pad B' hx hB' =>
      have hxl := Sub.bytes_length x
      have hl0 : B0.length = C.length + (x.room + B'.length) := by
        rw [hB0]
        simp only [List.length_append]
        omega
      have hge : 16 ≤ x.room := by
        have := up8_ge (16 + x.data.length)
        unfold Sub.room
        omega
      have e : A ++ words H ++ B0 ++ R = (A ++ words H ++ C) ++ x.bytes ++ (pad ++ B' ++ R) := by
        rw [hB0]
        simp only [List.append_assoc]
      have hCl : (A ++ words H ++ C).length = A.length + k := by
        simp only [List.length_append, hWl]
        omega
      have hsub : getPadded [A ++ words H ++ B0 ++ R] { P A.length l with off := (P A.length l).off + k } = some x.room := by
        show getPadded [A ++ words H ++ B0 ++ R] { P A.length l with off := A.length + k } = some x.room
        have := getPadded_P (s := A ++ words H ++ B0 ++ R) (o := A.length + k) l (by simp only [List.length_append, hWl]; omega)
        refine this.trans ?_
        have hs : sizeAt (A ++ words H ++ B0 ++ R) (A.length + k) = 16 + x.data.length := by
          rw [e, ← hCl]
          exact (sub_at (by have := up8_ge (16 + x.data.length); unfold Sub.room at hl0; omega) 0 0).1
        rw [hs, up8_padded (by unfold Sub.room at hl0; omega)]
        rfl
      have hsize : getSize [A ++ words H ++ B0 ++ R] (P A.length l) = some T := by
        rw [getSize_P _ (by simp only [List.length_append, hWl]; omega), List.append_assoc (A ++ words H), sizeAt_words hd hz]
        show some (BitVec.ofNat 32 T).toNat = _
        rw [BitVec.toNat_ofNat, Nat.mod_eq_of_lt hT]
      have hnext : nextSubevent [A ++ words H ++ B0 ++ R] (P A.length l) k = some (if subs = [] then none else some (k + x.room)) := by
        unfold nextSubevent
        rw [hsub, hsize]
        show some (if k + x.room ≥ T then none else some (k + x.room)) = _
        have hB'l := hB'.length
        cases subs with
        | nil =>
          cases hB'
          have : ([] : List Byte).length = 0 := rfl
          rw [if_pos (by omega), if_pos rfl]
        | cons y ys =>
          rw [List.map_cons, List.sum_cons] at hB'l
          have : 16 ≤ y.room := by
            have := up8_ge (16 + y.data.length)
            unfold Sub.room
            omega
          rw [if_neg (by omega), if_neg (by simp)]
      unfold walk
      rw [hnext]
      dsimp only [Option.bind_some]
      rw [ih fuel (C ++ (x.bytes ++ pad)) B' (by rw [hB0]; simp only [List.append_assoc]) hT0 hB' (by rw [List.length_cons] at hf; omega) (k + x.room)
        (by simp only [List.length_append]; omega)]
      rfl

/-- **C32** (event by itself). Going through an event with `FirstSubevent` and `NextSubevent` visits exactly its subevents, and
`AllSubeventsSize` is their size. -/
theorem C32_walk {e : Ev} {E : List Byte} (hE : EvIn e E) (hlen : E.length < 2 ^ 32) (A R : List Byte) (l : Nat) {fuel : Nat} (hf : e.subs.length < fuel) :
    (firstSubevent [A ++ E ++ R] (P A.length l)).bind (walk [A ++ E ++ R] (P A.length l) fuel) = some (positions 32 e.subs) ∧
      allSubeventsSize [A ++ E ++ R] (P A.length l) = some ((e.subs.map Sub.room).sum) := by
  have hEl := hE.length
  cases hE with
  | @mk B hB =>
    have hBl := hB.length
    have hroom : e.room = 32 + B.length := by rw [hB.length]; rfl
    generalize hH : ([BitVec.ofNat 32 e.room, 0x30001, 0x2001, e.seq, e.date, e.time, e.run, 0] : List Word) = H at *
    have hWl : (words H).length = 32 := by rw [words_length, ← hH]; rfl
    rw [List.length_append, hWl] at hlen
    have eq : A ++ (words H ++ B) ++ R = A ++ words H ++ B ++ R := by simp only [List.append_assoc]
    rw [eq]
    have hsz : sizeAt (A ++ words H ++ B ++ R) A.length = e.room := by
      rw [List.append_assoc (A ++ words H), sizeAt_words (d := 0x30001) (w := BitVec.ofNat 32 e.room) (by rw [← hH]; rfl) (by rw [← hH]; rfl)]
      show (BitVec.ofNat 32 e.room).toNat = _
      rw [BitVec.toNat_ofNat, Nat.mod_eq_of_lt (by omega)]
    have hm8 := hB.mod8
    constructor
    · have hfirst : firstSubevent [A ++ words H ++ B ++ R] (P A.length l) = some (if e.subs = [] then none else some 32) := by
        unfold firstSubevent
        rw [getSize_P _ (by simp only [List.length_append, hWl]; omega), hsz, hroom]
        show some (if sub32 (32 + B.length) 32 < 16 then none else some 32) = _
        rw [sub32_eq (by omega) (by omega)]
        cases hs : e.subs with
        | nil =>
          rw [hs] at hBl
          have : B.length = 0 := hBl
          rw [if_pos (by omega), if_pos rfl]
        | cons y ys =>
          rw [hs, List.map_cons, List.sum_cons] at hBl
          have : 16 ≤ y.room := by
            have := up8_ge (16 + y.data.length)
            unfold Sub.room
            omega
          rw [if_neg (by omega), if_neg (by simp)]
      rw [hfirst]
      exact walk_spec (T := e.room) (by rw [← hH]; rfl) (by rw [← hH]; rfl) (by rw [← hH]; rfl) (by omega) l e.subs fuel [] B rfl hroom hB hf 32 rfl
    · unfold allSubeventsSize
      rw [getPadded_P _ (by simp only [List.length_append, hWl]; omega), hsz, hroom]
      show some (if padded (32 + B.length) < 32 then 0 else padded (32 + B.length) - 32) = _
      have hp : padded (32 + B.length) = 32 + B.length := by
        unfold padded
        rw [if_pos (by omega)]
      rw [hp, if_neg (by omega), ← hBl]
      congr 1
      omega

/-- A subevent with eight bytes in the byte order of the machine. -/
def oneSub : Sub := { decoding := 0x20001, id := 7, trig := 5, data := [1, 2, 3, 4, 5, 6, 7, 8] }

/-- An event with this subevent: needs 56 bytes. -/
def oneEv : Ev := { seq := 1, run := 2, date := 3, time := 4, subs := [oneSub] }

/-- Number of subevents of each event read, for a written buffer. -/
def countsAfter (s : List Byte) (es : List (Ev × List Part)) : Option (Bool × List Nat) :=
  (writeEvents (wreset [s]).1 es).bind fun q =>
    (readEvents (wclose q.1) 10 10 (reset (wclose q.1) .events).1).map fun l => (q.2, l.map fun e => e.subs.length)

/-- An event that fills the buffer exactly: all calls return `true`, but its subevents are lost, as the subevent pointer at the
end of the buffer is null and `FinishEvent` then takes the event as empty. With one byte more all is well. -/
theorem C32_exact_counterexample : countsAfter (List.replicate 56 0) [(oneEv, [.fill oneSub])] = some (true, [0]) ∧
    countsAfter (List.replicate 57 0) [(oneEv, [.fill oneSub])] = some (true, [1]) := by
  decide +kernel

/-- An event after the buffer is filled exactly: `NewEvent` starts again at the begin of the buffer and overwrites the first
event, instead of being refused. -/
theorem C32_restart_counterexample : ∃ w, writeEvents (wreset [List.replicate 64 0]).1 [(⟨1, 0, 0, 0, []⟩, []), (⟨2, 0, 0, 0, []⟩, []), (⟨3, 0, 0, 0, []⟩, [])] = some (w, true) ∧
    getField w.mem (P 0 32) 12 = some 3 := by
  exact ⟨_, rfl, by decide +kernel⟩

/-- Closing without any event: the old content stays in the buffer. -/
theorem C32_empty_counterexample : (wclose (wreset [List.replicate 64 0]).1) = [List.replicate 64 0] := by
  decide +kernel

example : ∃ w, writeEvents (wreset [List.replicate 200 9]).1 [(oneEv, [.fill oneSub]), (oneEv, [.copy oneSub.bytes])] = some (w, true) ∧
    ∀ fuel subfuel, 2 < fuel → (∀ e ∈ [(oneEv, [Part.fill oneSub]), (oneEv, [.copy oneSub.bytes])], e.1.subs.length < subfuel) →
      readEvents (wclose w) subfuel fuel (reset (wclose w) .events).1 = some [oneEv.seen, oneEv.seen] :=
  C32_roundtrip_partial (s := List.replicate 200 9) (by rw [List.length_replicate]; omega) (by rw [List.length_replicate]; omega) (es := [(oneEv, [.fill oneSub]), (oneEv, [.copy oneSub.bytes])]) (by simp)
    (by
      intro e he
      simp only [List.mem_cons, List.not_mem_nil, or_false] at he
      rcases he with rfl | rfl
      · exact Brings.fill Brings.nil
      · have := Brings.copy (a := [oneSub]) (SubsIn.cons (pad := []) (by decide) SubsIn.nil) Brings.nil
        rw [List.append_nil, List.append_nil, List.append_nil] at this
        exact this)
    (by rw [List.length_replicate]; decide)

end Verif.HadIter
