import Verif.MbsWrite

/-! # C33 (MBS read iterator stays inside of its buffer) and C39 (MBS events written are read back) -/

namespace Verif.MbsIter

open Verif.Bytes Verif.Pointer Verif.HadTu
open Verif.HadIter (cut isNull resetTo words Inside P start_P inside_P isNull_null isNull_P Inside_P Inside_null)

/-! ## Reading any content -/

/-- **C33** (MBS). On a buffer with one segment and any content, whatever calls are done in the proper order: no call reads outside of the
buffer, and the event, subevent and raw data pointers given out cover only memory of the buffer. -/
theorem C33_mbs_inside_partial {s : List Byte} (hs : s.length < 2 ^ 32) {typed : Bool} {r : Reader} (h : Reached [s] typed r) :
    (∀ c : Call, c.Allowed r → ∃ r' b, c.run [s] r = some (r', b)) ∧
    Inside s.length r.ev ∧ Inside s.length r.sub ∧ Inside s.length r.raw := by
  have hi := reached_inv hs h
  refine ⟨fun c hc => ?_, hi.ev, hi.sub, hi.raw⟩
  obtain ⟨r', b, h1, -⟩ := call_inv hs hi c hc
  exact ⟨r', b, h1⟩

/-- The pointers on the current event and on its subevents cover only memory of the buffer. -/
theorem C33_mbs_pointers {s : List Byte} (hs : s.length < 2 ^ 32) {typed : Bool} {r : Reader} (h : Reached [s] typed r) (hf : r.first = false) :
    (∃ p b, assignEventPointer [s] r = some (p, b) ∧ Inside s.length p) ∧ ∃ q, getSubeventsPointer [s] r = some q ∧ Inside s.length q := by
  have hi := reached_inv hs h
  refine ⟨?_, subsPointer_spec hs hi hf⟩
  cases hev : isNull r.ev
  · obtain ⟨-, -, h3, h4, h5⟩ := fullSize_ev hi hf hev
    refine ⟨_, _, assign_spec hi hf hev, Inside_P ?_⟩
    split <;> omega
  · unfold assignEventPointer
    rw [if_pos hev]
    exact ⟨_, _, rfl, Inside_null _⟩

/-- An event that is found has its header in the buffer, lies where the previous one ends, and the size given in the header does not
exceed the rest of the buffer. -/
theorem C33_mbs_event {s : List Byte} (hs : s.length < 2 ^ 32) {typed : Bool} {r r' : Reader} (h : Reached [s] typed r)
    (hc : nextEvent [s] r = some (r', true)) :
    r'.ev.off + 16 ≤ s.length ∧ r'.ev.off + sizeAt s r'.ev.off ≤ s.length ∧ r'.sub = Ptr.null ∧ r'.first = false ∧
    r'.ev.off = (if r.first then r.ev.off else r.ev.off + sizeAt s r.ev.off) := by
  have hi := reached_inv hs h
  cases hev : isNull r.ev
  · obtain ⟨r2, b, h1, h2, h3, h4, -⟩ := nextEvent_spec hs hi hev
    rw [h1] at hc
    injection hc with hc
    injection hc with hc hb
    subst hc hb
    obtain ⟨g1, g2, g3, g4, g5⟩ := h4 rfl
    have hoff : r2.ev.off = nextOff s r := by rw [g1]; rfl
    have := (inside_P hi.ev hev).2.2
    rw [hoff]
    exact ⟨by omega, by omega, g2, h3, rfl⟩
  · rw [nextEvent_null hev] at hc
    injection hc with hc
    injection hc with _ hc
    cases hc

/-- A subevent that is found lies behind the header of its event and inside of the event, its header is complete, it begins where the
one before ends, and the raw data follow the header, are inside of the event and have at most the size given in the header. -/
theorem C33_mbs_nested {s : List Byte} (hs : s.length < 2 ^ 32) {typed : Bool} {r r' : Reader} (h : Reached [s] typed r)
    (hf : r.first = false) (hev : isNull r.ev = false) (hc : nextSubEvent [s] r = some (r', true)) :
    r'.ev = r.ev ∧ r.ev.off + 16 ≤ r'.sub.off ∧ r'.sub.off + 12 ≤ r.ev.off + sizeAt s r.ev.off ∧ 12 ≤ sizeAt s r'.sub.off ∧
    r'.sub.off = (if isNull r.sub then r.ev.off + 16 else r.sub.off + sizeAt s r.sub.off) ∧
    r'.raw.off = r'.sub.off + 12 ∧ r'.raw.off + r'.raw.full ≤ r.ev.off + sizeAt s r.ev.off ∧ r'.raw.full + 12 ≤ sizeAt s r'.sub.off := by
  have hi := reached_inv hs h
  cases hsub : isNull r.sub
  · obtain ⟨r2, b, h1, -, -, h5, h6, -⟩ := nextSub_next hs hi hsub
    rw [h1] at hc
    injection hc with hc
    injection hc with hc hb
    subst hc hb
    obtain ⟨o, l, g1, g2, g3, g4, g5, g6⟩ := h6 rfl
    have hw : r.ev.off + 16 ≤ r.sub.off ∧ r.sub.off + r.sub.full ≤ r.ev.off + sizeAt s r.ev.off := by
      rcases hi.within with w | w | w
      · rw [hsub] at w; cases w
      · rw [hev] at w; cases w
      · exact w
    rw [g3, g6]
    show _ ∧ _ ≤ o ∧ o + 12 ≤ _ ∧ _ ≤ sizeAt s o ∧ o = r.sub.off + _ ∧ o + 12 = o + 12 ∧ o + 12 + (min l (sizeAt s o) - 12) ≤ _ ∧ min l (sizeAt s o) - 12 + 12 ≤ sizeAt s o
    exact ⟨h5, by omega, by omega, g4, g1, rfl, by omega, by omega⟩
  · obtain ⟨r2, b, h1, -, -, h5, h6, -⟩ := nextSub_first hs hi hf hsub hev
    rw [h1] at hc
    injection hc with hc
    injection hc with hc hb
    subst hc hb
    obtain ⟨l, g2, g3, g4, g5, g6⟩ := h6 rfl
    rw [g3, g6]
    generalize hz : sizeAt s (r.ev.off + 16) = z at *
    show _ ∧ _ ≤ r.ev.off + 16 ∧ r.ev.off + 16 + 12 ≤ _ ∧ _ ≤ sizeAt s (r.ev.off + 16) ∧ r.ev.off + 16 = r.ev.off + 16 ∧ r.ev.off + 16 + 12 = r.ev.off + 16 + 12 ∧
      r.ev.off + 16 + 12 + (min l z - 12) ≤ _ ∧ min l z - 12 + 12 ≤ sizeAt s (r.ev.off + 16)
    rw [hz]
    exact ⟨h5, by omega, by omega, g4, rfl, rfl, by omega, by omega⟩

/-- When no further subevent is found, there is none: the rest of the event has no room for a header, or the header there claims
less than its own size. -/
theorem C33_mbs_subs_complete {s : List Byte} (hs : s.length < 2 ^ 32) {typed : Bool} {r r' : Reader} (h : Reached [s] typed r)
    (hf : r.first = false) (hev : isNull r.ev = false) (hc : nextSubEvent [s] r = some (r', false)) :
    (isNull r.sub = true → sizeAt s r.ev.off < 28 ∨ sizeAt s (r.ev.off + 16) < 12) ∧
    (isNull r.sub = false → r.sub.full < sizeAt s r.sub.off + 12 ∨ sizeAt s (r.sub.off + sizeAt s r.sub.off) < 12) := by
  have hi := reached_inv hs h
  constructor
  · intro hsub
    obtain ⟨r2, b, h1, -, -, -, -, h7⟩ := nextSub_first hs hi hf hsub hev
    rw [h1] at hc
    injection hc with hc
    injection hc with hc hb
    exact (h7 hb).2
  · intro hsub
    obtain ⟨r2, b, h1, -, -, -, -, h7⟩ := nextSub_next hs hi hsub
    rw [h1] at hc
    injection hc with hc
    injection hc with hc hb
    exact (h7 hb).2

/-- Loop `while (NextSubEvent())` for at most `fuel` calls: the subevents (offset and size of the raw data); `none` also
for more calls. -/
def subLoop (mem : Mem) : Nat → Reader → Option (List (Nat × Nat))
  | 0, _ => none
  | fuel + 1, r =>
    match nextSubEvent mem r with
    | none => none
    | some (r, true) => (subLoop mem fuel r).map fun l => (r.raw.off, r.raw.full) :: l
    | some (_, false) => some []

/-- Going through the subevents ends, whatever the content. -/
theorem C33_mbs_subevents_end {s : List Byte} (hs : s.length < 2 ^ 32) {typed : Bool} {r : Reader} (h : Reached [s] typed r) (hf : r.first = false) :
    ∃ l, subLoop [s] (s.length / 12 + 2) r = some l := by
  have main : ∀ fuel, ∀ r, RInv s r → isNull r.sub = false → r.sub.full < 12 * fuel → ∃ l, subLoop [s] fuel r = some l := by
    intro fuel
    induction fuel with
    | zero =>
      intro r _ _ hlt
      omega
    | succ fuel ih =>
      intro r hi hsub hlt
      obtain ⟨r', b, h1, h2, -, -, h6, -⟩ := nextSub_next hs hi hsub
      unfold subLoop
      rw [h1]
      cases b
      · exact ⟨[], rfl⟩
      · obtain ⟨o, l, g1, g2, g3, g4, g5, g6⟩ := h6 rfl
        have hsz : 12 ≤ sizeAt s r.sub.off := by
          rcases hi.subFit with w | w
          · rw [hsub] at w; cases w
          · exact w.2
        obtain ⟨L, hL⟩ := ih r' h2 (by rw [g3, isNull_P]; exact decide_eq_false (by omega)) (by rw [g3]; show l < _; omega)
        dsimp only
        rw [hL]
        exact ⟨_, rfl⟩
  have hi := reached_inv hs h
  have hfull : ∀ q : Ptr, Inside s.length q → q.full ≤ s.length := by
    intro q hq
    rcases hq with hq | ⟨_, _, _, hq⟩
    · rw [hq]; exact Nat.zero_le _
    · omega
  cases hsub : isNull r.sub
  · exact main _ r hi hsub (by have := hfull _ hi.sub; omega)
  · show ∃ l, subLoop [s] (s.length / 12 + 1 + 1) r = some l
    unfold subLoop
    cases hev : isNull r.ev
    · obtain ⟨r', b, k1, k2, -, -, k6, -⟩ := nextSub_first hs hi hf hsub hev
      rw [k1]
      cases b
      · exact ⟨[], rfl⟩
      · dsimp only
        obtain ⟨l, g2, g3, g4, g5, g6⟩ := k6 rfl
        obtain ⟨L, hL⟩ := main (s.length / 12 + 1) r' k2 (by rw [g3, isNull_P]; exact decide_eq_false (by omega)) (by have := hfull _ k2.sub; omega)
        rw [hL]
        exact ⟨_, rfl⟩
    · rw [nextSub_null hsub hev]
      exact ⟨[], rfl⟩

/-- Counting the events of a buffer ends, unless an event is met whose size comes out as zero. -/
theorem C33_mbs_events_end_partial {s : List Byte} (hs : s.length < 2 ^ 32)
    (hz : ∀ r, Reached [s] true r → r.first = false → isNull r.ev = false → sizeAt s r.ev.off ≠ 0) :
    ∃ n, numEvents [s] (s.length + 2) = some n ∧ n ≤ s.length + 1 := by
  have main : ∀ fuel cnt, ∀ r, Reached [s] true r → r.first = false → r.ev.full < fuel → ∃ n, numLoop [s] fuel r cnt = some n ∧ n < cnt + fuel := by
    intro fuel
    induction fuel with
    | zero =>
      intro cnt r _ _ hlt
      omega
    | succ fuel ih =>
      intro cnt r hre hf hlt
      have hi := reached_inv hs hre
      unfold numLoop
      cases hev : isNull r.ev
      · obtain ⟨r', b, h1, h2, h3, h4, -⟩ := nextEvent_spec hs hi hev
        rw [h1]
        cases b
        · exact ⟨cnt, rfl, by omega⟩
        · obtain ⟨g1, g2, g3, g4, g5⟩ := h4 rfl
          have hne := hz r hre hf hev
          have hno : nextOff s r = r.ev.off + sizeAt s r.ev.off := by unfold nextOff; rw [hf]; rfl
          obtain ⟨n, e1, e2⟩ := ih (cnt + 1) r' (Reached.call .event hre trivial h1) h3 (by omega)
          exact ⟨n, e1, by omega⟩
      · rw [nextEvent_null hev]
        exact ⟨cnt, rfl, by omega⟩
  have hi := reset_inv s true
  have hr : (reset [s] true).1 = { closed with ev := P 0 s.length, first := true } := by
    unfold reset
    rw [if_pos rfl, start_P]
  unfold numEvents
  show ∃ n, numLoop [s] (s.length + 1 + 1) _ 0 = some n ∧ _
  unfold numLoop
  cases hev : isNull (reset [s] true).1.ev
  · obtain ⟨r', b, h1, h2, h3, h4, -⟩ := nextEvent_spec hs hi hev
    rw [h1]
    cases b
    · exact ⟨0, rfl, by omega⟩
    · obtain ⟨g1, g2, g3, g4, g5⟩ := h4 rfl
      have hno : nextOff s (reset [s] true).1 = 0 := by rw [hr]; rfl
      have hfl : (reset [s] true).1.ev.full = s.length := by rw [hr]; rfl
      have hof : (reset [s] true).1.ev.off = 0 := by rw [hr]; rfl
      obtain ⟨n, e1, e2⟩ := main (s.length + 1) 1 r' (Reached.call .event .reset trivial h1) h3 (by omega)
      exact ⟨n, e1, by omega⟩
  · rw [nextEvent_null hev]
    exact ⟨0, rfl, by omega⟩

/-! ## Writing and reading -/

theorem wreset_between {s : List Byte} (h : 28 ≤ s.length) (hs : s.length < 2 ^ 32) :
    (wreset Ptr.null [s]).2 = true ∧ WBetween (wreset Ptr.null [s]).1 [] s := by
  have e : wreset Ptr.null [s] = ({ mem := [s], ev := start [s.length], sub := Ptr.null, data := Ptr.null, full := 0 }, true) := by
    unfold wreset
    rw [if_neg]
    · rfl
    · show ¬ ([s.length].sum < 28)
      simp only [List.sum_cons, List.sum_nil]
      omega
  rw [e]
  exact ⟨rfl, ⟨rfl, start_P s, rfl, rfl, rfl, by show 0 + _ < _; omega⟩⟩

theorem cut_between {E R : List Byte} (hE : 0 < E.length) :
    (if E.length > 0 ∧ (sizesOf [E ++ R]).sum ≥ E.length then cut [E ++ R] E.length else [E ++ R]) = [E] := by
  rw [if_pos]
  · show (if E.length = 0 then [] else if E.length ≤ (E ++ R).length then [(E ++ R).take E.length] else _) = _
    rw [if_neg (by omega), if_pos (by rw [List.length_append]; omega), List.take_left]
  · refine ⟨hE, ?_⟩
    show [(E ++ R).length].sum ≥ E.length
    simp only [List.sum_cons, List.sum_nil, List.length_append]
    omega

theorem wclose_between {w : Writer} {E R : List Byte} (h : WBetween w E R) (hE : 0 < E.length) : wclose w = some [E] := by
  unfold wclose
  rw [h.data, if_pos rfl]
  dsimp only [Option.bind_some]
  rw [h.sub, if_pos rfl]
  dsimp only [Option.map_some]
  rw [h.full, h.mem, cut_between hE]

theorem read_all {es : List Ev} (hlen : ((es.map Ev.bytes).flatten).length < 2 ^ 32) {fuel subfuel : Nat} (hf : es.length < fuel)
    (hs : ∀ e ∈ es, e.subs.length < subfuel ∧ ∀ x ∈ e.subs, x.Even) :
    readEvents [(es.map Ev.bytes).flatten] subfuel fuel (reset [(es.map Ev.bytes).flatten] true).1 = some (es.map Ev.seen) := by
  have hi := reset_inv (es.map Ev.bytes).flatten true
  have hr : ∀ E : List Byte, (reset [E] true).1 = { closed with ev := P 0 E.length, first := true } := by
    intro E
    unfold reset
    rw [if_pos rfl, start_P]
  rw [hr] at hi ⊢
  by_cases h0 : (es.map Ev.bytes).flatten.length = 0
  · have hes : es = [] := by
      cases es with
      | nil => rfl
      | cons e es =>
        have := e.bytes_length
        have h2 : e.room = 16 + (e.subs.map Sub.room).sum := rfl
        rw [List.map_cons, List.flatten_cons, List.length_append] at h0
        omega
    subst hes
    obtain ⟨fuel, rfl⟩ : ∃ k, fuel = k + 1 := ⟨fuel - 1, by have : 0 < fuel := hf; omega⟩
    rfl
  · exact readEvents_spec subfuel es fuel [] _ _ rfl hf hs hlen hi (by rw [isNull_P]; exact decide_eq_false h0) rfl (Nat.zero_add _)

/-- **C39** (bytes). Whatever content and size the buffer has: writing any events whose total size does not exceed it succeeds, and the closed
buffer has exactly the bytes of these events. Partial: the data of every subevent have an even number of bytes, the buffer has one
segment, the pointer of a previous subevent is not left in the iterator, and every event is finished. -/
theorem C39_bytes_partial {s : List Byte} (h28 : 28 ≤ s.length) (hs : s.length < 2 ^ 32) {ts : List (Entry × Ev)} (hne : ts ≠ [])
    (hg : ∀ t ∈ ts, Gives t.1 t.2 ∧ ∀ x ∈ t.2.subs, x.Even) (hroom : (ts.map fun t => t.2.room).sum ≤ s.length) :
    ∃ w, writeEntries (wreset Ptr.null [s]).1 (ts.map fun t => t.1) = some (w, true) ∧ wclose w = some [(ts.map fun t => t.2.bytes).flatten] := by
  obtain ⟨w, R, h1, h2, h3⟩ := writeEntries_spec ts (wreset_between h28 hs).2 hg hroom
  rw [List.nil_append] at h2
  refine ⟨w, h1, wclose_between h2 ?_⟩
  cases ts with
  | nil => exact absurd rfl hne
  | cons t ts =>
    have := t.2.bytes_length
    have h2 : t.2.room = 16 + (t.2.subs.map Sub.room).sum := rfl
    rw [List.map_cons, List.flatten_cons, List.length_append]
    omega

/-- **C39** (read back). Reading the closed buffer gives the events that were written, in order and nothing else: numbers, triggers, and
the type, id and data of every subevent. Partial as `C39_bytes_partial`. -/
theorem C39_roundtrip_partial {s : List Byte} (h28 : 28 ≤ s.length) (hs : s.length < 2 ^ 32) {ts : List (Entry × Ev)} (hne : ts ≠ [])
    (hg : ∀ t ∈ ts, Gives t.1 t.2 ∧ ∀ x ∈ t.2.subs, x.Even) (hroom : (ts.map fun t => t.2.room).sum ≤ s.length) :
    ∃ w m, writeEntries (wreset Ptr.null [s]).1 (ts.map fun t => t.1) = some (w, true) ∧ wclose w = some m ∧
      ∀ fuel subfuel, ts.length < fuel → (∀ t ∈ ts, t.2.subs.length < subfuel) →
        readEvents m subfuel fuel (reset m true).1 = some (ts.map fun t => t.2.seen) := by
  obtain ⟨w, h1, h2⟩ := C39_bytes_partial h28 hs hne hg hroom
  refine ⟨w, _, h1, h2, fun fuel subfuel hf hsub => ?_⟩
  have e : (ts.map fun t => t.2.bytes) = (ts.map fun t => t.2).map Ev.bytes := by rw [List.map_map]; rfl
  have e2 : (ts.map fun t => t.2.room) = (ts.map fun t => t.2).map Ev.room := by rw [List.map_map]; rfl
  have hl := evs_length (ts.map fun t => t.2)
  rw [e2] at hroom
  rw [e, read_all (by omega) (by simpa using hf) ?_, List.map_map]
  · rfl
  · intro x hx
    obtain ⟨t, ht, rfl⟩ := List.mem_map.1 hx
    exact ⟨hsub t ht, (hg t ht).2⟩

/-- Any buffer with the bytes of events, from whatever source, is read as these events. -/
theorem C39_read {es : List Ev} (hlen : (es.map Ev.room).sum < 2 ^ 32) (hev : ∀ e ∈ es, ∀ x ∈ e.subs, x.Even) {fuel subfuel : Nat} (hf : es.length < fuel)
    (hs : ∀ e ∈ es, e.subs.length < subfuel) :
    readEvents [(es.map Ev.bytes).flatten] subfuel fuel (reset [(es.map Ev.bytes).flatten] true).1 = some (es.map Ev.seen) :=
  read_all (by rw [evs_length]; exact hlen) hf fun e he => ⟨hs e he, hev e he⟩

theorem checkSub_keeps {mem : Mem} {r r' : Reader} {q : Ptr} {b : Bool} (h : checkSub mem r q = some (r', b)) : r'.ev = r.ev ∧ r'.first = r.first := by
  unfold checkSub at h
  split at h
  · injection h with h; injection h with h _; subst h; exact ⟨rfl, rfl⟩
  · split at h
    · cases h
    · split at h
      · injection h with h; injection h with h _; subst h; exact ⟨rfl, rfl⟩
      · split at h
        · cases h
        · rename_i raw _
          cases hs : shift (sizesOf mem) raw 12 with
          | none => rw [hs] at h; cases h
          | some q => rw [hs] at h; injection h with h; injection h with h _; subst h; exact ⟨rfl, rfl⟩

theorem nextSub_keeps {mem : Mem} {r r' : Reader} {b : Bool} (h : nextSubEvent mem r = some (r', b)) : r'.ev = r.ev ∧ r'.first = r.first := by
  unfold nextSubEvent at h
  split at h
  · split at h
    · injection h with h; injection h with h _; subst h; exact ⟨rfl, rfl⟩
    · split at h
      · cases h
      · split at h
        · injection h with h; injection h with h _; subst h; exact ⟨rfl, rfl⟩
        · split at h
          · cases h
          · split at h
            · cases h
            · exact checkSub_keeps h
  · split at h
    · cases h
    · split at h
      · cases h
      · exact checkSub_keeps h

theorem readSubs_keeps {mem : Mem} : ∀ {fuel : Nat} {r : Reader} {q : Reader × List SubSeen}, readSubs mem fuel r = some q → q.1.ev = r.ev ∧ q.1.first = r.first
  | 0, _, _, h => by cases h
  | fuel + 1, r, q, h => by
    unfold readSubs at h
    cases hn : nextSubEvent mem r with
    | none => rw [hn] at h; cases h
    | some x =>
      obtain ⟨r1, b⟩ := x
      have hk := nextSub_keeps hn
      rw [hn] at h
      cases b
      · injection h with h; subst h; exact hk
      · dsimp only at h
        cases hr : readSubs mem fuel r1 with
        | none => rw [hr] at h; cases h
        | some q1 =>
          rw [hr] at h
          injection h with h
          subst h
          have := readSubs_keeps hr
          exact ⟨this.1.trans hk.1, this.2.trans hk.2⟩

/-- The next event does not depend on the subevents. -/
theorem nextEvent_same {mem : Mem} {r1 r2 : Reader} (he : r1.ev = r2.ev) (hf : r1.first = r2.first) :
    (nextEvent mem r1).map (fun q => (q.1.ev, q.1.first, q.2)) = (nextEvent mem r2).map fun q => (q.1.ev, q.1.first, q.2) := by
  unfold nextEvent
  rw [he, hf]
  split
  · show some (r1.ev, r1.first, false) = some (r2.ev, r2.first, false)
    rw [he, hf]
  · dsimp only
    split
    · rfl
    · split
      · rfl
      · split
        · rfl
        · split
          · rfl
          · split <;> rfl

theorem numLoop_read (subfuel : Nat) (mem : Mem) : ∀ (fuel : Nat) (r r' : Reader) (cnt : Nat) (l : List EvSeen), r'.ev = r.ev → r'.first = r.first →
    readEvents mem subfuel fuel r = some l → numLoop mem fuel r' cnt = some (cnt + l.length)
  | 0, _, _, _, _, _, _, h => by cases h
  | fuel + 1, r, r', cnt, l, he, hf, h => by
    unfold readEvents at h
    unfold numLoop
    have hsame := nextEvent_same (mem := mem) he hf
    cases hn : nextEvent mem r with
    | none => rw [hn] at h; cases h
    | some x =>
      obtain ⟨r1, b⟩ := x
      rw [hn] at h hsame
      cases hn' : nextEvent mem r' with
      | none => rw [hn'] at hsame; cases hsame
      | some y =>
        obtain ⟨r1', b'⟩ := y
        rw [hn'] at hsame
        injection hsame with hsame
        injection hsame with e1 hsame
        injection hsame with e2 e3
        dsimp only at e1 e2 e3
        subst e3
        cases b'
        · injection h with h
          subst h
          rfl
        · dsimp only at h ⊢
          cases hs : readSubs mem subfuel r1 with
          | none => rw [hs] at h; cases h
          | some q =>
            rw [hs] at h
            dsimp only [Option.bind_some] at h
            have hk := readSubs_keeps hs
            cases hr : readEvents mem subfuel fuel q.1 with
            | none => rw [hr] at h; cases h
            | some l1 =>
              rw [hr] at h
              injection h with h
              subst h
              rw [numLoop_read subfuel mem fuel q.1 r1' (cnt + 1) l1 (e1.trans hk.1.symm) (e2.trans hk.2.symm) hr, List.length_cons]
              congr 1
              omega

/-- `NumEvents` counts the events, in any buffer with the bytes of events. -/
theorem C39_count {es : List Ev} (hlen : (es.map Ev.room).sum < 2 ^ 32) (hev : ∀ e ∈ es, ∀ x ∈ e.subs, x.Even) {fuel : Nat} (hf : es.length < fuel) :
    numEvents [(es.map Ev.bytes).flatten] fuel = some es.length := by
  have hsub : ∀ e ∈ es, e.subs.length < (es.map fun e => e.subs.length).sum + 1 := by
    intro e he
    have : ∀ l : List Ev, e ∈ l → e.subs.length ≤ (l.map fun e => e.subs.length).sum := by
      intro l hl
      induction l with
      | nil => cases hl
      | cons x l ih =>
        rw [List.map_cons, List.sum_cons]
        rcases List.mem_cons.1 hl with rfl | hl
        · omega
        · have := ih hl
          omega
    have := this es he
    omega
  have h := numLoop_read _ _ fuel _ _ 0 _ rfl rfl (C39_read hlen hev hf hsub)
  rw [List.length_map, Nat.zero_add] at h
  exact h

/-- **C39** (place). After any events `IsPlaceForEvent` tells whether another event with `n` bytes of subevents has room, and `NewEvent` succeeds exactly
if it has. -/
theorem C39_place {s : List Byte} (h28 : 28 ≤ s.length) (hs : s.length < 2 ^ 32) {ts : List (Entry × Ev)}
    (hg : ∀ t ∈ ts, Gives t.1 t.2 ∧ ∀ x ∈ t.2.subs, x.Even) (hroom : (ts.map fun t => t.2.room).sum ≤ s.length) (n : Nat) (number : Word) :
    ∃ w, writeEntries (wreset Ptr.null [s]).1 (ts.map fun t => t.1) = some (w, true) ∧
      (∀ head, isPlaceForEvent w n head = true ↔ (ts.map fun t => t.2.room).sum + 16 + n + (if head then 12 else 0) ≤ s.length) ∧
      ∃ w', newEvent w number n = some (w', decide ((ts.map fun t => t.2.room).sum + 16 + n ≤ s.length)) := by
  obtain ⟨w, R, h1, h2, h3⟩ := writeEntries_spec ts (wreset_between h28 hs).2 hg hroom
  generalize (ts.map fun t => t.2.room).sum = k at *
  refine ⟨w, h1, fun head => ?_, ?_⟩
  · unfold isPlaceForEvent
    rw [h2.ev, decide_eq_true_iff]
    show R.length ≥ _ ↔ _
    omega
  · unfold newEvent
    rw [h2.sub, if_neg (by decide)]
    cases hev : isNull w.ev
    · rw [if_neg (by decide)]
      by_cases hlt : w.ev.full < 16 + n
      · rw [if_pos hlt]
        rw [h2.ev] at hlt
        have hlt : R.length < 16 + n := hlt
        rw [decide_eq_false (by omega)]
        exact ⟨_, rfl⟩
      · rw [if_neg hlt]
        have hle := hlt
        rw [h2.ev] at hle
        have hle : ¬ R.length < 16 + n := hle
        rw [decide_eq_true (by omega)]
        obtain ⟨w', R', k1, -⟩ := newEvent_spec h2 number (by omega)
        unfold newEvent at k1
        rw [h2.sub, if_neg (by decide), hev, if_neg (by decide), if_neg (by omega)] at k1
        exact ⟨w', k1⟩
    · rw [if_pos rfl]
      rw [h2.ev, isNull_P] at hev
      have := of_decide_eq_true hev
      rw [decide_eq_false (by omega)]
      exact ⟨_, rfl⟩

/-- **C39** (close). `Close` finishes an event that is still open, unless it fills the buffer exactly. -/
theorem C39_close_partial {s : List Byte} (h28 : 28 ≤ s.length) (hs : s.length < 2 ^ 32) {ts : List (Entry × Ev)}
    (hg : ∀ t ∈ ts, Gives t.1 t.2 ∧ ∀ x ∈ t.2.subs, x.Even) {number : Word} {ps : List Part} {l : List Sub} (hb : Brings ps l) (hev : ∀ x ∈ l, x.Even)
    (hroom : (ts.map fun t => t.2.room).sum + (Ev.mk 0x10000 number l).room < s.length) :
    ∃ w, andThen (writeEntries (wreset Ptr.null [s]).1 (ts.map fun t => t.1)) (fun w => andThen (newEvent w number 0) fun w => writeParts w ps) = some (w, true) ∧
      wclose w = some [(ts.map fun t => t.2.bytes).flatten ++ (Ev.mk 0x10000 number l).bytes] := by
  have hr : (Ev.mk 0x10000 number l).room = 16 + (l.map Sub.room).sum := rfl
  obtain ⟨w, R, h1, h2, h3⟩ := writeEntries_spec ts (wreset_between h28 hs).2 hg (by omega)
  rw [List.nil_append] at h2
  obtain ⟨w1, R1, k1, k2, k3⟩ := newEvent_spec h2 number (by omega)
  obtain ⟨w2, R2, g1, g2, g3⟩ := writeParts_spec hb hev k2 (by omega)
  rw [List.nil_append] at g2
  obtain ⟨w3, f1, f2⟩ := finishEvent_spec g2
  refine ⟨w2, ?_, ?_⟩
  · rw [h1]
    unfold andThen
    dsimp only
    rw [k1]
    exact g1
  · unfold wclose
    rw [g2.data, if_pos rfl]
    dsimp only [Option.bind_some]
    rw [g2.sub, isNull_P, if_neg (by simp only [decide_eq_true_eq]; omega), f1]
    dsimp only [Option.map_some]
    rw [flat_length] at f2
    rw [f2.full, f2.mem]
    exact congrArg some (cut_between (by rw [List.length_append, List.length_append, Verif.HadIter.words_length]; exact Nat.lt_of_lt_of_le (by decide : 0 < 4 * 4) (Nat.le_trans (Nat.le_add_right _ _) (Nat.le_add_left _ _))))

/-- A call that returns `false` leaves the iterator and the buffer as they were. -/
theorem C39_refused {w w' : Writer} :
    (∀ number n, newEvent w number n = some (w', false) → w' = w) ∧ (∀ n c p k, newSubevent w n c p k = some (w', false) → w' = w) ∧
    (∀ id, newSubevent2 w id = some (w', false) → w' = w) ∧ (∀ d, addRawData w d = some (w', false) → w' = w) ∧
    (∀ n, finishSubEvent w n = some (w', false) → w' = w) ∧ (∀ d, addSubevent w d = some (w', false) → w' = w) ∧
    (finishEvent w = some (w', false) → w' = w) ∧ (∀ d, copyEventFrom w d false = some (w', false) → w' = w) := by
  have no : ∀ {α : Type} {x : Option α} {f : α → Writer}, (x.map fun a => (f a, true)) ≠ some (w', false) := by
    intro α x f h
    cases x with
    | none => cases h
    | some a => injection h with h; injection h with _ h; cases h
  have nob : ∀ {α : Type} {x : Option α} {f : α → Option (Writer × Bool)}, (∀ a, f a ≠ some (w', false)) → x.bind f ≠ some (w', false) := by
    intro α x f hf h
    cases x with
    | none => cases h
    | some a => exact hf a h
  have same : ∀ {x : Writer}, some (x, false) = some (w', false) → w' = x := by
    intro x h
    injection h with h
    injection h with h _
    exact h.symm
  have st : ∀ id, startSub w id ≠ some (w', false) := fun id => nob fun _ => no
  refine ⟨fun number n h => ?_, fun n c p k h => ?_, fun id h => ?_, fun d h => ?_, fun n h => ?_, fun d h => ?_, fun h => ?_, fun d h => ?_⟩
  · unfold newEvent at h
    split at h
    · exact same h
    · split at h
      · exact same h
      · split at h
        · exact same h
        · exact absurd h (nob fun _ => no)
  · unfold newSubevent at h
    split at h
    · exact same h
    · split at h
      · exact same h
      · split at h
        · exact same h
        · exact absurd h (st _)
  · unfold newSubevent2 at h
    split at h
    · exact same h
    · split at h
      · exact same h
      · exact absurd h (st _)
  · unfold addRawData at h
    split at h
    · exact same h
    · exact absurd h (nob fun _ => no)
  · unfold finishSubEvent at h
    split at h
    · exact same h
    · exact absurd h (nob fun _ => nob fun _ => nob fun _ => no)
  · unfold addSubevent at h
    split at h
    · exact same h
    · split at h
      · exact same h
      · exact absurd h (nob fun _ => no)
  · unfold finishEvent at h
    split at h
    · exact same h
    · exact absurd h (nob fun _ => nob fun _ => no)
  · unfold copyEventFrom at h
    split at h
    · exact same h
    · split at h
      · exact same h
      · split at h
        · exact same h
        · exact absurd h (nob fun _ => nob fun _ => by
            intro h
            injection h with h
            injection h with _ h
            cases h)

/-! ## Examples and counterexamples -/

/-- Content with one event of 36 bytes, which has one subevent with 8 bytes of data. -/
def oneEvent : List Byte :=
  [14, 0, 0, 0, 10, 0, 1, 0, 0, 0, 1, 0, 9, 0, 0, 0] ++ [6, 0, 0, 0, 10, 0, 1, 0, 17, 0, 0, 0, 1, 2, 3, 4, 5, 6, 7, 8]

example : oneEvent.length < 2 ^ 32 ∧ ∃ r r', Reached [oneEvent] true r ∧ r.first = false ∧ isNull r.ev = false ∧
    nextSubEvent [oneEvent] r = some (r', true) ∧ r'.raw = P 28 8 := by
  refine ⟨by decide, ⟨false, P 0 36, Ptr.null, Ptr.null⟩, ⟨false, P 0 36, P 16 20, P 28 8⟩, ?_, rfl, by decide, by decide, by decide⟩
  exact Reached.call (b := true) .event Reached.reset trivial (by decide)

example : ∃ r r', Reached [oneEvent] true r ∧ r.first = false ∧ isNull r.ev = false ∧ nextSubEvent [oneEvent] r = some (r', false) := by
  refine ⟨⟨false, P 0 36, P 16 20, P 28 8⟩, ⟨false, P 0 36, Ptr.null, P 28 8⟩, ?_, rfl, by decide, by decide⟩
  exact Reached.call (b := true) (r := ⟨false, P 0 36, Ptr.null, Ptr.null⟩) .subEvent (Reached.call (b := true) .event Reached.reset trivial (by decide)) rfl (by decide)

/-- All states of an iterator on that content. -/
def oneStates : List Reader :=
  [⟨true, P 0 36, Ptr.null, Ptr.null⟩, ⟨false, P 0 36, Ptr.null, Ptr.null⟩, ⟨false, P 0 36, P 16 20, P 28 8⟩,
   ⟨false, P 0 36, Ptr.null, P 28 8⟩, ⟨false, Ptr.null, Ptr.null, Ptr.null⟩, ⟨false, Ptr.null, P 16 20, P 28 8⟩,
   ⟨false, Ptr.null, Ptr.null, P 28 8⟩, ⟨true, P 0 36, P 16 20, P 28 8⟩, ⟨true, P 0 36, Ptr.null, P 28 8⟩]

theorem oneReached {r : Reader} (h : Reached [oneEvent] true r) : r ∈ oneStates := by
  have step : ∀ r ∈ oneStates, ∀ c ∈ [Call.event, .subEvent, .last, .size, .eventPointer, .subsPointer], ∀ q, c.run [oneEvent] r = some q → q.1 ∈ oneStates := by
    have : ∀ r ∈ oneStates, ∀ c ∈ [Call.event, .subEvent, .last, .size, .eventPointer, .subsPointer],
        ((c.run [oneEvent] r).map fun q => decide (q.1 ∈ oneStates)).getD true = true := by decide
    intro r hr c hc q hq
    have h1 := this r hr c hc
    rw [hq] at h1
    exact of_decide_eq_true h1
  induction h with
  | reset => decide
  | call c _ _ hc ih => exact step _ ih c (by cases c <;> decide) _ hc

example : ∀ r, Reached [oneEvent] true r → r.first = false → isNull r.ev = false → sizeAt oneEvent r.ev.off ≠ 0 := by
  have h2 : ∀ r ∈ oneStates, r.first = false → isNull r.ev = false → sizeAt oneEvent r.ev.off ≠ 0 := by decide
  exact fun r hr => h2 r (oneReached hr)

/-- When subevents are asked for before the first event, the size of the event is read without a check: a buffer of two bytes is
read beyond its end. -/
theorem C33_mbs_first_counterexample : nextSubEvent [[1, 2]] (reset [[1, 2]] true).1 = none := by decide

/-- Segments of a buffer: the event header is in the first segment, the subevent header is split between the segments. -/
def splitEvent : Mem := [oneEvent.take 18, oneEvent.drop 18]

/-- With more than one segment the header of a subevent is read beyond the end of a segment, also when the same content in one
segment is valid. -/
theorem C33_mbs_segments_counterexample :
    ((nextEvent splitEvent (reset splitEvent true).1).bind fun r => nextSubEvent splitEvent r.1) = none ∧
    ((nextEvent [oneEvent] (reset [oneEvent] true).1).bind fun r => nextSubEvent [oneEvent] r.1).isSome = true := by
  refine ⟨by decide, by decide⟩

/-- An event whose size comes out as zero. -/
def zeroEvent : List Byte := [0xfc, 0xff, 0xff, 0x7f] ++ List.replicate 12 0

/-- An event header with the word count 0x7ffffffc: its size comes out as zero, and counting the events never ends. -/
theorem C33_mbs_events_end_counterexample (fuel : Nat) : numEvents [zeroEvent] fuel = none := by
  have h0 : ∀ fuel cnt, numLoop [zeroEvent] fuel ⟨false, P 0 16, Ptr.null, Ptr.null⟩ cnt = none := by
    intro fuel
    induction fuel with
    | zero => intro cnt; rfl
    | succ fuel ih =>
      intro cnt
      unfold numLoop
      have : nextEvent [zeroEvent] ⟨false, P 0 16, Ptr.null, Ptr.null⟩ = some (⟨false, P 0 16, Ptr.null, Ptr.null⟩, true) := by decide +kernel
      rw [this]
      exact ih (cnt + 1)
  cases fuel with
  | zero => rfl
  | succ fuel =>
    unfold numEvents numLoop
    have : nextEvent [zeroEvent] (reset [zeroEvent] true).1 = some (⟨false, P 0 16, Ptr.null, Ptr.null⟩, true) := by decide +kernel
    rw [this]
    exact h0 fuel 1

/-- A subevent with eight bytes. -/
def oneSub : Sub := { id := 17, data := [1, 2, 3, 4, 5, 6, 7, 8] }

/-- An event with this subevent: needs 36 bytes. -/
def oneEv : Ev := { trig := 0x10000, number := 9, subs := [oneSub] }

/-- The ways to write it. -/
def oneParts : List Part := [.pieces 17 [[1, 2, 3], [4, 5, 6, 7, 8]], .direct 0 17 0 [1, 2, 3, 4, 5, 6, 7, 8], .copy oneSub.bytes]

example : (∀ t ∈ (oneParts.map fun p => (Entry.build 9 [p], oneEv)) ++ [(Entry.copy oneEv.bytes, oneEv), (Entry.extend (Ev.mk 0x10000 9 []).bytes [.pieces 17 [[1, 2, 3], [4, 5, 6, 7, 8]]], oneEv)],
    Gives t.1 t.2 ∧ ∀ x ∈ t.2.subs, x.Even) := by
  have hev : ∀ x ∈ oneEv.subs, x.Even := by
    intro x hx
    rw [List.mem_singleton.1 hx]
    rfl
  intro t ht
  simp only [oneParts, List.map_cons, List.map_nil, List.cons_append, List.nil_append, List.mem_cons, List.not_mem_nil, or_false] at ht
  have hp : Brings [.pieces 17 [[1, 2, 3], [4, 5, 6, 7, 8]]] [oneSub] := Brings.pieces (by decide) .nil
  rcases ht with rfl | rfl | rfl | rfl | rfl
  · exact ⟨.build hp, hev⟩
  · exact ⟨.build (.direct .nil), hev⟩
  · refine ⟨.build ?_, hev⟩
    have := Brings.copy (l := [oneSub]) (by simp) .nil
    rw [List.append_nil, List.map_singleton, List.flatten_singleton] at this
    exact this
  · exact ⟨.copy, hev⟩
  · exact ⟨.extend (e := Ev.mk 0x10000 9 []) hp, hev⟩

/-- What is read after writing into the buffer: the results of the calls, and the data of each subevent of each event. -/
def readAfter (s : List Byte) (es : List Entry) : Option (Bool × List (List (Option (List Byte)))) :=
  (writeEntries (wreset Ptr.null [s]).1 es).bind fun q => (wclose q.1).bind fun m =>
    (readEvents m 10 10 (reset m true).1).map fun l => (q.2, l.map fun e => e.subs.map fun x => x.data)

/-- Events that fill the buffer exactly. -/
example : readAfter (List.replicate 72 7) [.build 9 [.pieces 17 [[1, 2, 3], [4, 5, 6, 7, 8]]], .build 9 [.direct 0 17 0 [1, 2, 3, 4, 5, 6, 7, 8]]] =
    some (true, [[some [1, 2, 3, 4, 5, 6, 7, 8]], [some [1, 2, 3, 4, 5, 6, 7, 8]]]) := by decide +kernel

/-- Data with an odd number of bytes: all calls return `true`, the last byte is lost. -/
theorem C39_odd_counterexample : readAfter (List.replicate 100 0) [.build 9 [.pieces 17 [[1, 2, 3]]]] = some (true, [[some [1, 2]]]) := by decide +kernel

/-- `AddRawData` with more data than there is room: it returns `true`, the data are cut. The room is compared with the size of the whole
subevent and not of the rest. -/
theorem C39_addraw_counterexample : readAfter (List.replicate 32 0) [.build 9 [.pieces 17 [[1, 2, 3, 4, 5, 6, 7, 8]]]] = some (true, [[some [1, 2, 3, 4]]]) := by decide +kernel

/-- `NewSubevent2` does not look for the room: with less than twelve bytes left in the buffer the header is written behind it. -/
theorem C39_newsub_counterexample :
    (andThen (newEvent (wreset Ptr.null [List.replicate 28 0]).1 1 0) fun w => andThen (writePart w (.copy [0, 0])) fun w => newSubevent2 w 5) = none := by decide +kernel

/-- An event that fills the buffer exactly and is not finished before `Close` does not get its size; its subevent is not found any more. -/
theorem C39_close_counterexample :
    ((andThen (newEvent (wreset Ptr.null [List.replicate 36 0]).1 9 0) fun w => writePart w (.pieces 17 [[1, 2, 3, 4, 5, 6, 7, 8]])).bind fun q => (wclose q.1).map fun m =>
      (q.2, m.map List.length, (readEvents m 10 10 (reset m true).1).map fun l => l.map fun e => e.subs.length)) = some (true, [36], some [0]) := by decide +kernel

/-- Closing without any event: the old content stays in the buffer. -/
theorem C39_empty_counterexample : wclose (wreset Ptr.null [oneEvent]).1 = some [oneEvent] := by decide +kernel

/-- When the iterator is set to a new buffer while a subevent is open, the pointer into the old buffer stays, and no subevent can be started
in the new buffer. -/
theorem C39_stale_counterexample :
    ((andThen (newEvent (wreset Ptr.null [List.replicate 100 0]).1 9 0) fun w => newSubevent2 w 5).bind fun q =>
      (andThen (newEvent (wreset q.1.data [List.replicate 100 0]).1 9 0) fun w => newSubevent w 8 0 5 0).map fun q => q.2) = some false := by decide +kernel

end Verif.MbsIter
