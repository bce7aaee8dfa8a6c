import Verif.HadIterLemmas

/-! # C33: the HADAQ read iterator stays inside of its buffer -/

namespace Verif.HadIter

open Verif.Bytes Verif.Pointer Verif.HadTu

theorem nextEvent_inv {s : List Byte} (hs : s.length < 2 ^ 32) {r : Reader} (h : RInv s r) :
    ∃ r' b, nextEvent [s] r = some (r', b) ∧ RInv s r' := by
  unfold nextEvent
  cases hev : isNull r.ev
  · rw [if_neg (by decide)]
    by_cases ht : r.typ = .events
    · rw [if_neg (fun hn => hn ht)]
      obtain ⟨r', b, h1, h2, -⟩ := nextBlock_spec hs h (hd := 32) (by omega) (by rw [ht]; rfl) hev
      exact ⟨r', b, h1, h2⟩
    · rw [if_pos ht]
      exact ⟨_, _, rfl, h⟩
  · rw [if_pos rfl]
    exact ⟨_, _, rfl, h⟩

theorem nextHadTu_inv {s : List Byte} (hs : s.length < 2 ^ 32) {r : Reader} (h : RInv s r) :
    ∃ r' b, nextHadTu [s] r = some (r', b) ∧ RInv s r' := by
  unfold nextHadTu
  by_cases ht : r.typ = .unit
  · rw [if_neg (fun hn => hn ht)]
    cases hev : isNull r.ev
    · rw [if_neg (by decide)]
      obtain ⟨r', b, h1, h2, -⟩ := nextBlock_spec hs h (hd := 8) (by omega) (by rw [ht]; rfl) hev
      exact ⟨r', b, h1, h2⟩
    · rw [if_pos rfl]
      exact ⟨_, _, rfl, h⟩
  · rw [if_pos ht]
    exact ⟨_, _, rfl, h⟩

theorem nextSubeventsBlock_inv {s : List Byte} (hs : s.length < 2 ^ 32) {r : Reader} (h : RInv s r) :
    ∃ r' b, nextSubeventsBlock [s] r = some (r', b) ∧ RInv s r' := by
  unfold nextSubeventsBlock
  cases ht : r.typ with
  | unit => exact nextHadTu_inv hs h
  | events => exact nextEvent_inv hs h
  | other => exact ⟨_, _, rfl, h⟩
  | subevents =>
    dsimp only
    cases hf : r.first
    · refine ⟨⟨false, Ptr.null, r.sub, r.raw, .subevents⟩, false, rfl, ⟨Inside_null _, h.sub, h.raw, Or.inr (Or.inl rfl), Or.inr (Or.inl rfl), fun _ => rfl, h.subFull, h.subFit, Or.inr (Or.inl rfl)⟩⟩
    · rw [if_pos rfl]
      cases hev : isNull r.ev
      · rw [if_neg (by decide)]
        refine ⟨_, _, rfl, ⟨h.ev, Inside_null _, Inside_null _, Or.inr (Or.inr ?_), Or.inr (Or.inr (Or.inl ht)), h.other, Or.inl rfl, Or.inl rfl, Or.inl rfl⟩⟩
        show headSize r.typ ≤ r.ev.full
        rw [ht]
        exact Nat.zero_le _
      · rw [if_pos rfl]
        exact ⟨_, _, rfl, h⟩

theorem nextSubEvent_inv {s : List Byte} (hs : s.length < 2 ^ 32) {r : Reader} (h : RInv s r) (hr : Ready r) :
    ∃ r' b, nextSubEvent [s] r = some (r', b) ∧ RInv s r' := by
  cases hsub : isNull r.sub
  · obtain ⟨r', b, h1, h2, -⟩ := nextSub_next hs h hsub
    exact ⟨r', b, h1, h2⟩
  · cases hev : isNull r.ev
    · obtain ⟨r', b, h1, h2, -⟩ := nextSub_first hs h hr hsub hev
      exact ⟨r', b, h1, h2⟩
    · unfold nextSubEvent
      rw [if_pos hsub, if_pos hev]
      exact ⟨_, _, rfl, h⟩

theorem assign_inv {s : List Byte} {r : Reader} (h : RInv s r) (hf : r.first = false) (ht : r.typ ≠ .subevents) :
    ∃ p b, assignEventPointer [s] r = some (p, b) ∧ Inside s.length p := by
  unfold assignEventPointer
  cases hev : isNull r.ev
  · rw [if_neg (by decide)]
    obtain ⟨he, hpos, hle⟩ := inside_P h.ev hev
    have h8 : 8 ≤ r.ev.full := by
      rcases h.head with h1 | h1 | h1
      · rw [hf] at h1; cases h1
      · rw [hev] at h1; cases h1
      · cases hty : r.typ with
        | events => rw [hty] at h1; have : 32 ≤ r.ev.full := h1; omega
        | unit => rw [hty] at h1; exact h1
        | subevents => exact absurd hty ht
        | other =>
          rw [h.other hty] at hev
          exact absurd hev (by decide)
    have hgp : getPadded [s] r.ev = some (padded (sizeAt s r.ev.off)) := by
      rw [he]
      exact getPadded_P _ (by show r.ev.off + 8 ≤ _; omega)
    rw [hgp]
    show ∃ p b, ((resetTo (sizesOf [s]) r.ev 0 (padded (sizeAt s r.ev.off))).map fun q => (q, true)) = some (p, b) ∧ _
    rw [he]
    by_cases h0 : padded (sizeAt s (P r.ev.off r.ev.full).off) = 0
    · rw [h0]
      exact ⟨_, _, rfl, Inside_P hle⟩
    · rw [resetTo_full (by omega)]
      exact ⟨_, _, rfl, Inside_P (by omega)⟩
  · rw [if_pos rfl]
    exact ⟨_, _, rfl, Inside_null _⟩

theorem call_inv {s : List Byte} (hs : s.length < 2 ^ 32) {r : Reader} (h : RInv s r) (c : Call) (ha : c.Allowed r) :
    ∃ r' b, c.run [s] r = some (r', b) ∧ RInv s r' := by
  cases c with
  | hadTu => exact nextHadTu_inv hs h
  | event => exact nextEvent_inv hs h
  | block => exact nextSubeventsBlock_inv hs h
  | subEvent => exact nextSubEvent_inv hs h ha
  | eventPointer =>
    obtain ⟨p, b, h1, -⟩ := assign_inv h ha.1 ha.2
    refine ⟨r, b, ?_, h⟩
    show ((assignEventPointer [s] r).map fun q => (r, q.2)) = _
    rw [h1]
    rfl

theorem reached_inv {s : List Byte} (hs : s.length < 2 ^ 32) {typ : BufType} {r : Reader} (h : Reached [s] typ r) : RInv s r := by
  induction h with
  | reset => exact reset_inv s typ
  | call c _ ha hc ih =>
    obtain ⟨r', b, h1, h2⟩ := call_inv hs ih c ha
    rw [h1] at hc
    injection hc with hc
    injection hc with hc
    subst hc
    exact h2

/-- On a buffer with one segment and any content, whatever calls are done in the proper order: no call reads outside of the
buffer, and the event, subevent and raw data pointers given out cover only memory of the buffer. -/
theorem C33_inside_partial {s : List Byte} (hs : s.length < 2 ^ 32) {typ : BufType} {r : Reader} (h : Reached [s] typ r) :
    (∀ c : Call, c.Allowed r → ∃ r' b, c.run [s] r = some (r', b)) ∧
    Inside s.length r.ev ∧ Inside s.length r.sub ∧ Inside s.length r.raw := by
  have hi := reached_inv hs h
  refine ⟨fun c hc => ?_, hi.ev, hi.sub, hi.raw⟩
  obtain ⟨r', b, h1, -⟩ := call_inv hs hi c hc
  exact ⟨r', b, h1⟩

/-- The pointer on the current event covers only memory of the buffer. -/
theorem C33_event_pointer {s : List Byte} (hs : s.length < 2 ^ 32) {typ : BufType} {r : Reader} (h : Reached [s] typ r)
    (hf : r.first = false) (ht : r.typ ≠ .subevents) : ∃ p b, assignEventPointer [s] r = some (p, b) ∧ Inside s.length p :=
  assign_inv (reached_inv hs h) hf ht

/-- A subevent that is found lies behind the header of its block and inside of the block, its header is complete, and the
raw data follow the header and are inside of the subevent. -/
theorem C33_nested {s : List Byte} (hs : s.length < 2 ^ 32) {typ : BufType} {r r' : Reader} (h : Reached [s] typ r)
    (ha : Call.Allowed r .subEvent) (hev : isNull r.ev = false) (hc : nextSubEvent [s] r = some (r', true)) :
    r'.ev = r.ev ∧ r.ev.off + headSize r.typ ≤ r'.sub.off ∧ 16 ≤ r'.sub.full ∧ r'.sub.off + r'.sub.full ≤ blockEnd s r ∧
    16 ≤ sizeAt s r'.sub.off ∧ r'.raw.off = r'.sub.off + 16 ∧ r'.raw.off + r'.raw.full ≤ r'.sub.off + r'.sub.full ∧
    (sizeAt s r'.sub.off ≤ 2 ^ 32 - 8 → r'.raw.full + 16 ≤ padded (sizeAt s r'.sub.off)) := by
  have hi := reached_inv hs h
  have hrawc : ∀ {o l : Nat}, r'.sub = P o l → 16 ≤ l → 16 ≤ sizeAt s o → r'.raw = rawOf s o l → r'.raw.off = o + 16 ∧ r'.raw.off + r'.raw.full ≤ o + l ∧
      (sizeAt s o ≤ 2 ^ 32 - 8 → r'.raw.full + 16 ≤ padded (sizeAt s o)) := by
    intro o l _ hl hz hraw
    rw [hraw]
    unfold rawOf
    by_cases h0 : padded (sizeAt s o) = 0
    · rw [if_pos h0]
      refine ⟨rfl, by show o + 16 + (l - 16) ≤ o + l; omega, fun hle => ?_⟩
      have := padded_zero h0 hle
      omega
    · rw [if_neg h0]
      refine ⟨rfl, by show o + 16 + (min l _ - 16) ≤ o + l; omega, fun hle => ?_⟩
      have := padded_ge hle
      show min l _ - 16 + 16 ≤ _
      omega
  cases hsub : isNull r.sub
  · obtain ⟨r2, b, h1, h2, -, -, h5, h6, -⟩ := nextSub_next hs hi hsub
    rw [h1] at hc
    injection hc with hc
    injection hc with hc hb
    subst hc hb
    obtain ⟨o, l, g1, g2, g3, g4, g5, g6⟩ := h6 rfl
    obtain ⟨k1, k2, k3⟩ := hrawc g3 g5 g4 g6
    have hw : r.ev.off + headSize r.typ ≤ r.sub.off ∧ r.sub.off + r.sub.full ≤ blockEnd s r := by
      rcases hi.within with w | w | w
      · rw [hsub] at w; cases w
      · rw [hev] at w; cases w
      · exact w
    rw [g3]
    refine ⟨h5, ?_, g5, ?_, g4, k1, k2, k3⟩
    · show _ ≤ o
      omega
    · show o + l ≤ _
      omega
  · obtain ⟨r2, b, h1, h2, -, -, h5, h6, -⟩ := nextSub_first hs hi ha hsub hev
    rw [h1] at hc
    injection hc with hc
    injection hc with hc hb
    subst hc hb
    obtain ⟨o, l, g1, g2, g3, g4, g5, g6⟩ := h6 rfl
    obtain ⟨k1, k2, k3⟩ := hrawc g3 g5 g4 g6
    rw [g3]
    exact ⟨h5, Nat.le_of_eq g1.symm, g5, Nat.le_of_eq g2, g4, k1, k2, k3⟩

/-- An event or transport unit that is found has its header in the buffer, and the size given in the header does not
exceed the rest of the buffer. -/
theorem C33_event {s : List Byte} (hs : s.length < 2 ^ 32) {typ : BufType} {r r' : Reader} (h : Reached [s] typ r)
    (ht : r.typ = .events ∨ r.typ = .unit) (hc : nextSubeventsBlock [s] r = some (r', true)) :
    r'.ev.off + headSize r.typ ≤ s.length ∧ r'.ev.off + sizeAt s r'.ev.off ≤ s.length ∧ r'.sub = Ptr.null ∧
    r'.ev.off = (if r.first then r.ev.off else r.ev.off + padded (sizeAt s r.ev.off)) := by
  have hi := reached_inv hs h
  have key : ∀ hd, 8 ≤ hd → headSize r.typ = hd → isNull r.ev = false → nextBlock [s] hd r = some (r', true) →
      r'.ev.off + headSize r.typ ≤ s.length ∧ r'.ev.off + sizeAt s r'.ev.off ≤ s.length ∧ r'.sub = Ptr.null ∧
      r'.ev.off = (if r.first then r.ev.off else r.ev.off + padded (sizeAt s r.ev.off)) := by
    intro hd h8 hty hev hb
    obtain ⟨r2, b, h1, h2, -, -, h5, -⟩ := nextBlock_spec hs hi h8 hty hev
    rw [h1] at hb
    injection hb with hb
    injection hb with hb hbb
    subst hb hbb
    obtain ⟨g1, g2, g3, g4, g5⟩ := h5 rfl
    have := (inside_P hi.ev hev).2.2
    refine ⟨by rw [hty]; omega, by omega, g2, g1⟩
  unfold nextSubeventsBlock at hc
  rcases ht with ht | ht
  · rw [ht] at hc
    dsimp only at hc
    unfold nextEvent at hc
    cases hev : isNull r.ev
    · rw [hev, if_neg (by decide), if_neg (fun hn => hn ht)] at hc
      exact key 32 (by omega) (by rw [ht]; rfl) hev hc
    · rw [hev, if_pos rfl] at hc
      injection hc with hc
      injection hc with _ hc
      cases hc
  · rw [ht] at hc
    dsimp only at hc
    unfold nextHadTu at hc
    rw [if_neg (fun hn => hn ht)] at hc
    cases hev : isNull r.ev
    · rw [hev, if_neg (by decide)] at hc
      exact key 8 (by omega) (by rw [ht]; rfl) hev hc
    · rw [hev, if_pos rfl] at hc
      injection hc with hc
      injection hc with _ hc
      cases hc

/-- Loop `while (NextSubEvent())` for at most `fuel` calls: the subevents (offset and size of the raw data); `none` also
for more calls. -/
def subLoop (mem : Mem) : Nat → Reader → Option (List (Nat × Nat))
  | 0, _ => none
  | fuel + 1, r =>
    match nextSubEvent mem r with
    | none => none
    | some (r, true) => (subLoop mem fuel r).map fun l => (r.raw.off, r.raw.full) :: l
    | some (_, false) => some []

/-- Going through the subevents ends, unless a subevent is met that claims a size above 4294967288. -/
theorem C33_subevents_end_partial {s : List Byte} (hs : s.length < 2 ^ 32) {typ : BufType} {r : Reader} (h : Reached [s] typ r)
    (ha : Call.Allowed r .subEvent) (hz : ∀ r, Reached [s] typ r → isNull r.sub = false → sizeAt s r.sub.off ≤ 2 ^ 32 - 8) :
    ∃ l, subLoop [s] (s.length / 16 + 2) r = some l := by
  have main : ∀ fuel, ∀ r, Reached [s] typ r → Call.Allowed r .subEvent → isNull r.sub = false → r.sub.full < 16 * fuel → ∃ l, subLoop [s] fuel r = some l := by
    intro fuel
    induction fuel with
    | zero =>
      intro r _ _ _ hlt
      omega
    | succ fuel ih =>
      intro r hre hal hsub hlt
      have hi := reached_inv hs hre
      obtain ⟨r', b, h1, h2, e3, e4, -, h6, -⟩ := nextSub_next hs hi hsub
      unfold subLoop
      rw [h1]
      cases b
      · exact ⟨[], rfl⟩
      · obtain ⟨o, l, g1, g2, g3, g4, g5, g6⟩ := h6 rfl
        have hsz : 16 ≤ sizeAt s r.sub.off := by
          rcases hi.subFit with w | w
          · rw [hsub] at w; cases w
          · exact w
        obtain ⟨-, _, hle⟩ := inside_P hi.sub hsub
        have h16 : 16 ≤ r.sub.full := by
          rcases hi.subFull with w | w
          · rw [hsub] at w; cases w
          · exact w
        have hpad := padded_ge (hz r hre hsub)
        obtain ⟨L, hL⟩ := ih r' (Reached.call .subEvent hre hal h1) (by unfold Call.Allowed; rw [e3, e4]; exact hal) (by rw [g3, isNull_P]; exact decide_eq_false (by omega)) (by rw [g3]; show l < _; omega)
        dsimp only
        rw [hL]
        exact ⟨_, rfl⟩
  have hi := reached_inv hs h
  have hfull : ∀ q : Ptr, Inside s.length q → q.full ≤ s.length := by
    intro q hq
    rcases hq with hq | ⟨_, _, _, hq⟩
    · rw [hq]; exact Nat.zero_le _
    · omega
  cases hsub : isNull r.sub
  · exact main _ r h ha hsub (by have := hfull _ hi.sub; omega)
  · show ∃ l, subLoop [s] (s.length / 16 + 1 + 1) r = some l
    unfold subLoop
    obtain ⟨r', b, h1, h2⟩ := nextSubEvent_inv hs hi ha
    rw [h1]
    cases b
    · exact ⟨[], rfl⟩
    · dsimp only
      cases hev : isNull r.ev
      · obtain ⟨r2, b, k1, k2, e3, e4, -, k6, -⟩ := nextSub_first hs hi ha hsub hev
        rw [h1] at k1
        injection k1 with k1
        injection k1 with k1 kb
        subst k1 kb
        obtain ⟨o, l, g1, g2, g3, g4, g5, g6⟩ := k6 rfl
        obtain ⟨L, hL⟩ := main (s.length / 16 + 1) r' (Reached.call .subEvent h ha h1) (by unfold Call.Allowed; rw [e3, e4]; exact ha) (by rw [g3, isNull_P]; exact decide_eq_false (by omega)) (by have := hfull _ h2.sub; omega)
        rw [hL]
        exact ⟨_, rfl⟩
      · unfold nextSubEvent at h1
        rw [if_pos hsub, if_pos hev] at h1
        injection h1 with h1
        injection h1 with _ h1
        cases h1

/-- Counting the events of a buffer ends, unless an event is met that claims the size zero. -/
theorem C33_events_end_partial {s : List Byte} (hs : s.length < 2 ^ 32 - 8) 
    (hz : ∀ r, Reached [s] .events r → r.first = false → isNull r.ev = false → sizeAt s r.ev.off ≠ 0) :
    ∃ n, numEvents [s] (s.length / 8 + 2) = some n ∧ n ≤ s.length / 8 + 1 := by
  have main : ∀ fuel cnt, ∀ r, Reached [s] .events r → r.first = false → r.typ = .events → r.ev.full < 8 * fuel →
      ∃ n, numLoop [s] fuel r cnt = some n ∧ n < cnt + fuel := by
    intro fuel
    induction fuel with
    | zero =>
      intro cnt r _ _ _ hlt
      omega
    | succ fuel ih =>
      intro cnt r hre hf ht hlt
      have hi := reached_inv (by omega) hre
      cases hev : isNull r.ev
      · obtain ⟨r', b, h1, h2, h3, h4, h5, h6⟩ := nextBlock_spec (by omega) hi (hd := 32) (by omega) (by rw [ht]; rfl) hev
        have hne' : nextEvent [s] r = some (r', b) := by
          unfold nextEvent
          rw [hev, if_neg (by decide), if_neg (fun hn => hn ht), h1]
        unfold numLoop
        rw [hne']
        cases b
        · exact ⟨cnt, rfl, by omega⟩
        · obtain ⟨g1, g2, g3, g4, g5⟩ := h5 rfl
          rw [hf] at g1
          have g1 : r'.ev.off = r.ev.off + padded (sizeAt s r.ev.off) := g1
          obtain ⟨-, _, hle⟩ := inside_P hi.ev hev
          have hhd : 32 ≤ r.ev.full := by
            rcases hi.head with w | w | w
            · rw [hf] at w; cases w
            · rw [hev] at w; cases w
            · rw [ht] at w; exact w
          have hne := hz r hre hf hev
          have hfit : sizeAt s r.ev.off ≤ r.ev.full := by
            rcases hi.fit with w | w | w | w
            · rw [hf] at w; cases w
            · rw [hev] at w; cases w
            · rw [ht] at w; cases w
            · exact w
          have hp8 : 8 ≤ padded (sizeAt s r.ev.off) := by
            unfold padded
            split <;> omega
          obtain ⟨n, e1, e2⟩ := ih (cnt + 1) r' (Reached.call .event hre trivial hne') h4 (by rw [h3]; exact ht) (by omega)
          exact ⟨n, e1, by omega⟩
      · unfold numLoop nextEvent
        rw [hev, if_pos rfl]
        exact ⟨cnt, rfl, by omega⟩
  unfold numEvents
  have hi := reset_inv s .events
  have hr : (reset [s] .events).1 = { closed with ev := P 0 s.length, first := true, typ := .events } := by
    unfold reset
    rw [if_neg (by decide), start_P]
  show ∃ n, numLoop [s] (s.length / 8 + 1 + 1) _ 0 = some n ∧ _
  cases hev : isNull (reset [s] .events).1.ev
  · have ht : (reset [s] .events).1.typ = .events := by rw [hr]
    have hf : (reset [s] .events).1.ev.full = s.length := by rw [hr]; rfl
    obtain ⟨r', b, h1, h2, h3, h4, h5, h6⟩ := nextBlock_spec (by omega) hi (hd := 32) (by omega) (by rw [ht]; rfl) hev
    have hne' : nextEvent [s] (reset [s] .events).1 = some (r', b) := by
      unfold nextEvent
      rw [hev, if_neg (by decide), if_neg (fun hn => hn ht), h1]
    unfold numLoop
    rw [hne']
    cases b
    · exact ⟨0, rfl, by omega⟩
    · obtain ⟨g1, g2, g3, g4, g5⟩ := h5 rfl
      have hoff : (reset [s] .events).1.ev.off = 0 := by rw [hr]; rfl
      obtain ⟨n, e1, e2⟩ := main (s.length / 8 + 1) 1 r' (Reached.call .event .reset trivial hne') h4 (by rw [h3]; exact ht) (by omega)
      exact ⟨n, e1, by omega⟩
  · unfold numLoop nextEvent
    rw [hev, if_pos rfl]
    exact ⟨0, rfl, by omega⟩

/-- Content with one event of 56 bytes, which has one subevent with 8 bytes of data. -/
def oneEvent : List Byte :=
  [56, 0, 0, 0, 1, 0, 3, 0, 1, 32, 0, 0, 9, 0, 0, 0, 0, 0, 0, 0, 0, 0, 0, 0, 0, 0, 0, 0, 0, 0, 0, 0] ++
  [0, 0, 0, 24, 0, 2, 0, 17, 0, 0, 0, 5, 0, 0, 0, 9, 1, 2, 3, 4, 5, 6, 7, 8]

example : oneEvent.length < 2 ^ 32 - 8 ∧ ∃ r r', Reached [oneEvent] .events r ∧ Call.Allowed r .subEvent ∧ isNull r.ev = false ∧
    nextSubEvent [oneEvent] r = some (r', true) ∧ r'.raw = P 48 8 := by
  refine ⟨by decide, ⟨false, P 0 56, Ptr.null, Ptr.null, .events⟩, ⟨false, P 0 56, P 32 24, P 48 8, .events⟩, ?_, Or.inl rfl, by decide, by decide, by decide⟩
  exact Reached.call (b := true) .event Reached.reset trivial (by decide)

/-- All states of an iterator on that content. -/
def oneStates : List Reader :=
  [⟨true, P 0 56, Ptr.null, Ptr.null, .events⟩, ⟨false, P 0 56, Ptr.null, Ptr.null, .events⟩, ⟨false, P 0 56, P 32 24, P 48 8, .events⟩,
   ⟨false, P 0 56, Ptr.null, P 48 8, .events⟩, ⟨false, Ptr.null, Ptr.null, Ptr.null, .events⟩, ⟨false, Ptr.null, P 32 24, P 48 8, .events⟩,
   ⟨false, Ptr.null, Ptr.null, P 48 8, .events⟩, ⟨true, P 0 56, P 32 24, P 48 8, .events⟩, ⟨true, P 0 56, Ptr.null, P 48 8, .events⟩]

theorem oneReached {r : Reader} (h : Reached [oneEvent] .events r) : r ∈ oneStates := by
  have step : ∀ r ∈ oneStates, ∀ c ∈ [Call.hadTu, .event, .block, .subEvent, .eventPointer], ∀ q, c.run [oneEvent] r = some q → q.1 ∈ oneStates := by
    have : ∀ r ∈ oneStates, ∀ c ∈ [Call.hadTu, .event, .block, .subEvent, .eventPointer],
        ((c.run [oneEvent] r).map fun q => decide (q.1 ∈ oneStates)).getD true = true := by decide
    intro r hr c hc q hq
    have h1 := this r hr c hc
    rw [hq] at h1
    exact of_decide_eq_true h1
  induction h with
  | reset => decide
  | call c _ _ hc ih => exact step _ ih c (by cases c <;> decide) _ hc

example : (∀ r, Reached [oneEvent] .events r → isNull r.sub = false → sizeAt oneEvent r.sub.off ≤ 2 ^ 32 - 8) ∧
    (∀ r, Reached [oneEvent] .events r → r.first = false → isNull r.ev = false → sizeAt oneEvent r.ev.off ≠ 0) := by
  have h1 : ∀ r ∈ oneStates, isNull r.sub = false → sizeAt oneEvent r.sub.off ≤ 2 ^ 32 - 8 := by decide
  have h2 : ∀ r ∈ oneStates, r.first = false → isNull r.ev = false → sizeAt oneEvent r.ev.off ≠ 0 := by decide
  exact ⟨fun r hr => h1 r (oneReached hr), fun r hr => h2 r (oneReached hr)⟩

/-- When subevents are asked for before the first event, the size of the event is read without a check: a buffer of two bytes is
read beyond its end. -/
theorem C33_first_counterexample : nextSubEvent [[1, 2]] (reset [[1, 2]] .events).1 = none := by decide

/-- Segments of a buffer: the event header is in the first segment, the subevent header is split between the segments. -/
def splitEvent : Mem := [oneEvent.take 36, oneEvent.drop 36]

/-- With more than one segment the header of a subevent is read beyond the end of a segment, also when the same content in one
segment is valid. -/
theorem C33_segments_counterexample :
    ((nextEvent splitEvent (reset splitEvent .events).1).bind fun r => nextSubEvent splitEvent r.1) = none ∧
    ((nextEvent [oneEvent] (reset [oneEvent] .events).1).bind fun r => nextSubEvent [oneEvent] r.1).isSome = true := by
  refine ⟨by decide, by decide⟩

/-- The same event with a subevent that claims 280 bytes. -/
def bigSub : List Byte := oneEvent.set 34 1

/-- A subevent that claims more bytes than the event and the buffer have is accepted; users who trust its size, as the sorter
does, read beyond the buffer. -/
theorem C33_size_counterexample :
    ((nextEvent [bigSub] (reset [bigSub] .events).1).bind fun r => (nextSubEvent [bigSub] r.1).map fun q => (q.2, q.1.sub, sizeAt bigSub q.1.sub.off)) =
      some (true, P 32 24, 280) := by
  decide

/-- An event with the size zero: counting the events never ends. -/
theorem C33_events_end_counterexample (fuel : Nat) : numEvents [List.replicate 32 (0 : Byte)] fuel = none := by
  have h0 : ∀ fuel cnt, numLoop [List.replicate 32 (0 : Byte)] fuel ⟨false, P 0 32, Ptr.null, Ptr.null, .events⟩ cnt = none := by
    intro fuel
    induction fuel with
    | zero => intro cnt; rfl
    | succ fuel ih =>
      intro cnt
      unfold numLoop
      have : nextEvent [List.replicate 32 (0 : Byte)] ⟨false, P 0 32, Ptr.null, Ptr.null, .events⟩ =
        some (⟨false, P 0 32, Ptr.null, Ptr.null, .events⟩, true) := by decide
      rw [this]
      exact ih (cnt + 1)
  cases fuel with
  | zero => rfl
  | succ fuel =>
    unfold numEvents numLoop
    have : nextEvent [List.replicate 32 (0 : Byte)] (reset [List.replicate 32 (0 : Byte)] .events).1 =
      some (⟨false, P 0 32, Ptr.null, Ptr.null, .events⟩, true) := by decide
    rw [this]
    exact h0 fuel 1

/-- Content with a subevent that claims the size 0xffffffff. -/
def hugeSub : List Byte := [255, 255, 255, 255, 1, 0, 2, 0, 5, 0, 0, 0, 9, 0, 0, 0]

/-- A subevent with a size that is rounded up to zero: going through the subevents never ends. -/
theorem C33_subevents_end_counterexample (fuel : Nat) :
    ((nextSubeventsBlock [hugeSub] (reset [hugeSub] .subevents).1).bind fun r => subLoop [hugeSub] fuel r.1) = none := by
  have h0 : ∀ fuel, subLoop [hugeSub] fuel ⟨false, P 0 16, P 0 16, P 16 0, .subevents⟩ = none := by
    intro fuel
    induction fuel with
    | zero => rfl
    | succ fuel ih =>
      unfold subLoop
      have : nextSubEvent [hugeSub] ⟨false, P 0 16, P 0 16, P 16 0, .subevents⟩ =
        some (⟨false, P 0 16, P 0 16, P 16 0, .subevents⟩, true) := by decide
      rw [this]
      dsimp only
      rw [ih]
      rfl
  have hb : nextSubeventsBlock [hugeSub] (reset [hugeSub] .subevents).1 = some (⟨false, P 0 16, Ptr.null, Ptr.null, .subevents⟩, true) := by decide
  rw [hb]
  show subLoop [hugeSub] fuel ⟨false, P 0 16, Ptr.null, Ptr.null, .subevents⟩ = none
  cases fuel with
  | zero => rfl
  | succ fuel =>
    unfold subLoop
    have : nextSubEvent [hugeSub] ⟨false, P 0 16, Ptr.null, Ptr.null, .subevents⟩ =
      some (⟨false, P 0 16, P 0 16, P 16 0, .subevents⟩, true) := by decide
    rw [this]
    dsimp only
    rw [h0]
    rfl

end Verif.HadIter
