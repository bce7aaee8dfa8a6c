import Verif.MbsSpanLemmas

/-! The receiver puts pieces of events together. -/

namespace Verif.MbsNet

open Verif.Bytes Spec

theorem shift_none {c : Cli} (h : c.span = spanOf none) : c.shift = 0 := by
  simp [Cli.shift, h, spanOf]

theorem piece_ne (e : Event) : piece e ≠ [] := by
  intro h
  have := piece_length e
  rw [h] at this
  simp at this
  omega

theorem shift_some {c : Cli} {e : Event} (h : c.span = spanOf (some e)) (hl : e.2.length < 4294967280) : c.shift = e.2.length := by
  unfold Cli.shift
  rw [h, spanOf_some, if_neg (piece_ne e), piece_length, sub32_of_le (by omega) (by omega)]
  omega

theorem drop_append_len {a b : Data} {n : Nat} (h : a.length = n) : (a ++ b).drop n = b := by
  rw [← h, List.drop_left]

theorem take_append_len {a b : Data} {n : Nat} (h : a.length = n) : (a ++ b).take n = a := by
  rw [← h, List.take_left]

theorem join_pieces (e : Event) (f : Event) (l : List Event) : pieces (join (some e) (f :: l)) =
    enc 4 ((e.2.length + f.2.length) / 2) ++ (enc 4 e.1 ++ (e.2 ++ (f.2 ++ pieces l))) := by
  obtain ⟨t, d⟩ := e
  obtain ⟨t', d'⟩ := f
  simp [join, pieces_cons, piece, List.append_assoc]

/-- Memory of the buffer after joining. -/
theorem joined_eq {c : Cli} {sw : Bool} {o : Option Event} {evs : List Event} {m0 x : Data} (hne : evs ≠ [])
    (hev : ∀ e ∈ evs, e.2.length % 2 = 0) (hsp : c.span = spanOf o) (hsw : c.swapping = sw)
    (hm : c.mem = m0 ++ (wire sw (pieces evs) ++ x)) (hm0 : m0.length = c.shift) (hu : c.hdr.usedSize = (pieces evs).length)
    (ho : ∀ e, o = some e → e.2.length % 2 = 0 ∧ e.2.length < 4294967280) (hlen : c.mem.length < 4294967280) :
    ∃ y, c.joined = pieces (join o evs) ++ y ∧ c.shift + (pieces evs).length = (pieces (join o evs)).length := by
  have hmem : (if c.swapping then
      c.mem.take c.shift ++ swap ((c.mem.drop c.shift).take c.hdr.usedSize) ++ (c.mem.drop c.shift).drop c.hdr.usedSize
      else c.mem) = m0 ++ (pieces evs ++ x) := by
    rw [hsw]
    cases sw with
    | false => simpa [wire] using hm
    | true =>
      simp only [if_true, hm, wire]
      rw [take_append_len hm0, drop_append_len hm0, hu, take_append_len (swap_length _), drop_append_len (swap_length _), swap_swap,
        List.append_assoc]
  have hml : c.mem.length = c.shift + (pieces evs).length + x.length := by
    rw [hm, List.length_append, List.length_append, wire_length, hm0]; omega
  cases o with
  | none =>
    have hs := shift_none hsp
    refine ⟨x, ?_, by simp [join, hs]⟩
    unfold Cli.joined
    rw [hmem]
    dsimp only
    rw [if_pos (by rw [hsp]; rfl)]
    obtain rfl : m0 = [] := List.length_eq_zero_iff.1 (by omega)
    simp [join]
  | some e =>
    cases evs with
    | nil => exact absurd rfl hne
    | cons f l =>
      have hf := hev f (List.mem_cons_self ..)
      have hfl := mem_pieces_le (l := f :: l) (e := f) (List.mem_cons_self ..)
      obtain ⟨he, hel⟩ := ho e rfl
      have hs := shift_some hsp hel
      refine ⟨x, ?_, ?_⟩
      · unfold Cli.joined
        rw [hmem]
        dsimp only
        rw [if_neg (by rw [hsp, spanOf_some]; exact piece_ne e), drop_append_len hm0]
        have hw : u32 (8 + word (pieces (f :: l) ++ x) 0 * 2) = 8 + f.2.length := by
          rw [pieces_cons, List.append_assoc, word_piece f _ (by omega), u32_of_lt (by omega)]; omega
        rw [hw, hsp, spanOf_some, hs]
        have hd : (m0 ++ (pieces (f :: l) ++ x)).drop (piece e).length = f.2 ++ (pieces l ++ x) := by
          rw [piece_length, Nat.add_comm, ← List.drop_drop, drop_append_len (by omega), pieces_cons, piece]
          simp only [List.append_assoc]
          rw [← List.append_assoc (enc 4 _), drop_append_len (by simp)]
        rw [hd]
        have hfw : fullWords (u32 (e.2.length + (8 + f.2.length))) = (e.2.length + f.2.length) / 2 := by
          unfold fullWords
          rw [u32_of_lt (by omega), sub32_of_le (by omega) (by omega)]
          omega
        rw [hfw, join_pieces]
        have : (piece e ++ (f.2 ++ (pieces l ++ x))).drop 4 = enc 4 e.1 ++ (e.2 ++ (f.2 ++ (pieces l ++ x))) := by
          unfold piece
          simp only [List.append_assoc]
          exact drop_append_len (by simp)
        rw [this]
        simp only [List.append_assoc]
      · rw [join_pieces, hs, pieces_cons, List.length_append, piece_length]
        simp
        omega

theorem getLast_pieces {l : List Event} (h : l ≠ []) : pieces l = pieces l.dropLast ++ spanOf l.getLast? := by
  conv => lhs; rw [← List.dropLast_concat_getLast h]
  rw [pieces_append, List.getLast?_eq_some_getLast h, spanOf_some]
  simp [pieces]

theorem join_ne {o : Option Event} {l : List Event} (h : l ≠ []) : join o l ≠ [] := by
  cases l with
  | nil => exact absurd rfl h
  | cons f l => cases o <;> simp [join]

theorem join_even {o : Option Event} {l : List Event} (ho : ∀ e, o = some e → e.2.length % 2 = 0) (h : ∀ e ∈ l, e.2.length % 2 = 0) :
    ∀ e ∈ join o l, e.2.length % 2 = 0 := by
  cases o with
  | none => simpa [join] using h
  | some e =>
    cases l with
    | nil => simp [join]
    | cons f l =>
      have h1 := ho e rfl
      have h2 := h f (List.mem_cons_self ..)
      intro a ha
      obtain ⟨t, d⟩ := e
      obtain ⟨t', d'⟩ := f
      simp only [join] at ha
      rcases List.mem_cons.1 ha with rfl | ha
      · simp only [List.length_append] at *; omega
      · exact h a (List.mem_cons_of_mem _ ha)

/-- The event which is open behind a buffer. -/
def nextOpen (o : Option Event) (b : Packed) : Option Event := if b.more then (join o b.evs).getLast? else none

/-- The events which are complete with a buffer. -/
def complete (o : Option Event) (b : Packed) : List Event := if b.more then (join o b.evs).dropLast else join o b.evs

theorem readComplete_pieces {c : Cli} {sw : Bool} {o : Option Event} {b : Packed} {m0 x : Data} (hne : b.evs ≠ [])
    (hev : ∀ e ∈ b.evs, e.2.length % 2 = 0) (hlong : ∀ e ∈ join o b.evs, 8 ≤ e.2.length) (hst : c.st = .complBuffer) (hspan : c.spanning = true)
    (hsp : c.span = spanOf o) (hsw : c.swapping = sw)
    (hm : c.mem = m0 ++ (wire sw (pieces b.evs) ++ x)) (hm0 : m0.length = c.shift) (hu : c.hdr.usedSize = (pieces b.evs).length)
    (hh : c.hdr.hEnd = 0 ↔ b.more = false)
    (ho : ∀ e, o = some e → e.2.length % 2 = 0 ∧ e.2.length < 4294967280) (hlen : c.mem.length < 4294967280) :
    ∃ out, c.readComplete = { c with span := spanOf (nextOpen o b), st := .ready, drv := .idle, out := c.out ++ out } ∧
      out.flatten = pieces (complete o b) := by
  obtain ⟨y, h1, h2⟩ := joined_eq hne hev hsp hsw hm hm0 hu ho hlen
  have hml : c.mem.length = c.shift + (pieces b.evs).length + x.length := by
    rw [hm, List.length_append, List.length_append, wire_length, hm0]; omega
  have hn : u32 (c.shift + c.hdr.usedSize) = (pieces (join o b.evs)).length := by
    rw [hu, u32_of_lt (by omega), h2]
  have hc : c.complete =
      if c.spanning ∧ c.hdr.hEnd ≠ 0 then
        ({ c with span := (spanOf (join o b.evs).getLast?), st := .ready },
          if pieces (join o b.evs).dropLast = [] then .skip else .ok, pieces (join o b.evs).dropLast)
      else ({ c with span := [], st := .ready }, if pieces (join o b.evs) = [] then .skip else .ok, pieces (join o b.evs)) := by
    unfold Cli.complete
    rw [if_neg (by simp [hst]), h1, hn]
    dsimp only
    rw [if_neg (by simp), List.take_left]
    have hall : ∀ e ∈ join o b.evs, 8 ≤ e.2.length ∧ e.2.length % 2 = 0 ∧ e.2.length < 4294967280 := by
      intro e he
      refine ⟨hlong e he, join_even (fun e h => (ho e h).1) hev e he, ?_⟩
      have := mem_pieces_le he
      omega
    have hg := getLast_pieces (join_ne (o := o) hne)
    have hge := pieces_len_ge (join o b.evs)
    rw [walk_first _ (join_ne hne) _ (by omega) hall]
    dsimp only
    have ht : (pieces (join o b.evs)).take (pieces (join o b.evs).dropLast).length = pieces (join o b.evs).dropLast := by
      conv => lhs; rw [hg]
      rw [List.take_left]
    have hd : (pieces (join o b.evs)).drop (pieces (join o b.evs).dropLast).length = spanOf (join o b.evs).getLast? := by
      conv => lhs; rw [hg]
      rw [List.drop_left]
    rw [ht, hd]
  have hjn : pieces (join o b.evs) ≠ [] := by
    have := pieces_len_ge (join o b.evs)
    have h3 := List.length_pos_iff.2 (join_ne (o := o) hne)
    exact List.ne_nil_of_length_pos (by omega)
  unfold Cli.readComplete
  rw [hc]
  cases hb : b.more with
  | false =>
    rw [if_neg (by simp [hh, hb])]
    rw [if_neg hjn]
    refine ⟨[pieces (join o b.evs)], ?_, by simp [complete, hb]⟩
    simp [nextOpen, hb, spanOf]
  | true =>
    rw [if_pos (by simp [hh, hb, hspan])]
    by_cases hz : pieces (join o b.evs).dropLast = []
    · rw [if_pos hz]
      refine ⟨[], ?_, by simp [complete, hb, hz]⟩
      simp [nextOpen, hb]
    · rw [if_neg hz]
      refine ⟨[pieces (join o b.evs).dropLast], ?_, by simp [complete, hb]⟩
      simp [nextOpen, hb]

/-- The receiver between two buffers. -/
structure Idle (sw : Bool) (max : Nat) (o : Option Event) (c : Cli) : Prop where
  st : c.st = .ready
  drv : c.drv = .idle
  spanning : c.spanning = true
  swapping : c.swapping = sw
  max : c.maxBytes = max
  span : c.span = spanOf o

theorem wire_wire (sw : Bool) (l : Data) : (if sw then swap (wire sw l) else wire sw l) = l := by
  cases sw
  · rfl
  · exact swap_swap l

theorem takeSize_dflt : takeSize diDflt = .buf 0 := by
  simp [takeSize, diDflt, diCallBack, diEnd]

/-- One buffer. -/
theorem one_buffer {s : Net} {sw : Bool} {max : Nat} {o : Option Event} {b : Packed} {mem rest : Data} {l : List Packed}
    (hi : Idle sw max o s.cli) (hmax : max < 4294967296) (hmem : mem.length < 4294967248)
    (ho : ∀ e, o = some e → e.2.length % 2 = 0) (hg : Good sw max mem.length o (b :: l))
    (hd : s.down = stream sw o (b :: l) ++ rest) :
    ∃ out, Idle sw max (nextOpen o b) (s.run (perBuffer mem)).cli ∧
      (s.run (perBuffer mem)).down = stream sw (nextOpen o b) l ++ rest ∧
      (s.run (perBuffer mem)).cli.out = s.cli.out ++ out ∧ out.flatten = pieces (complete o b) := by
  obtain ⟨i1, i2, i3, i4, i5, i6⟩ := hi
  obtain ⟨g1, g2, g3, g4, g5, g6, g7, g8, -⟩ := hg
  have heven := pieces_even g2
  have hpl : (pieces b.evs ++ b.fill).length = (pieces b.evs).length + b.fill.length := List.length_append
  have hpos : 0 < (pieces b.evs).length := by
    have := pieces_len_ge b.evs
    have := List.length_pos_iff.2 g1
    omega
  have hspl : s.cli.span.length = (o.map piece).elim 0 List.length := by
    rw [i6]; cases o <;> rfl
  have ho' : ∀ e, o = some e → e.2.length % 2 = 0 ∧ e.2.length < 4294967280 := by
    rintro e rfl
    refine ⟨ho e rfl, ?_⟩
    have := piece_length e
    simp at g8
    omega
  have hsh : s.cli.shift + 8 ≤ s.cli.span.length ∨ (s.cli.shift = 0 ∧ o = none) := by
    cases o with
    | none => exact Or.inr ⟨shift_none i6, rfl⟩
    | some e => left; rw [shift_some i6 (ho' e rfl).2, i6, spanOf_some, piece_length]; omega
  obtain ⟨r1, r2, r3, r4⟩ := header_of (pieces b.evs ++ b.fill).length (pieces b.evs).length o.isSome b.more (by omega) (by omega) g4 heven
  generalize hH : header (pieces b.evs ++ b.fill).length (pieces b.evs).length o.isSome b.more = H at *
  have hHl : (wire sw H).length = 48 := by rw [wire_length, ← hH, header_length]
  have hPl : (wire sw (pieces b.evs ++ b.fill)).length = (pieces b.evs ++ b.fill).length := wire_length ..
  have hds : s.down = wire sw H ++ (wire sw (pieces b.evs ++ b.fill) ++ (stream sw (nextOpen o b) l ++ rest)) := by
    rw [hd]; simp only [stream, nextOpen, hH, List.append_assoc]
  -- the size is asked
  let c1 : Cli := { s.cli with drv := .size, want := some 48, st := .recvHeader }
  have e1 : s.step .readSize = { s with cli := c1, up := s.up ++ s.cli.readSize.2 } := by
    simp only [Net.step, i2, if_true, Cli.readSize, i1, Cli.submit, c1]
  -- the header
  let c2 : Cli := { c1 with want := none, hdr := Hdr.ofBytes H, st := .waitBuffer, drv := .buf 0 }
  have e2 : c1.recv (wire sw H) = (c2, []) := by
    simp only [Cli.recv, c1, Cli.onHeader, c2]
    rw [i4, wire_wire, r1, i5, if_neg (by omega), if_neg (by omega), i3]
    simp only [Cli.callBack, if_true, takeSize_dflt]
  -- the buffer
  let c3 : Cli := { c2 with drv := .data, st := .recvBuffer, want := some (pieces b.evs ++ b.fill).length, mem := mem }
  have e3 : c2.readStart 0 mem = c3 := by
    unfold Cli.readStart
    rw [if_neg (by omega)]
    have : ({ c2 with drv := .data } : Cli).start (if 0 > 0 then mem.take 0 else mem) = (c3, true) := by
      unfold Cli.start
      rw [if_neg (by simp [c2]), if_neg (by simp [c2, r1]; omega)]
      have hwn : ({ c2 with drv := .data } : Cli).want.isSome = false := rfl
      have hshe : ({ c2 with drv := .data } : Cli).shift = s.cli.shift := rfl
      simp only [hwn, hshe, Bool.false_eq_true, if_false]
      by_cases hz : s.cli.span = []
      · rw [if_neg (by simpa [c2, c1] using hz)]
        simp [c2, c3, r1]
      · rw [if_pos (by simpa [c2, c1] using hz)]
        have hoS : o.isSome = true := by
          cases o with
          | none => exact absurd (by rw [i6]; rfl) hz
          | some e => rfl
        rw [if_neg (by show ¬ (Hdr.ofBytes H).hBegin = 0; rw [r3, hoS]; simp)]
        rw [if_neg (by simp [c2, c1, r1]; omega)]
        rw [if_neg (by
          rcases hsh with h | ⟨h, rfl⟩
          · simp; omega
          · exact absurd (by rw [i6]; rfl) hz)]
        simp [c2, c3, r1]
    rw [this]
  -- the data
  let c4 : Cli := { c3 with want := none, mem := mem.take s.cli.shift ++ wire sw (pieces b.evs ++ b.fill) ++ mem.drop (s.cli.shift + (pieces b.evs ++ b.fill).length), st := .complBuffer, drv := .compl }
  have e4 : c3.recv (wire sw (pieces b.evs ++ b.fill)) = (c4, []) := by
    have hshe : ({ c3 with want := none } : Cli).shift = s.cli.shift := rfl
    unfold Cli.recv
    simp only [Cli.onData, hshe]
    rw [if_pos (by show (Hdr.ofBytes H).usedSize > 0; omega)]
    simp only [Cli.callBack, c4, c3, hPl]
  have hm4 : c4.mem = mem.take s.cli.shift ++ (wire sw (pieces b.evs) ++ (wire sw b.fill ++ mem.drop (s.cli.shift + (pieces b.evs ++ b.fill).length))) := by
    have : wire sw (pieces b.evs ++ b.fill) = wire sw (pieces b.evs) ++ wire sw b.fill := by
      cases sw with
      | false => rfl
      | true => exact swap_append _ _ (g5 rfl)
    show mem.take s.cli.shift ++ wire sw (pieces b.evs ++ b.fill) ++ _ = _
    rw [this]
    simp only [List.append_assoc]
  have hshm : s.cli.shift + (pieces b.evs ++ b.fill).length ≤ mem.length := by
    rcases hsh with h | ⟨h, -⟩ <;> omega
  have h4l : c4.mem.length = mem.length := by
    rw [hm4]
    simp only [List.length_append, List.length_take, List.length_drop, wire_length]
    omega
  obtain ⟨out, e5, e6⟩ := readComplete_pieces (c := c4) (sw := sw) (o := o) (b := b) g1 g2 g3 rfl i3 i6 i4 hm4
    (by show _ = s.cli.shift; rw [List.length_take]; omega) r2 r4 ho' (by omega)
  refine ⟨out, ?_⟩
  have hrun : s.run (perBuffer mem) =
      { s with cli := c4.readComplete, up := s.up ++ s.cli.readSize.2 ++ [] ++ [], down := stream sw (nextOpen o b) l ++ rest } := by
    simp only [perBuffer, Net.run, List.foldl_cons, List.foldl_nil, e1]
    have hw1 : c1.want = some 48 := rfl
    have hw3 : c3.want = some (pieces b.evs ++ b.fill).length := rfl
    have hd2 : c2.drv = .buf 0 := rfl
    have hd4 : c4.drv = .compl := rfl
    have hle1 : 48 ≤ s.down.length := by rw [hds, List.length_append]; omega
    have hle2 : (pieces b.evs ++ b.fill).length ≤ (wire sw (pieces b.evs ++ b.fill) ++ (stream sw (nextOpen o b) l ++ rest)).length := by
      rw [List.length_append (as := wire sw _), hPl]; omega
    simp only [Net.step, hw1, if_pos hle1]
    rw [hds, take_append_len hHl, drop_append_len hHl, e2]
    simp only [hd2, e3, hw3, if_pos hle2]
    rw [take_append_len hPl, drop_append_len hPl, e4]
    simp only [hd4, if_true]
  rw [hrun, e5]
  exact ⟨⟨rfl, rfl, i3, i4, i5, rfl⟩, rfl, rfl, e6⟩

theorem nextOpen_even {o : Option Event} {b : Packed} (ho : ∀ e, o = some e → e.2.length % 2 = 0) (hb : ∀ e ∈ b.evs, e.2.length % 2 = 0) :
    ∀ e, nextOpen o b = some e → e.2.length % 2 = 0 := by
  intro e he
  unfold nextOpen at he
  split at he
  · exact join_even ho hb e (List.mem_of_getLast? he)
  · cases he

theorem all_buffers (l : List Packed) : ∀ {s : Net} {sw : Bool} {max : Nat} {o : Option Event} {mem rest : Data},
    Idle sw max o s.cli → max < 4294967296 → mem.length < 4294967248 → (∀ e, o = some e → e.2.length % 2 = 0) →
    Good sw max mem.length o l → s.down = stream sw o l ++ rest →
    ∃ out, Idle sw max (assemble o l).2 (s.run (l.flatMap fun _ => perBuffer mem)).cli ∧
      (s.run (l.flatMap fun _ => perBuffer mem)).down = rest ∧
      (s.run (l.flatMap fun _ => perBuffer mem)).cli.out = s.cli.out ++ out ∧ out.flatten = pieces (assemble o l).1 := by
  induction l with
  | nil =>
    intro s sw max o mem rest hi _ _ _ _ hd
    exact ⟨[], hi, by simpa [stream, Net.run] using hd, by simp [Net.run], rfl⟩
  | cons b l ih =>
    intro s sw max o mem rest hi hmax hmem ho hg hd
    obtain ⟨out, h1, h2, h3, h4⟩ := one_buffer hi hmax hmem ho hg hd
    obtain ⟨out', k1, k2, k3, k4⟩ := ih h1 hmax hmem (nextOpen_even ho hg.2.1) hg.2.2.2.2.2.2.2.2 h2
    refine ⟨out ++ out', ?_⟩
    have hr : s.run ((b :: l).flatMap fun _ => perBuffer mem) = (s.run (perBuffer mem)).run (l.flatMap fun _ => perBuffer mem) := by
      simp only [Net.run, List.flatMap_cons, List.foldl_append]
    rw [hr]
    refine ⟨k1, k2, by rw [k3, h3, List.append_assoc], ?_⟩
    rw [List.flatten_append, h4, k4]
    simp only [assemble, complete, nextOpen]
    rw [pieces_append]

end Verif.MbsNet
