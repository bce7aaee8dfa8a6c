import Verif.LmdFileLemmas

/-! # C30: LMD files are read event by event; C57 for LMD files -/

namespace Verif.LmdFile

open Verif.Bytes Verif.File

theorem flatten_ne {done : List (List Byte)} (h : ∀ e ∈ done, Event e) (hne : done ≠ []) : 0 < done.flatten.length := by
  cases done with
  | nil => exact absurd rfl hne
  | cons e done =>
    have := (h e List.mem_cons_self).2.1
    rw [List.flatten_cons, List.length_append]
    omega

theorem turns_spec {most : Nat} : ∀ (calls : List (List Byte × Nat)) (f : RFile) (evs : List (List Byte)),
    (∀ c ∈ calls, Provided most c) → At most f evs →
    ∃ (ts : List Turn) (parts : List (List (List Byte))), turns calls { file := some f, more := [] } = some ts ∧ chunks ts = parts.map List.flatten ∧
      (∀ p ∈ parts, p ≠ []) ∧ parts.flatten <+: evs ∧ Turn.error ∉ ts ∧ Turn.hang ∉ ts ∧ Turn.thrown ∉ ts ∧
      (Turn.ended ∈ ts → parts.flatten = evs) ∧ (evs.length < calls.length → Turn.ended ∈ ts) := by
  intro calls
  induction calls with
  | nil =>
    intro f evs _ _
    exact ⟨[], [], rfl, rfl, by simp, by simp, by simp, by simp, by simp, by simp, by simp⟩
  | cons c calls ih =>
    intro f evs hp h
    obtain ⟨h1, h2, h3⟩ := hp c List.mem_cons_self
    obtain ⟨done, rest, mem', f', e1, e2, e3, e4, e5, e6⟩ := read_step (mem := c.1) h h1 (by omega) (by omega) (by omega)
    have hgood := h.good
    rw [turns]
    unfold turn readComplete
    dsimp only
    rw [e2]
    by_cases hd : done = []
    · have he := e6 hd
      subst hd
      refine ⟨[.ended], [], rfl, rfl, by simp, by simp, by simp, by simp, by simp, ?_, by simp⟩
      intro _
      rw [he]
      rfl
    · have hpos := flatten_ne (done := done) (fun e he => (hgood e (by rw [e1]; exact List.mem_append_left _ he)).1) hd
      obtain ⟨k, hk⟩ : ∃ k, done.flatten.length = k + 1 := ⟨done.flatten.length - 1, by omega⟩
      obtain ⟨ts, parts, a1, a2, a3, a4, a5, a6, a6', a7, a8⟩ := ih f' rest (fun x hx => hp x (List.mem_cons_of_mem _ hx)) e5
      rw [hk] at e3 e4 ⊢
      dsimp only [Option.map]
      rw [if_neg (by omega)]
      dsimp only
      rw [a1, e3]
      refine ⟨.data done.flatten :: ts, done :: parts, rfl, ?_, ?_, ?_, by simpa using a5, by simpa using a6, by simpa using a6', ?_, ?_⟩
      · rw [chunks, a2]
        rfl
      · intro p hp
        rcases List.mem_cons.1 hp with rfl | hp
        · exact hd
        · exact a3 p hp
      · rw [List.flatten_cons, e1]
        exact (List.prefix_append_right_inj done).2 a4
      · intro he
        rw [List.flatten_cons, e1, a7 (by simpa using he)]
      · intro hl
        have := List.length_pos_iff.2 hd
        rw [e1, List.length_append, List.length_cons] at hl
        exact List.mem_cons_of_mem _ (a8 (by omega))

/-- **C30, reading**: a file, complete or cut, read with buffers of any sizes and any old content, as long as they hold the largest event:
the buffers delivered have whole events: the events of the file, in order and each once; there is no error, no exception and
no endless loop; and after at most one turn for every event the end of the stream is reported. -/
theorem C30_read {most : Nat} {data : List Byte} {evs : List (List Byte)} {calls : List (List Byte × Nat)}
    (hf : Content most data evs) (hc : ∀ c ∈ calls, Provided most c) :
    ∃ (s : Input) (ts : List Turn) (parts : List (List (List Byte))), readInit [data] = (true, s) ∧ turns calls s = some ts ∧
      chunks ts = parts.map List.flatten ∧ (∀ p ∈ parts, p ≠ []) ∧ parts.flatten <+: evs ∧ Turn.error ∉ ts ∧ Turn.hang ∉ ts ∧ Turn.thrown ∉ ts ∧
      (Turn.ended ∈ ts → parts.flatten = evs) ∧ (evs.length < calls.length → Turn.ended ∈ ts) := by
  obtain ⟨hgood, last, piece, hd, hx⟩ := hf
  obtain ⟨f, h1, h2⟩ := openReading_good (evs.flatten ++ piece)
  obtain ⟨ts, parts, a⟩ := turns_spec calls f evs hc ⟨hgood, last, piece, h2, hx⟩
  refine ⟨{ file := some f, more := [] }, ts, parts, ?_, a⟩
  unfold readInit openNext
  dsimp only
  rw [hd, h1]

/-- The bytes of events, cut anywhere. -/
theorem prefix_events : ∀ (evs : List (List Byte)) (p : List Byte), (∀ e ∈ evs, Event e) → p <+: evs.flatten →
    p = evs.flatten ∨ ∃ done e rest q, evs = done ++ e :: rest ∧ p = done.flatten ++ q ∧ q <+: e ∧ q.length < e.length := by
  intro evs
  induction evs with
  | nil =>
    intro p _ h
    left
    exact List.prefix_nil.1 h
  | cons e evs ih =>
    intro p he h
    by_cases hl : p.length < e.length
    · right
      refine ⟨[], e, evs, p, rfl, rfl, ?_, hl⟩
      exact List.prefix_of_prefix_length_le h (List.prefix_append _ _) (by omega)
    · obtain ⟨p', rfl⟩ : ∃ p', p = e ++ p' := by
        obtain ⟨t, ht⟩ := List.prefix_of_prefix_length_le (List.prefix_append e evs.flatten) h (by omega)
        exact ⟨t, ht.symm⟩
      rw [List.flatten_cons, List.prefix_append_right_inj] at h
      rcases ih p' (fun x hx => he x (List.mem_cons_of_mem _ hx)) h with h1 | ⟨done, x, rest, q, h1, h2, h3, h4⟩
      · left
        rw [h1]
        rfl
      · right
        exact ⟨e :: done, x, rest, q, by rw [h1]; rfl, by rw [h2, List.flatten_cons, List.append_assoc], h3, h4⟩

theorem writeAll_spec : ∀ (ls : List (List Byte)) (w : Writer), w.opened = true → (∀ l ∈ ls, l ≠ []) →
    ∃ n w', writeAll w ls = (n, w') ∧ n ≤ ls.length ∧ w'.file.data = w.file.data ++ ls.flatten.take w.file.room ∧
      (ls.take n).flatten.length ≤ w.file.room ∧ (n < ls.length → w.file.room < (ls.take (n + 1)).flatten.length) := by
  intro ls
  induction ls with
  | nil =>
    intro w _ _
    exact ⟨0, w, rfl, Nat.le_refl _, by simp, by simp, by simp⟩
  | cons l ls ih =>
    intro w ho hne
    have hl : l.length ≠ 0 := by
      have := List.length_pos_iff.2 (hne l List.mem_cons_self)
      omega
    rw [writeAll]
    unfold writeBuffer fwrite
    rw [if_neg (by rw [ho]; simp; exact List.length_pos_iff.1 (by omega))]
    by_cases hr : l.length ≤ w.file.room
    · rw [if_pos hr]
      dsimp only
      obtain ⟨n, w', h1, h2, h3, h4, h5⟩ := ih { opened := true, file := { data := w.file.data ++ l, room := w.file.room - l.length } } rfl
        (fun x hx => hne x (List.mem_cons_of_mem _ hx))
      rw [h1]
      refine ⟨n + 1, w', rfl, by rw [List.length_cons]; omega, ?_, ?_, ?_⟩
      · rw [h3, List.flatten_cons, List.take_append, List.take_of_length_le hr, List.append_assoc]
      · rw [List.take_succ_cons, List.flatten_cons, List.length_append]
        change _ ≤ w.file.room - l.length at h4
        omega
      · intro hn
        rw [List.length_cons] at hn
        rw [List.take_succ_cons, List.flatten_cons, List.length_append]
        have := h5 (by omega)
        change w.file.room - l.length < _ at this
        omega
    · rw [if_neg hr]
      refine ⟨0, _, rfl, Nat.zero_le _, ?_, by simp, ?_⟩
      · dsimp only
        rw [List.flatten_cons, List.take_append_of_le_length (by omega)]
      · intro _
        rw [List.take_succ_cons, List.take_zero, List.flatten_cons, List.flatten_nil, List.append_nil]
        omega

/-- **C30, writing**: buffers with whole events written into a new file on a disk with any room: the file has the events of all accepted
buffers, in order, perhaps further events and a piece of an event of the buffer which was not accepted; it is a file in the sense of
`C30_read`, so that reading it again gives these events.  A buffer is accepted as long as it fits. -/
theorem C30_written {most room : Nat} {bufs : List (List (List Byte))} (hb : ∀ b ∈ bufs, b ≠ [] ∧ ∀ e ∈ b, Event e ∧ e.length ≤ most)
    (hroom : 48 ≤ room) (h8 : 8 ≤ most) (hcut : room % 4 = 0 ∨ ∀ b ∈ bufs, ∀ e ∈ b, e.length % 512 ≠ 0) :
    ∃ n w w' evs, openWriting room = (true, w) ∧ writeAll w (bufs.map List.flatten) = (n, w') ∧ Content most w'.file.data evs ∧
      (bufs.take n).flatten <+: evs ∧ evs <+: bufs.flatten ∧ n ≤ bufs.length ∧
      (n = bufs.length ∨ room < 48 + (bufs.take (n + 1)).flatten.flatten.length) := by
  have hl := fileHeader_length
  have hopen : openWriting room = (true, { opened := true, file := { data := fileHeader, room := room - 48 } }) := by
    unfold openWriting fwrite
    rw [if_pos (by show fileHeader.length ≤ room; omega)]
    dsimp only
    rw [hl, List.nil_append]
  have hall : ∀ e ∈ bufs.flatten, Event e ∧ e.length ≤ most := by
    intro e he
    obtain ⟨b, hb', he'⟩ := List.mem_flatten.1 he
    exact (hb b hb').2 e he'
  have hallc : room % 4 = 0 ∨ ∀ e ∈ bufs.flatten, e.length % 512 ≠ 0 := by
    rcases hcut with h | h
    · exact Or.inl h
    · right
      intro e he
      obtain ⟨b, hb', he'⟩ := List.mem_flatten.1 he
      exact h b hb' e he'
  have hmap : ∀ k, ((bufs.map List.flatten).take k).flatten = (bufs.take k).flatten.flatten := by
    intro k
    rw [List.flatten_flatten, List.map_take]
  obtain ⟨n, w', h1, h2, h3, h4, h5⟩ := writeAll_spec (bufs.map List.flatten) { opened := true, file := { data := fileHeader, room := room - 48 } } rfl (by
      intro l hl
      obtain ⟨b, hb', rfl⟩ := List.mem_map.1 hl
      obtain ⟨hne, hev⟩ := hb b hb'
      have := flatten_ne (fun e he => (hev e he).1) hne
      exact List.length_pos_iff.1 this)
  dsimp only at h3 h4 h5
  rw [List.length_map] at h2 h5
  rw [hmap] at h4 h5
  rw [← List.flatten_flatten] at h3
  have hlim : n = bufs.length ∨ room < 48 + (bufs.take (n + 1)).flatten.flatten.length := by
    by_cases hn : n < bufs.length
    · have := h5 hn
      right
      omega
    · left
      omega
  have hsplit : (bufs.take n).flatten ++ (bufs.drop n).flatten = bufs.flatten := by
    rw [← List.flatten_append, List.take_append_drop]
  have hev8 : Event (enc 4 0 ++ enc 4 0) := by decide +kernel
  rcases prefix_events bufs.flatten _ (fun e he => (hall e he).1) (List.take_prefix (room - 48) bufs.flatten.flatten) with hp | ⟨done, e, rest, q, p1, p2, p3, p4⟩
  · refine ⟨n, _, w', bufs.flatten, hopen, h1, ⟨hall, enc 4 0 ++ enc 4 0, [], ?_, hev8, by simpa [enc_length] using h8, List.nil_prefix, by simp [enc_length], Or.inl rfl⟩, ⟨_, hsplit⟩, List.prefix_rfl, h2, hlim⟩
    rw [h3, hp, List.append_nil]
  · have hmem : e ∈ bufs.flatten := by rw [p1]; simp
    have hcut' : q.length % 4 = 0 ∨ e.length % 512 ≠ 0 := by
      rcases hallc with h | h
      · left
        have hd4 := mod4_flatten (evs := done) fun x hx => (hall x (by rw [p1]; exact List.mem_append_left _ hx)).1
        have hlen := congrArg List.length p2
        rw [List.length_append, List.length_take] at hlen
        have htot : done.flatten.length + e.length ≤ bufs.flatten.flatten.length := by
          rw [p1, List.flatten_append, List.flatten_cons, List.length_append, List.length_append]
          omega
        omega
      · exact Or.inr (h e hmem)
    refine ⟨n, _, w', done, hopen, h1, ⟨fun x hx => hall x (by rw [p1]; exact List.mem_append_left _ hx), e, q, by rw [h3, p2], (hall e hmem).1, (hall e hmem).2, p3, p4, hcut'⟩, ?_, ⟨e :: rest, p1.symm⟩, h2, hlim⟩
    have ha : (bufs.take n).flatten <+: bufs.flatten := ⟨_, hsplit⟩
    have hb' : done <+: bufs.flatten := ⟨e :: rest, p1.symm⟩
    refine List.prefix_of_prefix_length_le ha hb' (Nat.le_of_not_lt fun hgt => ?_)
    have hda : done ++ [e] <+: (bufs.take n).flatten := by
      refine List.prefix_of_prefix_length_le ⟨rest, by rw [p1, List.append_assoc]; rfl⟩ ha ?_
      rw [List.length_append, List.length_singleton]
      omega
    obtain ⟨t, ht⟩ := hda
    have hlen := congrArg List.length p2
    rw [List.length_append, List.length_take] at hlen
    rw [← ht, List.flatten_append, List.flatten_append, List.length_append, List.length_append, List.flatten_cons, List.length_append] at h4
    have htot : done.flatten.length + e.length ≤ bufs.flatten.flatten.length := by
      rw [p1, List.flatten_append, List.flatten_cons, List.length_append, List.length_append]
      omega
    omega

/-- **C30, any content** (partial: see the counterexamples): reading from a file with any content stays inside of the memory when at least 3
bytes follow the bytes used of the buffer; and it ends, unless the file has a header whose size, computed in 32 bits, is 0. -/
theorem C30_any_partial (f : RFile) (mem : List Byte) (maxsz : Nat) (hm : maxsz + 3 ≤ mem.length) :
    ∃ res mem' f', readBuffer f mem maxsz false = some (res, mem', f') ∧ mem'.length = mem.length ∧
      (res = .hang → ∃ o w, o < maxsz ∧ word mem' o = some w ∧ fullSize w = 0) := by
  unfold readBuffer
  by_cases h8 : maxsz < 8
  · rw [if_pos h8]
    exact ⟨_, _, _, rfl, rfl, by simp⟩
  rw [if_neg h8]
  have hg : (fread f maxsz).1.length ≤ maxsz := List.length_take_le _ _
  generalize fread f maxsz = x at *
  obtain ⟨got, f'⟩ := x
  dsimp only at hg ⊢
  have hlen : (got ++ mem.drop got.length).length = mem.length := by
    rw [List.length_append, List.length_drop]
    omega
  rw [if_neg (by omega)]
  split
  · exact ⟨_, _, _, rfl, hlen, by simp⟩
  · have hs := walk_safe (s := got ++ mem.drop got.length) (r := got.length) (by omega) got.length 0 (by omega)
    cases hw : walk (got ++ mem.drop got.length) false got.length 0 with
    | none => exact absurd hw hs
    | some w =>
      refine ⟨_, _, _, rfl, hlen, ?_⟩
      intro hh
      have : w = .hang := by
        cases w with
        | hang => rfl
        | back c => cases hh
        | done c => cases hh
      subst this
      obtain ⟨o, w, h1, h2, h3⟩ := walk_hang _ _ got.length 0 (by omega) hw
      exact ⟨o, w, by omega, h2, h3⟩

/-! ## Examples -/

/-- An event of 16 bytes. -/
def ev (b : Byte) : List Byte := [4, 0, 0, 0] ++ List.replicate 12 b

/-- A file cut 3 bytes behind the second event. -/
example : Content 16 (fileHeader ++ ([ev 1, ev 2].flatten ++ (ev 3).take 3)) [ev 1, ev 2] :=
  ⟨by decide, ev 3, (ev 3).take 3, rfl, by decide, by decide, List.take_prefix _ _, by decide, Or.inr (by decide)⟩

example : Provided 16 (List.replicate 31 0, 25) := by decide

example : turns [(List.replicate 31 0, 25), (List.replicate 31 0, 25), (List.replicate 40 7, 40)]
    (readInit [fileHeader ++ ([ev 1, ev 2].flatten ++ (ev 3).take 3)]).2 = some [.data (ev 1), .data (ev 2), .ended] := by decide +kernel

/-- Three events in two buffers, on a disk on which the second buffer does not fit. -/
example : (∀ b ∈ [[ev 1, ev 2], [ev 3]], b ≠ [] ∧ ∀ e ∈ b, Event e ∧ e.length ≤ 16) ∧ (writeAll (openWriting 90).2 ([[ev 1, ev 2], [ev 3]].map List.flatten)).1 = 1 := by
  decide +kernel

/-! ## Where the full claim does not hold -/

/-- **C30 does not hold** for any file content: a header whose size wraps to 0 makes `ReadBuffer` loop forever. -/
theorem C30_hang_counterexample :
    turns [(List.replicate 64 0, 64)] (readInit [fileHeader ++ [0xfc, 0xff, 0xff, 0x7f, 0, 0, 0, 0]]).2 = some [.hang] := by decide +kernel

/-- **C30 does not hold** for a file with 2 bytes behind the last event, when the buffer is just filled: the size is looked for behind
the end of the memory. -/
theorem C30_overread_counterexample :
    turns [(List.replicate 24 0, 24)] (readInit [fileHeader ++ ([7, 0, 0, 0] ++ List.replicate 18 1 ++ [1, 1])]).2 = none := by decide +kernel

/-- **C57 does not hold** for `LmdInput`: after the first file the second one is opened, but an error is reported. -/
theorem C57_lmd_counterexample : Content 16 (fileHeader ++ ([ev 1].flatten ++ [])) [ev 1] ∧ Content 16 (fileHeader ++ ([ev 2].flatten ++ [])) [ev 2] ∧
    turns (List.replicate 9 (List.replicate 64 0, 64)) (readInit [fileHeader ++ ([ev 1].flatten ++ []), fileHeader ++ ([ev 2].flatten ++ [])]).2 =
      some [.data (ev 1), .error] :=
  ⟨⟨by decide, ev 3, [], rfl, by decide, by decide, List.nil_prefix, by decide, Or.inl rfl⟩,
   ⟨by decide, ev 3, [], rfl, by decide, by decide, List.nil_prefix, by decide, Or.inl rfl⟩, by decide +kernel⟩

/-- **C57 does not hold** for `LmdInput`: an event which is larger than the buffer ends the stream without an error; the events behind
it are lost. -/
theorem C57_lmd_large_counterexample : Content 16 (fileHeader ++ ([ev 1, ev 2].flatten ++ [])) [ev 1, ev 2] ∧
    turns (List.replicate 9 (List.replicate 64 0, 8)) (readInit [fileHeader ++ ([ev 1, ev 2].flatten ++ [])]).2 = some [.ended] :=
  ⟨⟨by decide, ev 3, [], rfl, by decide, by decide, List.nil_prefix, by decide, Or.inl rfl⟩, by decide +kernel⟩

end Verif.LmdFile
