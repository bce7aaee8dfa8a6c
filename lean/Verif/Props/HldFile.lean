import Verif.HldFileRead

/-! # C29: HLD files are read event by event; C57 for HLD files -/

namespace Verif.HldFile

open Verif.Bytes Verif.File Verif.Pointer Verif.HadTu Verif.HadIter

/-- Start and stop records are records. -/
theorem record_is (id : Word) (run date time : Word) (hid : id = runStart ∨ id = runStop) :
    IsRecord id.toNat (wb [32, 0x30001, id, 0, date, time, run, 0]) := by
  have hl : (wb [32, 0x30001, id, 0, date, time, run, 0]).length = 32 := wb_length _
  have e : wb [32, 0x30001, id, 0, date, time, run, 0] = wb [32, 0x30001, id] ++ wb [0, date, time, run, 0] := wb_append [32, 0x30001, id] _
  have hd : (wb [32, 0x30001, id, 0, date, time, run, 0]).drop 0 = wb [32, 0x30001, id] ++ wb [0, date, time, run, 0] := e
  refine ⟨hl, ?_, ?_⟩
  · rw [sizeAt_at hd (by rw [wb_length, List.length_cons, List.length_cons]; omega)]
    rcases hid with rfl | rfl <;> decide
  · change idAt _ 0 = _
    rw [idAt_at hd (by rw [wb_length, List.length_cons, List.length_cons, List.length_cons]; omega)]
    rcases hid with rfl | rfl <;> decide

/-- Writing of buffers, one after the other; true when all were accepted. -/
def writeAll (w : Writer) : List (List Byte) → Bool × Writer
  | [] => (true, w)
  | l :: ls =>
    match writeBuffer w l with
    | (true, w) => writeAll w ls
    | (false, w) => (false, w)

theorem writeAll_spec : ∀ (ls : List (List Byte)) (w : Writer), w.opened = true → (∀ l ∈ ls, l ≠ []) → ls.flatten.length + 32 ≤ w.file.room →
    ∃ w', writeAll w ls = (true, w') ∧ w'.opened = true ∧ w'.run = w.run ∧ w'.file.data = w.file.data ++ ls.flatten ∧ 32 ≤ w'.file.room := by
  intro ls
  induction ls with
  | nil =>
    intro w ho _ hr
    exact ⟨w, rfl, ho, rfl, (List.append_nil _).symm, by simpa using hr⟩
  | cons l ls ih =>
    intro w ho hne hr
    rw [List.flatten_cons, List.length_append] at hr
    have hl : l.length ≠ 0 := by
      have := List.length_pos_iff.2 (hne l List.mem_cons_self)
      omega
    have hw : writeBuffer w l = (true, { w with file := { data := w.file.data ++ l, room := w.file.room - l.length } }) := by
      unfold writeBuffer fwrite
      rw [if_neg (by rw [ho]; simp; exact List.length_pos_iff.1 (by omega)), if_pos (by omega)]
    obtain ⟨w', h1, h2, h3, h4, h5⟩ := ih { w with file := { data := w.file.data ++ l, room := w.file.room - l.length } } ho
      (fun x hx => hne x (List.mem_cons_of_mem _ hx)) (by show _ ≤ w.file.room - l.length; omega)
    refine ⟨w', ?_, h2, h3, ?_, h5⟩
    · rw [writeAll, hw]
      exact h1
    · rw [h4, List.flatten_cons, List.append_assoc]

/-- **C29, writing**: a file opened for writing, into which buffers with whole events are written and which is then closed, is a complete
file with these events, whatever the run number and the clock were. -/
theorem C29_written {most room : Nat} {run date time date' time' : Word} {bufs : List (List (List Byte))}
    (he : ∀ b ∈ bufs, b ≠ [] ∧ ∀ e ∈ b, Event e ∧ e.length ≤ most) (hroom : bufs.flatten.flatten.length + 64 ≤ room) :
    ∃ w w' data, openWrite run date time room = some (true, w) ∧ writeAll w (bufs.map List.flatten) = (true, w') ∧
      close w' date' time' = some data ∧ Content most data bufs.flatten := by
  have hl : ∀ (id d t : Word), (wb [32, 0x30001, id, 0, d, t, run, 0]).length = 32 := fun id d t => wb_length _
  have hflat : (bufs.map List.flatten).flatten = bufs.flatten.flatten := by
    rw [List.flatten_flatten]
  have hopen : openWrite run date time room =
      some (true, { opened := true, file := { data := wb [32, 0x30001, runStart, 0, date, time, run, 0], room := room - 32 }, run := run }) := by
    unfold openWrite writeBuffer fwrite
    rw [record_eq, Option.map_some]
    rw [hl, if_neg (by simp), if_pos (by show 32 ≤ room; omega)]
    rfl
  obtain ⟨w', h1, h2, h3, h4, h5⟩ := writeAll_spec (bufs.map List.flatten)
    { opened := true, file := { data := wb [32, 0x30001, runStart, 0, date, time, run, 0], room := room - 32 }, run := run } rfl
    (by
      intro l hl
      obtain ⟨b, hb, rfl⟩ := List.mem_map.1 hl
      obtain ⟨hne, hev⟩ := he b hb
      cases b with
      | nil => exact absurd rfl hne
      | cons e b =>
        have := (hev e List.mem_cons_self).1.2.1
        intro h0
        have := congrArg List.length h0
        rw [List.flatten_cons, List.length_append, List.length_nil] at this
        omega) (by rw [hflat]; show _ ≤ room - 32; omega)
  refine ⟨_, w', w'.file.data ++ wb [32, 0x30001, runStop, 0, date', time', run, 0], hopen, h1, ?_, ?_⟩
  · unfold close writeBuffer fwrite
    change w'.run = run at h3
    rw [if_pos h2, record_eq, Option.map_some, h3, hl, if_neg (by rw [h2]; simp), if_pos (by omega)]
  · rw [h4, hflat, List.append_assoc, ← List.append_nil (wb [32, 0x30001, runStop, 0, date', time', run, 0])]
    refine Content.complete (record_is _ _ _ _ (Or.inl rfl)) (record_is _ _ _ _ (Or.inr rfl)) ?_
    intro e hee
    obtain ⟨b, hb, hm⟩ := List.mem_flatten.1 hee
    exact (he b hb).2 e hm

/-- **C29 and C57 for HLD files** (partial: buffer sizes are multiples of 8 with at least 4 more bytes of memory behind them; files are cut
at multiples of 8; events have a subevent): reading a list of files with buffers of any sizes and any old content, as long as they hold
the largest event, delivers buffers with whole events: all events of all files, in order and each once; there is no error, no exception and no endless
loop; and after at most one turn for every event and every file the end of the stream is reported. -/
theorem C57_hld_partial {most : Nat} {files : List (List Byte)} {evss : List (List (List Byte))} {calls : List (List Byte × Nat)}
    (hf : List.Forall₂ (Content most) files evss) (hne : files ≠ []) (hc : ∀ c ∈ calls, Provided most c) :
    ∃ (s : Input) (ts : List Turn) (parts : List (List (List Byte))), readInit files = some (true, s) ∧ turns calls s = some ts ∧ chunks ts = parts.map List.flatten ∧ (∀ p ∈ parts, p ≠ []) ∧
      parts.flatten <+: evss.flatten ∧ Turn.error ∉ ts ∧ Turn.hang ∉ ts ∧ Turn.thrown ∉ ts ∧ (Turn.ended ∈ ts → parts.flatten = evss.flatten) ∧
      (evss.flatten.length + files.length < calls.length → Turn.ended ∈ ts) := by
  cases hf with
  | nil => exact absurd rfl hne
  | @cons data evs files evss h1 h2 =>
    obtain ⟨r, e, ha⟩ := openRead_content h1
    obtain ⟨ts, ht, parts, hx⟩ := (turns_spec calls { file := r, more := files } evs evss hc h2).1 ha
    refine ⟨{ file := r, more := files }, ts, parts, ?_, ht, ?_⟩
    · unfold readInit openNext
      dsimp only
      rw [e]
      rfl
    · obtain ⟨a1, a2, a3, a4, a5, a5', a6, a7⟩ := hx
      rw [List.flatten_cons]
      refine ⟨a1, a2, a3, a4, a5, a5', a6, ?_⟩
      intro hl
      apply a7
      have := h2.length_eq
      rw [List.length_append, List.length_cons] at hl
      omega

/-- **C29** (partial, see `C57_hld_partial`): the same for one file, complete or cut. -/
theorem C29_read_partial {most : Nat} {data : List Byte} {evs : List (List Byte)} {calls : List (List Byte × Nat)}
    (hf : Content most data evs) (hc : ∀ c ∈ calls, Provided most c) :
    ∃ (s : Input) (ts : List Turn) (parts : List (List (List Byte))), readInit [data] = some (true, s) ∧ turns calls s = some ts ∧ chunks ts = parts.map List.flatten ∧ (∀ p ∈ parts, p ≠ []) ∧
      parts.flatten <+: evs ∧ Turn.error ∉ ts ∧ Turn.hang ∉ ts ∧ Turn.thrown ∉ ts ∧ (Turn.ended ∈ ts → parts.flatten = evs) ∧
      (evs.length + 1 < calls.length → Turn.ended ∈ ts) := by
  have := C57_hld_partial (evss := [evs]) (List.Forall₂.cons hf List.Forall₂.nil) (by simp) hc
  simpa only [List.flatten_cons, List.flatten_nil, List.append_nil, List.length_cons, List.length_nil] using this

/-- **C29, round trip** (partial, see `C57_hld_partial`): the events of a file which was written and closed are all read again, in order and each once. -/
theorem C29_roundtrip_partial {most room : Nat} {run date time date' time' : Word} {bufs : List (List (List Byte))} {calls : List (List Byte × Nat)}
    (he : ∀ b ∈ bufs, b ≠ [] ∧ ∀ e ∈ b, Event e ∧ e.length ≤ most) (hroom : bufs.flatten.flatten.length + 64 ≤ room)
    (hc : ∀ c ∈ calls, Provided most c) (hn : bufs.flatten.length + 1 < calls.length) :
    ∃ (w w' : Writer) (data : List Byte) (s : Input) (ts : List Turn) (parts : List (List (List Byte))),
      openWrite run date time room = some (true, w) ∧ writeAll w (bufs.map List.flatten) = (true, w') ∧ close w' date' time' = some data ∧
      readInit [data] = some (true, s) ∧ turns calls s = some ts ∧ chunks ts = parts.map List.flatten ∧ parts.flatten = bufs.flatten ∧ Turn.ended ∈ ts := by
  obtain ⟨w, w', data, h1, h2, h3, h4⟩ := C29_written (run := run) (date := date) (time := time) (date' := date') (time' := time') he hroom
  obtain ⟨s, ts, parts, a1, a2, a3, _, _, _, _, _, a4, a5⟩ := C29_read_partial h4 hc
  exact ⟨w, w', data, s, ts, parts, h1, h2, h3, a1, a2, a3, a4 (a5 hn), a5 hn⟩

/-- The walk over the events does not leave the memory when 8 bytes more are there. -/
theorem walk_safe {s : List Byte} {r : Nat} (h : r + 8 ≤ s.length) : ∀ (n c : Nat), r - c ≤ n → walk [s] r c ≠ none := by
  intro n
  induction n with
  | zero => intro c hn; rw [walk, if_neg (by omega)]; simp
  | succ n ih =>
    intro c hn
    rw [walk]
    split
    · rename_i hlt
      have hpad : getPadded [s] (hdr c) = some (padded (sizeAt s c)) := getPad (by omega)
      have hrs : ∃ x, restSize [s] r c = some x ∧ (x = 32 → r - c ≥ 8) := by
        unfold restSize
        split
        · rename_i h8
          exact ⟨_, hpad, fun _ => h8⟩
        · exact ⟨_, rfl, fun e => by omega⟩
      obtain ⟨x, hx, hx32⟩ := hrs
      rw [hx]
      dsimp only
      have hst : ∃ b, isStop [s] c x = some b := by
        unfold isStop
        split
        · rename_i h32
          have := hx32 h32
          rw [getId (by omega)]
          exact ⟨_, rfl⟩
        · exact ⟨_, rfl⟩
      obtain ⟨b, hb⟩ := hst
      rw [hb]
      cases b with
      | true => simp
      | false =>
        dsimp only
        split
        · simp
        · rw [hpad]
          cases hz : padded (sizeAt s c) with
          | zero => simp
          | succ k => exact ih _ (by omega)
    · simp

/-- **C29, any content**: reading from a file with any content stays inside of the memory when at least 8 bytes follow the bytes used of the
buffer; and it ends, unless the file has a header whose size, rounded up to 8, is 0. -/
theorem C29_any_partial (r : Reader) (mem : List Byte) (maxsz : Nat) (hm : maxsz + 8 ≤ mem.length) :
    ∃ res mem' r', readBuffer r mem maxsz = some (res, mem', r') ∧ mem'.length = mem.length ∧
      (res = .hang → ∃ o, o < maxsz ∧ o + 8 ≤ mem'.length ∧ padded (sizeAt mem' o) = 0) := by
  unfold readBuffer
  cases r.fd with
  | none => exact ⟨_, _, _, rfl, rfl, by simp⟩
  | some f =>
    dsimp only
    by_cases h8 : maxsz < 8
    · rw [if_pos h8]
      exact ⟨_, _, _, rfl, rfl, by simp⟩
    rw [if_neg h8]
    have hg : (fread f maxsz).1.length ≤ maxsz := List.length_take_le _ _
    generalize fread f maxsz = x at *
    obtain ⟨got, f'⟩ := x
    dsimp only at hg ⊢
    have hlen : (got ++ mem.drop got.length).length = mem.length := by
      rw [List.length_append, List.length_drop]
      omega
    rw [if_neg (by omega)]
    split
    · exact ⟨_, _, _, rfl, hlen, by simp⟩
    · have hs := walk_safe (s := got ++ mem.drop got.length) (r := got.length) (by omega) got.length 0 (by omega)
      cases hw : walk [got ++ mem.drop got.length] got.length 0 with
      | none => exact absurd hw hs
      | some w =>
        refine ⟨_, _, _, rfl, hlen, ?_⟩
        intro hh
        have : w = .hang := by
          cases w with
          | hang => rfl
          | stop c => simp only [finish] at hh; split at hh <;> cases hh
          | back c => simp only [finish] at hh; split at hh <;> cases hh
          | done c => simp only [finish] at hh; split at hh <;> cases hh
        subst this
        obtain ⟨o, _, h1, h2⟩ := walk_hang _ _ got.length 0 (by omega) hw
        rw [getPad (by omega)] at h2
        exact ⟨o, by omega, by omega, by simpa using h2⟩

/-! ## Examples -/

/-- An event of 40 bytes. -/
def ev (b : Byte) : List Byte := [40, 0, 0, 0, 1, 0, 3, 0] ++ List.replicate 32 b

/-- A start record and a stop record. -/
def startRec : List Byte := [32, 0, 0, 0, 1, 0, 3, 0, 2, 0, 1, 0] ++ List.replicate 20 0
def stopRec : List Byte := [32, 0, 0, 0, 1, 0, 3, 0, 3, 0, 1, 0] ++ List.replicate 20 0

/-- A file with two events, and one cut inside of the second event. -/
example : Content 40 (startRec ++ ([ev 1, ev 2].flatten ++ (stopRec ++ [9]))) [ev 1, ev 2] :=
  .complete (by decide) (by decide) (by decide)

example : Content 40 (startRec ++ ([ev 1].flatten ++ (ev 2).take 16)) [ev 1] :=
  .cut (last := ev 2) (by decide) (by decide) (Or.inl (by decide)) (by decide) (List.take_prefix _ _) (by decide) (by decide)

/-- Both files together, with buffers of 64 and 120 bytes. -/
example : (readInit [startRec ++ ([ev 1, ev 2].flatten ++ (stopRec ++ [9])), startRec ++ ([ev 1].flatten ++ (ev 2).take 16)]).bind
    (fun x => turns (List.replicate 3 (List.replicate 68 0, 64) ++ List.replicate 3 (List.replicate 124 7, 120)) x.2) =
    some [.data (ev 1), .data (ev 2), .data (ev 1), .ended] := by decide +kernel

example : Provided 40 (List.replicate 68 0, 64) := by decide

/-- Writing of these events. -/
example : ∀ b ∈ [[ev 1, ev 2], [ev 3]], b ≠ [] ∧ ∀ e ∈ b, Event e ∧ e.length ≤ 40 := by decide

/-! ## Where the full claim does not hold -/

/-- **C29 does not hold** for any file content: a header with size 0 makes `ReadBuffer` loop forever. -/
theorem C29_hang_counterexample :
    (readInit [startRec ++ List.replicate 8 0]).bind (fun x => turns [(List.replicate 100 0, 64)] x.2) = some [.hang] := by decide +kernel

/-- **C29 does not hold** for a file with some bytes behind the last event: the bytes delivered are more than the file has, they are
taken from the old content of the buffer. -/
theorem C29_trailing_counterexample :
    (readInit [startRec ++ (ev 1 ++ [77, 0, 0, 0])]).bind (fun x => turns [(List.replicate 128 0, 120)] x.2) =
      some [.data (ev 1 ++ [77, 0, 0, 0] ++ List.replicate 76 0)] := by decide +kernel

/-- **C29 does not hold** for a buffer whose size is a multiple of 4 only: half of the next event's header is taken together with old bytes
of the memory as a header, the second event delivered is not the one in the file. -/
theorem C29_buffer_counterexample :
    Content 40 (startRec ++ ([ev 1, ev 2].flatten ++ (stopRec ++ []))) [ev 1, ev 2] ∧
    (readInit [startRec ++ ([ev 1, ev 2].flatten ++ (stopRec ++ []))]).bind (fun x => turns [(List.replicate 100 0, 44)] x.2) =
      some [.data (ev 1 ++ [40, 0, 0, 0] ++ List.replicate 36 0)] :=
  ⟨.complete (by decide) (by decide) (by decide), by decide +kernel⟩

/-- **C29 does not hold** when the buffer ends with the first 8 bytes of the stop record: the id is looked for behind the end of the memory. -/
theorem C29_overread_counterexample :
    Content 40 (startRec ++ ([ev 1].flatten ++ (stopRec ++ []))) [ev 1] ∧
    (readInit [startRec ++ ([ev 1].flatten ++ (stopRec ++ []))]).isSome ∧
    (readInit [startRec ++ ([ev 1].flatten ++ (stopRec ++ []))]).bind (fun x => turns [(List.replicate 48 0, 48)] x.2) = none :=
  ⟨.complete (by decide) (by decide) (by decide), by decide +kernel, by decide +kernel⟩

/-- An event without subevents. -/
def emptyEv : List Byte := [32, 0, 0, 0, 1, 0, 3, 0, 1, 0, 0, 0] ++ List.replicate 20 0

/-- **C29 does not hold** for events without subevents: when 8 bytes of such an event are at the end of the buffer and the id of a stop record
was in the memory behind, the rest of the file is lost without an error. -/
theorem C29_empty_counterexample : IsRecord 1 emptyEv ∧
    (readInit [startRec ++ (ev 1 ++ (emptyEv ++ (ev 2 ++ stopRec)))]).bind (fun x => turns (List.replicate 9 (List.replicate 48 0 ++ [3, 0, 1, 0], 48)) x.2) =
      some [.data (ev 1), .ended] := by decide +kernel

/-- **C29 does not hold** for a file that begins with size 0: opening it reads the whole file into the 32 bytes of a record on the stack. -/
theorem C29_open_counterexample : openRead (List.replicate 33 0) = none := by decide +kernel

end Verif.HldFile
