import Verif.HldOutSplit

/-! # C84: what is in the HLD files which an output writes -/

namespace Verif.HldOut

open Verif.Bytes

/-! ## The files -/

/-- Whatever is done and whenever the disk fails: there is one file of a name, each file has one start record, then
content, then at most one stop record, both with the run number of the name, and the file which is open has no stop record. -/
theorem C84_files_shape (s : Out) (hf : s.file = none) (hd : s.disk = []) (ops : List Op) :
    ((s.runs ops).1.disk.map (·.1)).Nodup ∧ (∀ f ∈ (s.runs ops).1.disk, Shape (s.runs ops).1.plain f) ∧
      ∀ n r, (s.runs ops).1.file = some (n, r) → n = nameOf (s.runs ops).1.plain r ∧ ∃ ps, Begun r ps ∧ (n, ps) ∈ (s.runs ops).1.disk := by
  have h : Inv False s := by
    refine ⟨by rw [hd]; exact List.nodup_nil, ?_, ?_, fun h => h.elim⟩
    · rw [hd]; exact fun _ h => absurd h List.not_mem_nil
    · rw [hf]; intro _ _ h; cases h
  have h2 := inv_runs ops s h (fun h => h.elim)
  exact ⟨h2.nodup, h2.shape, h2.file⟩

example : ((({} : Out).runs [.init 5, .buffer (.events [⟨1, [1]⟩] [[1]]) 6, .disk (some 0) true, .buffer .stopRun 7]).1.disk) =
    [(some 5, [.start 5, .data [1]]), (some 7, [])] := by decide

/-- As long as the disk does not fail, each file but the open one is complete. -/
theorem C84_complete (s : Out) (hf : s.file = none) (hd : s.disk = []) (hr : s.room = none) (ho : s.canOpen = true) (ops : List Op)
    (hn : NoFault ops) : ∀ f ∈ (s.runs ops).1.disk, (∃ r, (s.runs ops).1.file = some (f.1, r)) ∨ ∃ r, Whole r f.2 := by
  have h : Inv True s := by
    refine ⟨by rw [hd]; exact List.nodup_nil, ?_, ?_, fun _ => ⟨hr, ho, ?_⟩⟩
    · rw [hd]; exact fun _ h => absurd h List.not_mem_nil
    · rw [hf]; intro _ _ h; cases h
    · rw [hd]; exact fun _ h => absurd h List.not_mem_nil
  exact ((inv_runs ops s h fun _ => hn).fine trivial).2.2

/-- At the end of the data the file is closed: then all files are complete. -/
theorem C84_end (s : Out) (hf : s.file = none) (hd : s.disk = []) (hr : s.room = none) (ho : s.canOpen = true) (ops : List Op)
    (hn : NoFault ops) (c : Nat) : (s.runs (ops ++ [.buffer .eof c])).1.file = none ∧
      (s.runs (ops ++ [.buffer .eof c])).2 = (s.runs ops).2 ++ [.close] ∧
      ∀ f ∈ (s.runs (ops ++ [.buffer .eof c])).1.disk, ∃ r, Whole r f.2 := by
  have h1 : (s.runs (ops ++ [.buffer .eof c])).1 = (s.runs ops).1.closeFile := by rw [runs_append]; rfl
  have h2 : (s.runs (ops ++ [.buffer .eof c])).1.file = none := by rw [h1]; exact (closeFile_look _).2.2.2.1
  refine ⟨h2, by rw [runs_append]; rfl, ?_⟩
  intro f hm
  have hnf : NoFault (ops ++ [.buffer .eof c]) := by
    intro o ho r b
    rcases List.mem_append.1 ho with ho | ho
    · exact hn o ho r b
    · rw [List.mem_singleton.1 ho]; simp
  rcases C84_complete s hf hd hr ho _ hnf f hm with ⟨r, h⟩ | h
  · rw [h2] at h; cases h
  · exact h

example : NoFault [.init 5, .buffer (.events [⟨1, [1]⟩] [[1]]) 6, .retry, .restart 4, .close] := by
  intro o ho r b
  simp only [List.mem_cons, List.not_mem_nil, or_false] at ho
  rcases ho with h | h | h | h | h <;> subst h <;> simp

/-! ## Files by the run of the events -/

/-- With option `slave` each run has its file: the events of a run, other than 0, are in the file of this run, all of
them and in their order, however they are spread over buffers and segments, the file being complete unless the run is the last
one; other files are not touched and all buffers are accepted.  This is not so for all data: no run may come back, there must be at
most one change of the run in a buffer, and the disk must not fail; see the counterexamples. -/
theorem C84_by_run_partial (s : Out) (hs : s.slave = true) (hp : s.plain = false) (hf : s.file = none) (hl : s.last = 0) (hr : s.room = none)
    (ho : s.canOpen = true) (c : Nat) (E : List Ev) (bs : List (Buf × Nat)) (hE : Stream E bs) (hn : NoReturn E) :
    (∀ x ∈ (s.runs (.init c :: writes bs)).2, x = .ok) ∧
    (∀ r, r ≠ 0 → (∃ e ∈ E, e.run = r) → ∃ body, Inner body ∧ fileData body = evBytes (ofRun r E) ∧
      look (s.runs (.init c :: writes bs)).1.disk (some r) = some (.start r :: (body ++ if r = current E then [] else [.stop r]))) ∧
    ∀ n, (∀ r, r ≠ 0 → (∃ e ∈ E, e.run = r) → n ≠ some r) → look (s.runs (.init c :: writes bs)).1.disk n = look s.disk n := by
  have hi : (s.init c).1 = { s with run := 0 } := by
    unfold Out.init
    rw [hs]
    rfl
  have h0 : Sl s.disk [] ({ s with run := 0 } : Out) := by
    refine ⟨hs, hp, hr, ho, rfl, hf, fun h => absurd hl h, ?_, fun _ _ => rfl⟩
    rintro r _ ⟨e, he, _⟩
    exact absurd he List.not_mem_nil
  obtain ⟨h1, h2⟩ := sl_stream h0 hE hn
  have h3 : s.runs (.init c :: writes bs) = ({ s with run := 0 } : Out).runs (writes bs) := by
    show ((s.init c).1.runs (writes bs)) = _
    rw [hi]
  rw [h3]
  exact ⟨h2, h1.mine, h1.others⟩

/-- Two runs, the change in the middle of a segment. -/
example : Stream ([] ++ [⟨3, [1, 2]⟩] ++ [⟨3, [3]⟩, ⟨4, [5, 6]⟩])
    ([] ++ [(.events [⟨3, [1, 2]⟩] [[1], [2]], 9)] ++ [(.events [⟨3, [3]⟩, ⟨4, [5, 6]⟩] [[3, 5], [6]], 9)]) := by
  refine .snoc 9 (.snoc 9 .nil ⟨_, rfl, rfl, by decide⟩ ⟨[], _, 3, rfl, (fun _ h => absurd h List.not_mem_nil), by decide⟩) ⟨_, rfl, rfl, by decide⟩
    ⟨[⟨3, [3]⟩], [⟨4, [5, 6]⟩], 4, rfl, by decide, by decide⟩

example : (({ slave := true } : Out).runs [.init 0, .buffer (.events [⟨3, [1, 2]⟩] [[1], [2]]) 9,
    .buffer (.events [⟨3, [3]⟩, ⟨4, [5, 6]⟩] [[3, 5], [6]]) 9]).1.disk =
    [(some 3, [.start 3, .data [1], .data [2], .data [3], .stop 3]), (some 4, [.start 4, .data [5], .data [6]])] := by decide

/-- More than one change of the run in a buffer: only the first is seen, the events of the other runs are in its file. -/
theorem C84_two_changes_counterexample :
    (({ slave := true } : Out).runs [.init 0, .buffer (.events [⟨1, [1]⟩, ⟨2, [2]⟩, ⟨3, [3]⟩] [[1, 2, 3]]) 9]).2 = [.ok] ∧
    (({ slave := true } : Out).runs [.init 0, .buffer (.events [⟨1, [1]⟩, ⟨2, [2]⟩, ⟨3, [3]⟩] [[1, 2, 3]]) 9]).1.disk =
      [(some 1, [.start 1, .data [1, 2, 3]])] := by decide

/-- A run which comes back after another one: what was written before is lost. -/
theorem C84_return_counterexample :
    (({ slave := true } : Out).runs (.init 0 :: writes [(.events [⟨1, [1]⟩] [[1]], 9), (.events [⟨2, [2]⟩] [[2]], 9), (.events [⟨1, [3]⟩] [[3]], 9)])) =
      ({ slave := true, run := 1, last := 1, file := some (some 1, 1), size := 1, total := 3, disk :=
        [(some 2, [.start 2, .data [2], .stop 2]), (some 1, [.start 1, .data [3]])] }, [.ok, .ok, .ok]) := by decide

/-- A run which goes on after events without a run number: nothing more of it is written, though the first buffer is accepted; the
others are an error. -/
theorem C84_resume_counterexample :
    (({ slave := true } : Out).runs (.init 0 :: writes [(.events [⟨1, [1]⟩] [[1]], 9), (.events [⟨0, [2]⟩] [[2]], 9), (.events [⟨1, [3]⟩] [[3]], 9),
      (.events [⟨1, [4]⟩] [[4]], 9)])) =
      ({ slave := true, run := 1, last := 1, size := 0, total := 1, disk := [(some 1, [.start 1, .data [1], .stop 1])] }, [.ok, .ok, .ok, .error]) := by
  decide

/-- When a write fails in slave mode, then nothing more of this run is written, however often it is tried again and though the disk
works again. -/
theorem C84_slave_retry_counterexample (s : Out) (hs : s.slave = true) (r : Nat) (h0 : r ≠ 0) (hr : s.run = r) (hl : s.last = r) (ops : List Op)
    (ho : DuringRun r ops) : (s.retry.runs ops).1.disk = s.retry.disk := by
  apply lost_runs h0 _ _ _ ho
  obtain ⟨h1, _, h3, h4, h5, _⟩ := closeFile_look s
  have : s.retry = s.closeFile := by
    unfold Out.retry
    simp only
    rw [if_pos (by rw [h1]; exact hs)]
  rw [this]
  exact ⟨by rw [h1]; exact hs, h4, by rw [h5]; exact hl, Or.inr (by rw [h3]; exact hr)⟩

/-- Such a state is reached: the second buffer cannot be written, and the run is given up although the disk works again. -/
example : (({ slave := true, room := some 2 } : Out).runs ([.init 0] ++ writes [(.events [⟨1, [1]⟩] [[1]], 9), (.events [⟨1, [2]⟩] [[2]], 9)] ++
    [.retry, .disk none true, .init 0] ++ writes [(.events [⟨1, [3]⟩] [[3]], 9), (.events [⟨1, [4]⟩] [[4]], 9)])) =
    ({ slave := true, run := 1, last := 1, size := 0, total := 1, disk := [(some 1, [.start 1, .data [1]])] }, [.ok, .error, .ok, .error]) := by decide

example : DuringRun 1 [.disk none true, .init 0, .buffer (.events [⟨1, [3]⟩] [[3]]) 9] := by
  intro o ho
  simp only [List.mem_cons, List.not_mem_nil, or_false] at ho
  rcases ho with h | h | h
  · exact Or.inr (Or.inr (Or.inr ⟨_, _, h⟩))
  · exact Or.inr (Or.inr (Or.inl ⟨_, h⟩))
  · exact Or.inl ⟨_, _, _, h, by simp, by simp⟩

/-- Events of the old run which are written before a change of the run do not count in the total size. -/
theorem C84_total_counterexample :
    (({ slave := true } : Out).runs (.init 0 :: writes [(.events [⟨1, [1]⟩] [[1]], 9), (.events [⟨1, [2]⟩, ⟨2, [3]⟩] [[2, 3]], 9)])).1.total = 2 ∧
    (({ slave := true } : Out).runs (.init 0 :: writes [(.events [⟨1, [1]⟩] [[1]], 9), (.events [⟨1, [2]⟩, ⟨2, [3]⟩] [[2, 3]], 9)])).1.disk =
      [(some 1, [.start 1, .data [1], .data [2], .stop 1]), (some 2, [.start 2, .data [3]])] := by decide

/-- An empty segment within the events of the old run is an error. -/
theorem C84_empty_segment_counterexample :
    (({ slave := true } : Out).runs (.init 0 :: writes [(.events [⟨1, [1]⟩] [[1]], 9), (.events [⟨1, [2]⟩, ⟨2, [3]⟩] [[], [2, 3]], 9)])).2 = [.ok, .error] := by
  decide

/-! ## Files by size -/

/-- Without option `slave`, when in no second more bytes come than a file may have: all data are written in their order, each file but the
last one is complete, no file is longer than the limit, the numbers of the files increase, no other files are touched, all
buffers are accepted and the sizes are right. -/
theorem C84_by_size_partial (s : Out) (hs : s.slave = false) (hp : s.plain = false) (hf : s.file = none) (hr : s.room = none) (ho : s.canOpen = true)
    (c : Nat) (hc : s.run ≤ c) (hd : ∀ f ∈ s.disk, ∀ n, f.1 = some n → n < if s.run = 0 then c else s.run) (bs : List (Buf × Nat)) (ht : Timed c bs)
    (hl : 0 < s.limit → Slow s.limit bs) :
    (∀ x ∈ (s.runs (.init c :: writes bs)).2, x = .ok) ∧ ∃ files r body,
      (s.runs (.init c :: writes bs)).1.disk = s.disk ++ files ++ [(some r, .start r :: body)] ∧ Inner body ∧
      (∀ f ∈ files, ∃ q, f.1 = some q ∧ Whole q f.2 ∧ q < r) ∧
      (files.Pairwise fun f g => ∀ a b, f.1 = some a → g.1 = some b → a < b) ∧
      (files.map fun f => fileData f.2).flatten ++ fileData body = allBytes bs ∧
      (0 < s.limit → (fileData body).length ≤ s.limit ∧ ∀ f ∈ files, (fileData f.2).length ≤ s.limit) ∧
      (s.limit = 0 → files = []) ∧
      (s.runs (.init c :: writes bs)).1.size = (fileData body).length ∧
      (s.runs (.init c :: writes bs)).1.total = s.total + (allBytes bs).length := by
  obtain ⟨h0, _⟩ := sp_init hs hp hr ho hf hc hd (R := bs) fun b hb => (ht.1 b hb).2
  obtain ⟨files, r, body, p1, p2, h1, h2⟩ := sp_writes bs [] [] _ [] [] [] _ h0 (fun b hb => (ht.1 b hb).1) ht.2 hl
  refine ⟨h2, files, r, body, h1.disk, h1.inner, h1.whole, h1.order, ?_, ?_, ?_, ?_, ?_⟩
  · rw [h1.before, h1.data, ← allBytes_append, ← h1.parts, List.nil_append]
  · rw [h1.data]; exact h1.small
  · exact h1.one
  · rw [h1.data]; exact h1.size
  · rw [List.nil_append] at h1; exact h1.total

example : Timed 5 [(.events [] [[1], [2, 3]], 5), (.events [] [[4]], 5), (.events [] [[5]], 7)] ∧
    Slow 4 [(.events [] [[1], [2, 3]], 5), (.events [] [[4]], 5), (.events [] [[5]], 7)] := by
  refine ⟨⟨?_, by decide⟩, ?_⟩
  · intro b hb
    simp only [List.mem_cons, List.not_mem_nil, or_false] at hb
    rcases hb with h | h | h <;> subst h <;> exact ⟨⟨_, _, rfl⟩, by decide⟩
  · intro t
    by_cases h5 : t = 5
    · subst h5; decide
    · by_cases h7 : t = 7
      · subst h7; decide
      · have h5 : ¬ 5 = t := fun h => h5 h.symm
        have h7 : ¬ 7 = t := fun h => h7 h.symm
        simp [h5, h7, allBytes]

example : (({ limit := 4 } : Out).runs (.init 5 :: writes [(.events [] [[1], [2, 3]], 5), (.events [] [[4]], 5), (.events [] [[5]], 7)])).1.disk =
    [(some 5, [.start 5, .data [1], .data [2, 3], .data [4], .stop 5]), (some 7, [.start 7, .data [5]])] := by decide

/-- More data in one second than a file may have: the file of this second is overwritten, what was in it is lost. -/
theorem C84_second_counterexample :
    (({ limit := 2 } : Out).runs (.init 5 :: writes [(.events [] [[1, 2]], 5), (.events [] [[3, 4]], 5)])).2 = [.ok, .ok] ∧
    (({ limit := 2 } : Out).runs (.init 5 :: writes [(.events [] [[1, 2]], 5), (.events [] [[3, 4]], 5)])).1.disk = [(some 5, [.start 5, .data [3, 4]])] := by
  decide

/-- With option `plain` a new file, here at the end of a run, takes the place of the old one. -/
theorem C84_plain_counterexample (s t : Out) (c : Nat) (hs : s.slave = false) (hp : s.plain = true) (h : s.buffer .stopRun c = (t, .ok)) :
    look t.disk none = some [.start c] := by
  have h : ({ s with run := 0 } : Out).newFile c 0 .stopRun = (t, .ok) := h
  unfold Out.newFile at h
  rw [if_neg (by simp [hs]), if_neg (by simp only; omega)] at h
  rcases hst : ({ s with run := 0 } : Out).startNewFile c with ⟨v, b⟩
  rw [hst] at h
  cases b with
  | false => cases h
  | true =>
    obtain ⟨h1, h2, _⟩ := startNew_true (s := { s with run := 0 }) hs rfl hst
    simp only [h1, Option.isNone_some, Bool.false_eq_true, if_false, Out.content, Prod.mk.injEq, and_true] at h
    rw [← h]
    simp only [hp, nameOf, if_true] at h2
    exact h2

example : (({ plain := true } : Out).runs [.init 5, .buffer (.events [] [[1, 2]]) 6, .buffer .stopRun 7]) =
    ({ plain := true, run := 7, last := 7, file := some (none, 7), total := 2, disk := [(none, [.start 7])] }, [.ok, .ok]) := by decide

/-- Whatever the disk does: a buffer which is accepted without option `slave` is in the file which is then open: all bytes of it behind what was in the file,
or at the beginning of a new file. -/
theorem C84_accepted_written (s t : Out) (hs : s.slave = false) (evs : List Ev) (segs : List (List Byte)) (c : Nat)
    (h : s.buffer (.events evs segs) c = (t, .ok)) : ∃ n r ps, t.file = some (n, r) ∧ Inner ps ∧ fileData ps = segs.flatten ∧
      ((s.file = some (n, r) ∧ look t.disk n = (look s.disk n).map (· ++ ps)) ∨
        (r = c ∧ n = nameOf s.plain c ∧ 0 < s.limit ∧ s.limit < s.size + segs.flatten.length ∧ look t.disk n = some (.start c :: ps))) ∧
      ∀ m, m ≠ n → (∀ r, s.file ≠ some (m, r)) → look t.disk m = look s.disk m := by
  rw [buffer_events] at h
  unfold Out.payload at h
  rw [if_neg (by rw [hs]; simp)] at h
  by_cases hf : s.full (Buf.events evs segs).size = true
  · rw [if_pos hf] at h
    unfold Out.full at hf
    rw [decide_eq_true_eq, bufBytes_size] at hf
    unfold Out.newFile at h
    rw [if_neg (by simp [hs]), if_neg (by simp only; omega)] at h
    rcases hst : ({ s with run := 0 } : Out).startNewFile c with ⟨v, b⟩
    rw [hst] at h
    cases b with
    | false => cases h
    | true =>
      obtain ⟨h1, h2, h3⟩ := startNew_true (s := { s with run := 0 }) hs rfl hst
      simp only [h1, Option.isNone_some, Bool.false_eq_true, if_false] at h
      obtain ⟨ps, h4, h5, h6, h7⟩ := content_true h1 h
      refine ⟨_, c, ps, h6, h4, h5, Or.inr ⟨rfl, rfl, hf.1, hf.2, ?_⟩, ?_⟩
      · simp only at h7
        rw [h7, look_adds_self]
        simp only at h2
        rw [h2]
        rfl
      · intro m hm hm2
        simp only at h7
        rw [h7, look_adds_other hm]
        exact h3 m hm hm2
  · rw [if_neg hf] at h
    unfold Out.go at h
    cases hfile : s.file with
    | none =>
      rw [if_pos (by rw [hfile]; rfl)] at h
      cases h
    | some f =>
      rw [if_neg (by rw [hfile]; simp)] at h
      obtain ⟨ps, h4, h5, h6, h7⟩ := content_true hfile h
      refine ⟨f.1, f.2, ps, h6, h4, h5, Or.inl ⟨rfl, ?_⟩, ?_⟩
      · rw [h7, look_adds_self]
      · intro m hm _
        rw [h7, look_adds_other hm]

example : ∃ t, ({ limit := 2, size := 2, file := some (some 5, 5), run := 5, disk := [(some 5, [.start 5, .data [1, 2]])], room := some 4 } : Out).buffer
    (.events [] [[3, 4]]) 6 = (t, .ok) ∧ t.disk = [(some 5, [.start 5, .data [1, 2], .stop 5]), (some 6, [.start 6, .data [3, 4]])] := by
  exact ⟨_, rfl, by decide⟩

/-- After an error, when the disk works again, a new attempt begins a new file and data are written to it. -/
theorem C84_retry (s : Out) (hs : s.slave = false) (hr : s.room = none) (ho : s.canOpen = true) (c c' : Nat) (evs : List Ev) (segs : List (List Byte))
    (hl : s.limit = 0 ∨ segs.flatten.length ≤ s.limit) : ∃ ps, Inner ps ∧ fileData ps = segs.flatten ∧
      (s.runs [.retry, .init c, .buffer (.events evs segs) c']).2 = [.ok] ∧
      look (s.runs [.retry, .init c, .buffer (.events evs segs) c']).1.disk (nameOf s.plain c) = some (.start c :: ps) := by
  obtain ⟨h1, h2, h3, h4, h5, h6, h7, h8, _⟩ := closeFile_look s
  have hre : s.retry = { s.closeFile with run := 0 } := by
    unfold Out.retry
    simp only
    rw [if_neg (by rw [h1, hs]; simp)]
  have hc2 : s.retry.closeFile = { s.closeFile with run := 0, file := none, size := 0 } := by
    rw [hre, closeFile_none (s := { s.closeFile with run := 0 }) h4]
    simp only [h4]
  have hin : s.retry.init c = ({ s.closeFile with
      run := c, last := c, file := some (nameOf s.plain c, c), size := 0,
      disk := adds (nameOf s.plain c) [.start c] (opened (nameOf s.plain c) s.closeFile.disk) }, true) := by
    have h0 : s.retry.slave = false := by rw [hre]; exact h1.trans hs
    unfold Out.init
    rw [if_neg (by rw [h0]; simp)]
    unfold Out.startNewFile
    simp only [hc2]
    rw [if_neg (by rw [h1, hs]; simp)]
    simp only [if_true, h2]
    show (match Out.openWrite { s.closeFile with run := c, plain := s.plain, file := none, size := 0 } (nameOf s.plain c) c with
      | (s, true) => (({ s with last := s.run } : Out), true)
      | (s, false) => (s, false)) = _
    rw [openWrite_good (s := { s.closeFile with run := c, plain := s.plain, file := none, size := 0 }) (h8 hr) (h7.trans ho)]
  generalize hu : (s.retry.init c).1 = u at *
  have hu2 := congrArg Prod.fst hin
  rw [hu] at hu2
  simp only at hu2
  have hfile : u.file = some (nameOf s.plain c, c) := by rw [hu2]
  have hroom : u.room = none := by rw [hu2]; exact h8 hr
  have hbuf : u.buffer (.events evs segs) c' = u.content 0 (.events evs segs) := by
    rw [buffer_events]
    unfold Out.payload
    rw [if_neg (by rw [hu2]; simp [h1, hs]), if_neg]
    · unfold Out.go
      rw [if_neg (by rw [hfile]; simp)]
    · unfold Out.full
      rw [decide_eq_true_eq, bufBytes_size, hu2]
      simp only [h6]
      show ¬ (0 < s.limit ∧ s.limit < 0 + segs.flatten.length)
      omega
  obtain ⟨ps, h9, h10, h11⟩ := segments_eq hfile hroom segs 0
  refine ⟨ps, h9, by rw [h10, List.drop_zero], ?_, ?_⟩
  · show [(((s.retry.init c).1.buffer (.events evs segs) c').2)] = [.ok]
    rw [hu, hbuf]
    unfold Out.content
    simp only
    rw [h11]
  · show look (((s.retry.init c).1.buffer (.events evs segs) c').1.disk) _ = _
    rw [hu, hbuf]
    unfold Out.content
    simp only
    rw [h11]
    simp only [Out.account]
    rw [look_adds_self, hu2]
    simp only
    rw [look_adds_self, look_opened_self]
    rfl

/-- A restart of the file and the end of a run: the file is completed and a new one begins, with the time as number. -/
theorem C84_next_file (s : Out) (hs : s.slave = false) (hp : s.plain = false) (hr : s.room = none) (ho : s.canOpen = true) (q c : Nat)
    (hf : s.file = some (some q, q)) (hq : q ≠ c) (o : Op) (hop : o = .restart c ∨ o = .buffer .stopRun c) :
    (s.step o).1.file = some (some c, c) ∧ (s.step o).1.run = c ∧ (s.step o).1.size = 0 ∧ (∀ x ∈ (s.step o).2, x = .ok) ∧
      look (s.step o).1.disk (some c) = some [.start c] ∧ look (s.step o).1.disk (some q) = (look s.disk (some q)).map (· ++ [.stop q]) ∧
      ∀ n, n ≠ some c → n ≠ some q → look (s.step o).1.disk n = look s.disk n := by
  have hlook : ∀ D, D = adds (some c) [.start c] (opened (some c) (adds (some q) [.stop q] s.disk)) →
      look D (some c) = some [.start c] ∧ look D (some q) = (look s.disk (some q)).map (· ++ [.stop q]) ∧
      ∀ n, n ≠ some c → n ≠ some q → look D n = look s.disk n := by
    intro D hD
    subst hD
    have hne : (some q : Option Nat) ≠ some c := by intro h; cases h; exact hq rfl
    refine ⟨?_, ?_, ?_⟩
    · rw [look_adds_self, look_opened_self]; rfl
    · rw [look_adds_other hne, look_opened_other hne, look_adds_self]
    · intro n h1 h2
      rw [look_adds_other h1, look_opened_other h1, look_adds_other h2]
  rcases hop with h | h
  · subst h
    have h1 : s.restart c = { s with
        run := c, last := c, size := 0, file := some (some c, c),
        disk := adds (some c) [.start c] (opened (some c) (adds (some q) [.stop q] s.disk)) } := by
      unfold Out.restart
      rw [if_pos (by rw [hf]; rfl), closeFile_good hf hr]
      rw [startNew_good (s := { s with file := none, size := 0, disk := adds (some q) [.stop q] s.disk, run := 0 }) hs hp hr ho c
        (D := adds (some q) [.stop q] s.disk) (closeFile_none rfl)]
      simp only [if_true]
    have h2 : s.step (.restart c) = (s.restart c, none) := rfl
    rw [h2, h1]
    exact ⟨rfl, rfl, rfl, by simp, hlook _ rfl⟩
  · subst h
    have h1 : s.buffer .stopRun c = ({ s with
        run := c, last := c, size := 0 + 0, total := s.total + 0, file := some (some c, c),
        disk := adds (some c) [.start c] (opened (some c) (adds (some q) [.stop q] s.disk)) }, .ok) := by
      show ({ s with run := 0 } : Out).newFile c 0 .stopRun = _
      unfold Out.newFile
      rw [if_neg (by simp [hs]), if_neg (by simp only; omega)]
      rw [startNew_good (s := { s with run := 0 }) hs hp hr ho c (D := adds (some q) [.stop q] s.disk)
        (closeFile_good (s := { s with run := 0 }) hf hr)]
      simp only [if_true, Option.isNone_some, Bool.false_eq_true, if_false, Out.content, Out.account]
    have h2 : s.step (.buffer .stopRun c) = ((s.buffer .stopRun c).1, some (s.buffer .stopRun c).2) := rfl
    rw [h2, h1]
    exact ⟨rfl, rfl, rfl, by simp, hlook _ rfl⟩

example : ({ file := some (some 5, 5), run := 5, disk := [(some 5, [.start 5, .data [1]])] } : Out).buffer .stopRun 8 =
    ({ file := some (some 8, 8), run := 8, last := 8, disk := [(some 5, [.start 5, .data [1], .stop 5]), (some 8, [.start 8])] }, .ok) := by decide

/-! ## Subevents -/

/-- A buffer with one subevent becomes an event: a header with its own number and the run, and the subevent. -/
theorem C84_subevent_partial (s : Out) (hs : s.slave = false) (f : Option Nat × Nat) (hf : s.file = some f) (hr : s.room = none) (x : List Byte)
    (hx : x ≠ []) (hl : s.limit = 0) (c : Nat) : ∃ t, s.buffer (.subevents [x]) c = (t, .ok) ∧
      look t.disk f.1 = (look s.disk f.1).map (· ++ [.head s.evnum s.run (x.length + 32), .data x]) ∧ t.evnum = s.evnum + 1 ∧
      t.size = s.size + 32 + x.length := by
  have hxl : 0 < x.length := List.length_pos_iff.2 hx
  rw [buffer_subevents]
  unfold Out.payload
  rw [if_neg (by rw [hs]; simp), if_neg (by unfold Out.full; rw [decide_eq_true_eq]; omega)]
  unfold Out.go
  rw [if_neg (by rw [hf]; simp)]
  simp only [Out.content, Out.subevents]
  rw [put_good (s := { s with evnum := s.evnum + 1 }) hf hr (by simp [Piece.len])]
  simp only
  rw [put_good (s := { s with evnum := s.evnum + 1, disk := adds f.1 [.head s.evnum s.run (x.length + 32)] s.disk }) hf hr (by simp [Piece.len]; omega)]
  refine ⟨_, rfl, ?_, rfl, ?_⟩
  · simp only [Out.account]
    rw [adds_adds, look_adds_self]
    rfl
  · simp only [Out.account]
    omega

example : ({ file := some (some 5, 5), run := 5, disk := [(some 5, [.start 5])] } : Out).buffer (.subevents [[1, 2]]) 6 =
    ({ file := some (some 5, 5), run := 5, evnum := 1, size := 34, total := 34, disk := [(some 5, [.start 5, .head 0 5 34, .data [1, 2]])] }, .ok) := by
  decide

/-- Of several subevents in a buffer only the first is written, though the buffer is accepted. -/
theorem C84_subevents_counterexample (s t : Out) (hs : s.slave = false) (hl : s.limit = 0) (x y : List Byte) (l : List (List Byte)) (c : Nat)
    (h : s.buffer (.subevents (x :: y :: l)) c = (t, .ok)) : s.buffer (.subevents [x]) c = (t, .ok) := by
  rw [buffer_subevents] at h ⊢
  unfold Out.payload at h ⊢
  have hfull : ∀ n, ¬ s.full n = true := by
    intro n
    unfold Out.full
    rw [decide_eq_true_eq]
    omega
  rw [if_neg (by rw [hs]; simp), if_neg (hfull _)] at h ⊢
  exact h

example : (({} : Out).runs [.init 5, .buffer (.subevents [[1], [2], [3]]) 6]).1.disk = [(some 5, [.start 5, .head 0 5 33, .data [1]])] := by decide

end Verif.HldOut
