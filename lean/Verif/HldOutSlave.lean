import Verif.HldOutShape

/-! # Files by the run of the events -/

namespace Verif.HldOut

open Verif.Bytes

theorem scan_same {r : Nat} : ∀ (l : List Ev) (p : Nat), (∀ e ∈ l, e.run = r) → scan r l p = (none, p + (evBytes l).length)
  | [], p, _ => by simp [scan, evBytes]
  | e :: l, p, h => by
    unfold scan
    rw [if_pos (h e List.mem_cons_self), scan_same l _ fun x hx => h x (List.mem_cons_of_mem _ hx)]
    simp [evBytes]
    omega

theorem scan_change {r r' : Nat} (hr : r' ≠ r) : ∀ (a b : List Ev) (p : Nat), (∀ e ∈ a, e.run = r) → b ≠ [] → (∀ e ∈ b, e.run = r') →
    scan r (a ++ b) p = (some r', p + (evBytes a).length)
  | [], [], _, _, h, _ => absurd rfl h
  | [], e :: b, p, _, _, hb => by
    have he := hb e List.mem_cons_self
    show scan r (e :: b) p = _
    unfold scan
    rw [if_neg (by rw [he]; exact hr), he]
    simp [evBytes]
  | e :: a, b, p, ha, h, hb => by
    show scan r (e :: (a ++ b)) p = _
    unfold scan
    rw [if_pos (ha e List.mem_cons_self), scan_change hr a b _ (fun x hx => ha x (List.mem_cons_of_mem _ hx)) h hb]
    simp [evBytes]
    omega

theorem evBytes_append (a b : List Ev) : evBytes (a ++ b) = evBytes a ++ evBytes b := by simp [evBytes]

theorem ofRun_append (r : Nat) (a b : List Ev) : ofRun r (a ++ b) = ofRun r a ++ ofRun r b := by simp [ofRun]

theorem ofRun_same {r : Nat} {a : List Ev} (h : ∀ e ∈ a, e.run = r) : ofRun r a = a := by
  unfold ofRun
  exact List.filter_eq_self.2 fun e he => by simpa using h e he

theorem ofRun_other {r r' : Nat} (hr : r' ≠ r) {a : List Ev} (h : ∀ e ∈ a, e.run = r') : ofRun r a = [] := by
  unfold ofRun
  exact List.filter_eq_nil_iff.2 fun e he => by rw [h e he]; simpa using hr

theorem current_same (E : List Ev) {a : List Ev} (h : ∀ e ∈ a, e.run = current E) : current (E ++ a) = current E := by
  cases ha : a.getLast? with
  | none =>
    rw [List.getLast?_eq_none_iff.1 ha, List.append_nil]
  | some e =>
    unfold current
    rw [List.getLast?_append, ha]
    exact h e (List.mem_of_getLast? ha)

theorem current_last (E : List Ev) {b : List Ev} {r : Nat} (hb : b ≠ []) (h : ∀ e ∈ b, e.run = r) : current (E ++ b) = r := by
  unfold current
  rw [List.getLast?_append]
  cases hg : b.getLast? with
  | none => exact absurd (List.getLast?_eq_none_iff.1 hg) hb
  | some e => exact h e (List.mem_of_getLast? hg)

theorem current_mem {E : List Ev} (h : current E ≠ 0) : ∃ e ∈ E, e.run = current E := by
  unfold current at h ⊢
  cases hg : E.getLast? with
  | none => rw [hg] at h; exact absurd rfl h
  | some e => exact ⟨e, List.mem_of_getLast? hg, rfl⟩

/-- Between buffers in slave mode: `E` are the events so far, `d` are the files at the beginning. -/
structure Sl (d : List (Option Nat × List Piece)) (E : List Ev) (s : Out) : Prop where
  slave : s.slave = true
  plain : s.plain = false
  room : s.room = none
  open' : s.canOpen = true
  run : s.run = current E
  file : s.file = if current E = 0 then none else some (some (current E), current E)
  last : s.last ≠ 0 → ∃ e ∈ E, e.run = s.last
  mine : ∀ r, r ≠ 0 → (∃ e ∈ E, e.run = r) → ∃ body, Inner body ∧ fileData body = evBytes (ofRun r E) ∧
    look s.disk (some r) = some (.start r :: (body ++ if r = current E then [] else [.stop r]))
  others : ∀ n, (∀ r, r ≠ 0 → (∃ e ∈ E, e.run = r) → n ≠ some r) → look s.disk n = look d n

/-- Some more events of the current run. -/
theorem sl_same {d : List (Option Nat × List Piece)} {E : List Ev} {s : Out} (h : Sl d E s) {a : List Ev}
    (ha : ∀ e ∈ a, e.run = current E) {ps : List Piece} (hp : Inner ps) (hd : fileData ps = evBytes a) (h0 : current E ≠ 0) (n m : Nat) :
    Sl d (E ++ a) ({ s with disk := adds (some (current E)) ps s.disk, size := n, total := m } : Out) := by
  have hc := current_same E ha
  have hm := current_mem h0
  have hall : ∀ r, (∃ e ∈ E ++ a, e.run = r) ↔ ∃ e ∈ E, e.run = r := by
    intro r
    constructor
    · rintro ⟨e, he, hr⟩
      rcases List.mem_append.1 he with he | he
      · exact ⟨e, he, hr⟩
      · obtain ⟨e', he', hr'⟩ := hm
        exact ⟨e', he', by rw [hr', ← hr, ha e he]⟩
    · rintro ⟨e, he, hr⟩
      exact ⟨e, List.mem_append_left _ he, hr⟩
  refine ⟨h.slave, h.plain, h.room, h.open', ?_, ?_, ?_, ?_, ?_⟩
  · rw [hc]; exact h.run
  · rw [hc]; exact h.file
  · intro hl
    exact (hall _).2 (h.last hl)
  · intro r hr he
    obtain ⟨body, h1, h2, h3⟩ := h.mine r hr ((hall r).1 he)
    rw [hc]
    by_cases hrc : r = current E
    · subst hrc
      refine ⟨body ++ ps, inner_append h1 hp, ?_, ?_⟩
      · rw [fileData_append, h2, ofRun_append, evBytes_append, hd, ofRun_same ha]
      · rw [if_pos rfl, List.append_nil] at h3 ⊢
        simp only
        rw [look_adds_self, h3]
        rfl
    · refine ⟨body, h1, ?_, ?_⟩
      · rw [h2, ofRun_append, ofRun_other (Ne.symm hrc) ha, List.append_nil]
      · simp only
        rw [look_adds_other (by intro hh; cases hh; exact hrc rfl)]
        exact h3
  · intro n hn
    simp only
    rw [look_adds_other (hn _ h0 ((hall _).2 hm))]
    exact h.others n fun r hr he => hn r hr ((hall r).2 he)

theorem sl_zero {d : List (Option Nat × List Piece)} {E : List Ev} {s : Out} (h : Sl d E s) {a : List Ev}
    (ha : ∀ e ∈ a, e.run = current E) (h0 : current E = 0) : Sl d (E ++ a) s := by
  have hc := current_same E ha
  have hall : ∀ r, r ≠ 0 → ((∃ e ∈ E ++ a, e.run = r) ↔ ∃ e ∈ E, e.run = r) := by
    intro r hr0
    constructor
    · rintro ⟨e, he, hr⟩
      rcases List.mem_append.1 he with he | he
      · exact ⟨e, he, hr⟩
      · rw [ha e he, h0] at hr
        exact absurd hr.symm hr0
    · rintro ⟨e, he, hr⟩
      exact ⟨e, List.mem_append_left _ he, hr⟩
  refine ⟨h.slave, h.plain, h.room, h.open', ?_, ?_, ?_, ?_, ?_⟩
  · rw [hc]; exact h.run
  · rw [hc]; exact h.file
  · intro hl
    exact (hall _ hl).2 (h.last hl)
  · intro r hr he
    obtain ⟨body, h1, h2, h3⟩ := h.mine r hr ((hall r hr).1 he)
    rw [hc]
    refine ⟨body, h1, ?_, h3⟩
    rw [h2, ofRun_append, ofRun_other (a := a) (r' := 0) (Ne.symm hr) (by rw [← h0]; exact ha), List.append_nil]
  · intro n hn
    exact h.others n fun r hr he => hn r hr ((hall r hr).2 he)

/-- The file is closed: what is left to say about the disk. -/
theorem sl_closed {d : List (Option Nat × List Piece)} {E : List Ev} {s : Out} (h : Sl d E s) {x : Nat} (hx : ∀ e ∈ E, e.run ≠ x ∨ x = 0)
    (r : Nat) : ∃ D, ({ s with run := r } : Out).closeFile = { s with run := r, file := none, size := 0, disk := D } ∧
      (∀ r, r ≠ 0 → (∃ e ∈ E, e.run = r) → ∃ body, Inner body ∧ fileData body = evBytes (ofRun r E) ∧
        look D (some r) = some (.start r :: (body ++ if r = x then [] else [.stop r]))) ∧
      ∀ n, (∀ r, r ≠ 0 → (∃ e ∈ E, e.run = r) → n ≠ some r) → look D n = look d n := by
  have hne : ∀ r, r ≠ 0 → (∃ e ∈ E, e.run = r) → r ≠ x := by
    rintro r hr ⟨e, he, hre⟩ hrx
    rcases hx e he with h1 | h1
    · exact h1 (by rw [hre, hrx])
    · exact hr (by rw [hrx, h1])
  by_cases h0 : current E = 0
  · have hf : s.file = none := by rw [h.file, if_pos h0]
    refine ⟨s.disk, ?_, ?_, h.others⟩
    · rw [closeFile_none (s := { s with run := r }) hf]
      simp only [hf]
    · intro r hr he
      obtain ⟨body, h1, h2, h3⟩ := h.mine r hr he
      refine ⟨body, h1, h2, ?_⟩
      rw [if_neg (by rw [h0]; exact hr)] at h3
      rw [if_neg (hne r hr he)]
      exact h3
  · have hf : s.file = some (some (current E), current E) := by rw [h.file, if_neg h0]
    refine ⟨adds (some (current E)) [.stop (current E)] s.disk, ?_, ?_, ?_⟩
    · rw [closeFile_good (s := { s with run := r }) hf h.room]
    · intro r hr he
      obtain ⟨body, h1, h2, h3⟩ := h.mine r hr he
      refine ⟨body, h1, h2, ?_⟩
      rw [if_neg (hne r hr he)]
      by_cases hc : r = current E
      · subst hc
        rw [if_pos rfl, List.append_nil] at h3
        rw [look_adds_self, h3]
        rfl
      · rw [if_neg hc] at h3
        rw [look_adds_other (by intro hh; cases hh; exact hc rfl)]
        exact h3
    · intro n hn
      rw [look_adds_other (hn _ h0 (current_mem h0))]
      exact h.others n hn

/-- A new run begins with the events `b`, of which the bytes are behind `p` in the segments. -/
theorem sl_new {d : List (Option Nat × List Piece)} {E : List Ev} {s : Out} (h : Sl d E s) {b evs : List Ev} {r : Nat} (hb : b ≠ [])
    (hr : ∀ e ∈ b, e.run = r) (hfr : ∀ e ∈ E, e.run ≠ r ∨ r = 0) (segs : List (List Byte)) (p c : Nat)
    (hp : segs.flatten.drop p = evBytes b) :
    ∃ t, ({ s with run := r } : Out).newFile c p (.events evs segs) = (t, .ok) ∧ Sl d (E ++ b) t := by
  obtain ⟨D, hD, h1, h2⟩ := sl_closed h hfr r
  have hcur := current_last E hb hr
  unfold Out.newFile
  by_cases h0 : r = 0
  · subst h0
    rw [if_pos ⟨h.slave, rfl⟩, hD]
    refine ⟨_, rfl, ?_⟩
    have hall : ∀ r, r ≠ 0 → ((∃ e ∈ E ++ b, e.run = r) ↔ ∃ e ∈ E, e.run = r) := by
      intro r hr0
      constructor
      · rintro ⟨e, he, hre⟩
        rcases List.mem_append.1 he with he | he
        · exact ⟨e, he, hre⟩
        · rw [hr e he] at hre
          exact absurd hre.symm hr0
      · rintro ⟨e, he, hre⟩
        exact ⟨e, List.mem_append_left _ he, hre⟩
    refine ⟨h.slave, h.plain, h.room, h.open', ?_, ?_, ?_, ?_, ?_⟩
    · rw [hcur]
    · rw [hcur, if_pos rfl]
    · intro hl; exact (hall _ hl).2 (h.last hl)
    · intro r hr0 he
      obtain ⟨body, h3, h4, h5⟩ := h1 r hr0 ((hall r hr0).1 he)
      refine ⟨body, h3, ?_, ?_⟩
      · rw [h4, ofRun_append, ofRun_other (r' := 0) (Ne.symm hr0) hr, List.append_nil]
      · rw [hcur]; exact h5
    · intro n hn
      exact h2 n fun r hr0 he => hn r hr0 ((hall r hr0).2 he)
  · have hnew : ∀ e ∈ E, e.run ≠ r := fun e he => (hfr e he).resolve_right h0
    have hlast : ¬ (s.last ≠ 0 ∧ s.last = r) := by
      rintro ⟨hl1, hl2⟩
      obtain ⟨e, he, hre⟩ := h.last hl1
      exact hnew e he (by rw [hre, hl2])
    rw [if_neg (fun hh => h0 hh.2), if_neg hlast]
    have hst : ({ s with run := r } : Out).startNewFile c =
        ({ s with run := r, last := r, size := 0, file := some (some r, r), disk := adds (some r) [.start r] (opened (some r) D) }, true) := by
      unfold Out.startNewFile
      simp only [hD]
      rw [if_neg (fun hh => h0 hh.1), if_neg h0]
      simp only [h.plain, Bool.false_eq_true, if_false]
      rw [openWrite_good (s := { s with run := r, plain := false, file := none, size := 0, disk := D }) h.room h.open']
    rw [hst]
    simp only [Option.isNone_some, Bool.false_eq_true, if_false]
    obtain ⟨ps, h3, h4, h5⟩ := segments_eq (s := { s with
      run := r, last := r, size := 0, file := some (some r, r), disk := adds (some r) [.start r] (opened (some r) D) }) (f := (some r, r)) rfl h.room segs p
    show ∃ t, (match Out.segments { s with
      run := r, last := r, size := 0, file := some (some r, r), disk := adds (some r) [.start r] (opened (some r) D) } segs p 0 with
      | (s, false, _) => (s, Ret.error)
      | (s, true, w) => (s.account w, Ret.ok)) = (t, Ret.ok) ∧ Sl d (E ++ b) t
    rw [h5]
    refine ⟨_, rfl, ?_⟩
    have hall : ∀ x, x ≠ r → ((∃ e ∈ E ++ b, e.run = x) ↔ ∃ e ∈ E, e.run = x) := by
      intro x hx
      constructor
      · rintro ⟨e, he, hre⟩
        rcases List.mem_append.1 he with he | he
        · exact ⟨e, he, hre⟩
        · rw [hr e he] at hre
          exact absurd hre.symm hx
      · rintro ⟨e, he, hre⟩
        exact ⟨e, List.mem_append_left _ he, hre⟩
    have hex : ∃ e ∈ E ++ b, e.run = r := by
      obtain ⟨e, he⟩ := List.exists_mem_of_ne_nil b hb
      exact ⟨e, List.mem_append_right _ he, hr e he⟩
    refine ⟨h.slave, h.plain, h.room, h.open', ?_, ?_, ?_, ?_, ?_⟩
    · rw [hcur]; rfl
    · rw [hcur, if_neg h0]; rfl
    · intro _; exact hex
    · intro x hx0 he
      simp only [Out.account, hcur]
      by_cases hx : x = r
      · subst hx
        refine ⟨ps, h3, ?_, ?_⟩
        · rw [h4, hp, ofRun_append, ofRun_same hr]
          have : ofRun x E = [] := by
            unfold ofRun
            exact List.filter_eq_nil_iff.2 fun e he => by simpa using hnew e he
          rw [this]; rfl
        · rw [if_pos rfl, adds_adds, look_adds_self, look_opened_self, List.append_nil]
          rfl
      · obtain ⟨body, h6, h7, h8⟩ := h1 x hx0 ((hall x hx).1 he)
        have hne : (some x : Option Nat) ≠ some r := by intro hh; cases hh; exact hx rfl
        refine ⟨body, h6, ?_, ?_⟩
        · rw [h7, ofRun_append, ofRun_other (Ne.symm hx) hr, List.append_nil]
        · rw [if_neg hx] at h8 ⊢
          rw [adds_adds, look_adds_other hne, look_opened_other hne]
          exact h8
    · intro n hn
      simp only [Out.account]
      have hne : n ≠ some r := hn r h0 hex
      rw [adds_adds, look_adds_other hne, look_opened_other hne]
      apply h2
      intro x hx0 he
      by_cases hx : x = r
      · rw [hx]; exact hne
      · exact hn x hx0 ((hall x hx).2 he)

/-- The run of the events `b` was not there before. -/
theorem fresh_of {E a b : List Ev} {r : Nat} (hn : NoReturn (E ++ (a ++ b))) (ha : ∀ e ∈ a, e.run = current E) (hb : b ≠ [])
    (hr : ∀ e ∈ b, e.run = r) (hc : r ≠ current E) : ∀ e ∈ E ++ a, e.run ≠ r ∨ r = 0 := by
  intro e he
  by_cases h0 : r = 0
  · exact Or.inr h0
  · refine Or.inl fun hre => ?_
    have heE : e ∈ E := by
      rcases List.mem_append.1 he with he | he
      · exact he
      · exact absurd (hre.symm.trans (ha e he)) hc
    obtain ⟨x, y, hxy⟩ := List.append_of_mem heE
    cases b with
    | nil => exact hb rfl
    | cons e2 z =>
      have hE : E ++ (a ++ e2 :: z) = x ++ e :: ((y ++ a) ++ e2 :: z) := by rw [hxy]; simp
      have := hn x (y ++ a) z e e2 hE (by rw [hre, hr e2 List.mem_cons_self]) (by rw [hre]; exact h0)
      have hcur : current E = r := by
        unfold current
        rw [hxy, List.getLast?_append, List.getLast?_cons]
        cases hy : y.getLast? with
        | none => simp [hre]
        | some l =>
          have hl := this l (List.mem_append_left _ (List.mem_of_getLast? hy))
          simp [hl, hre]
      exact hc hcur.symm

theorem sl_buffer {d : List (Option Nat × List Piece)} {E : List Ev} {s : Out} (h : Sl d E s) {evs : List Ev} {b : Buf}
    (hg : GoodEvents b evs) (hone : OneChange E evs) (hn : NoReturn (E ++ evs)) (c : Nat) :
    ∃ t, s.buffer b c = (t, .ok) ∧ Sl d (E ++ evs) t := by
  obtain ⟨segs, hb, hseg, hne⟩ := hg
  subst hb
  obtain ⟨a, b, r, he, ha, hr⟩ := hone
  rw [buffer_events]
  unfold Out.payload
  rw [if_pos h.slave]
  have hcase : (b = [] ∨ r = current E) ∨ (b ≠ [] ∧ r ≠ current E) := by
    by_cases h1 : b = []
    · exact Or.inl (Or.inl h1)
    · by_cases h2 : r = current E
      · exact Or.inl (Or.inr h2)
      · exact Or.inr ⟨h1, h2⟩
  rcases hcase with hcase | ⟨hb0, hrc⟩
  · have hall : ∀ e ∈ evs, e.run = current E := by
      intro e hm
      rw [he] at hm
      rcases List.mem_append.1 hm with hm | hm
      · exact ha e hm
      · rcases hcase with h1 | h1
        · rw [h1] at hm; exact absurd hm List.not_mem_nil
        · rw [hr e hm, h1]
    have hsc : scan s.run (Buf.events evs segs).evs 0 = (none, 0 + (evBytes evs).length) := by
      rw [h.run]; exact scan_same evs 0 hall
    rw [hsc]
    simp only
    by_cases h0 : current E = 0
    · rw [if_pos (by rw [h.run]; exact h0)]
      exact ⟨s, rfl, sl_zero h hall h0⟩
    · rw [if_neg (by rw [h.run]; exact h0)]
      have hf : s.file = some (some (current E), current E) := by rw [h.file, if_neg h0]
      unfold Out.go
      rw [if_neg (by rw [hf]; simp)]
      obtain ⟨ps, h3, h4, h5⟩ := segments_eq hf h.room segs 0
      show ∃ t, (match s.segments segs 0 0 with
        | (s, false, _) => (s, Ret.error)
        | (s, true, w) => (s.account w, Ret.ok)) = (t, Ret.ok) ∧ Sl d (E ++ evs) t
      rw [h5]
      rw [List.drop_zero, hseg] at h4
      exact ⟨_, rfl, sl_same h hall h3 h4 h0 _ _⟩
  · have hsc : scan s.run (Buf.events evs segs).evs 0 = (some r, 0 + (evBytes a).length) := by
      rw [h.run]
      show scan (current E) evs 0 = _
      rw [he]
      exact scan_change hrc a b 0 ha hb0 hr
    rw [hsc]
    simp only [Nat.zero_add]
    have hfr : ∀ e ∈ E ++ a, e.run ≠ r ∨ r = 0 := fresh_of (by rw [← he]; exact hn) ha hb0 hr hrc
    have hdrop : segs.flatten.drop (evBytes a).length = evBytes b := by
      rw [hseg, he, evBytes_append, List.drop_left]
    have htake : segs.flatten.take (evBytes a).length = evBytes a := by
      rw [hseg, he, evBytes_append, List.take_left]
    rw [he, ← List.append_assoc]
    by_cases h0 : current E = 0
    · have hf : s.file = none := by rw [h.file, if_pos h0]
      simp only [hf, Option.isSome_none, Bool.false_eq_true, if_false, if_true]
      have := sl_new (sl_zero h ha h0) hb0 hr hfr (evs := a ++ b) segs (evBytes a).length c hdrop
      rw [hf] at this
      exact this
    · have hf : s.file = some (some (current E), current E) := by rw [h.file, if_neg h0]
      obtain ⟨ps, h3, h4, h5⟩ := flush_eq segs ({ s with run := r } : Out) (some (current E), current E) (evBytes a).length hf h.room hne
      have hsome : s.file.isSome = true := by rw [hf]; rfl
      simp only [hsome, if_true]
      show ∃ t, (if (Out.flush { s with run := r } segs (evBytes a).length).2 = true then
        (Out.flush { s with run := r } segs (evBytes a).length).1.newFile c (evBytes a).length (.events (a ++ b) segs)
        else ((Out.flush { s with run := r } segs (evBytes a).length).1, Ret.error)) = (t, Ret.ok) ∧ Sl d (E ++ a ++ b) t
      rw [h5]
      simp only [if_true]
      have h6 := sl_same h ha h3 (by rw [h4, htake]) h0 s.size s.total
      exact sl_new h6 hb0 hr hfr (evs := a ++ b) segs (evBytes a).length c hdrop

theorem noReturn_prefix {E F : List Ev} (h : NoReturn (E ++ F)) : NoReturn E := by
  intro x y z e1 e2 he h1 h2
  exact h x y (z ++ F) e1 e2 (by rw [he]; simp) h1 h2

theorem runs_append : ∀ (a b : List Op) (s : Out), s.runs (a ++ b) = (((s.runs a).1.runs b).1, (s.runs a).2 ++ ((s.runs a).1.runs b).2)
  | [], b, s => by simp [Out.runs]
  | o :: a, b, s => by
    simp only [List.cons_append, Out.runs, runs_append a b]
    rw [List.append_assoc]

/-- All buffers of a stream. -/
theorem sl_stream {d : List (Option Nat × List Piece)} {s : Out} (h : Sl d [] s) {E : List Ev} {bs : List (Buf × Nat)} (hs : Stream E bs)
    (hn : NoReturn E) : Sl d E (s.runs (writes bs)).1 ∧ ∀ x ∈ (s.runs (writes bs)).2, x = .ok := by
  induction hs with
  | nil => exact ⟨h, fun x hx => absurd hx List.not_mem_nil⟩
  | @snoc E evs bs b c h1 hb hc ih =>
    obtain ⟨h2, h3⟩ := ih (noReturn_prefix hn)
    obtain ⟨t, h4, h5⟩ := sl_buffer h2 hb hc hn c
    have hw : writes (bs ++ [(b, c)]) = writes bs ++ [.buffer b c] := by simp [writes]
    rw [hw, runs_append]
    simp only [Out.runs, Out.step, h4]
    refine ⟨h5, ?_⟩
    intro x hx
    rcases List.mem_append.1 hx with hx | hx
    · exact h3 x hx
    · simpa using hx

/-- Slave mode with a file which is lost: nothing more of the run is written. -/
structure Lost (r : Nat) (s : Out) : Prop where
  slave : s.slave = true
  file : s.file = none
  last : s.last = r
  run : s.run = 0 ∨ s.run = r

theorem scan_first {r r' : Nat} (hr : r' ≠ r) {l : List Ev} (hl : l ≠ []) (h : ∀ e ∈ l, e.run = r') (p : Nat) : scan r l p = (some r', p) := by
  have := scan_change (r := r) hr [] l p (fun _ h => absurd h List.not_mem_nil) hl h
  simpa [evBytes] using this

theorem lost_step {r : Nat} (hr : r ≠ 0) {s : Out} (h : Lost r s) (o : Op)
    (ho : (∃ evs segs c, o = .buffer (.events evs segs) c ∧ evs ≠ [] ∧ ∀ e ∈ evs, e.run = r) ∨ o = .retry ∨ (∃ c, o = .init c) ∨
      ∃ k b, o = .disk k b) : Lost r (s.step o).1 ∧ (s.step o).1.disk = s.disk := by
  rcases ho with ⟨evs, segs, c, ho, hne, hev⟩ | ho | ⟨c, ho⟩ | ⟨k, b, ho⟩
  · subst ho
    show Lost r (s.payload (.events evs segs) c).1 ∧ (s.payload (.events evs segs) c).1.disk = s.disk
    unfold Out.payload
    rw [if_pos h.slave]
    rcases h.run with h0 | h0
    · have hsc : scan s.run (Buf.events evs segs).evs 0 = (some r, 0) := by
        rw [h0]; exact scan_first hr hne hev 0
      rw [hsc]
      simp only [h.file, Option.isSome_none, Bool.false_eq_true, if_false, if_true]
      unfold Out.newFile
      rw [if_neg (fun hh => hr hh.2), if_pos ⟨by simp only [h.last]; exact hr, h.last⟩]
      exact ⟨⟨h.slave, rfl, h.last, Or.inr rfl⟩, rfl⟩
    · have hsc : scan s.run (Buf.events evs segs).evs 0 = (none, 0 + (evBytes evs).length) := by
        rw [h0]; exact scan_same evs 0 hev
      rw [hsc]
      simp only
      rw [if_neg (by rw [h0]; exact hr)]
      unfold Out.go
      rw [if_pos (by rw [h.file]; rfl)]
      exact ⟨h, rfl⟩
  · subst ho
    show Lost r s.retry ∧ s.retry.disk = s.disk
    unfold Out.retry
    rw [closeFile_none h.file]
    simp only
    rw [if_pos h.slave]
    exact ⟨⟨h.slave, h.file, h.last, h.run⟩, rfl⟩
  · subst ho
    show Lost r (s.init c).1 ∧ (s.init c).1.disk = s.disk
    unfold Out.init
    rw [if_pos h.slave]
    exact ⟨⟨h.slave, h.file, h.last, Or.inl rfl⟩, rfl⟩
  · subst ho
    exact ⟨⟨h.slave, h.file, h.last, h.run⟩, rfl⟩

theorem lost_runs {r : Nat} (hr : r ≠ 0) : ∀ (ops : List Op) (s : Out), Lost r s → DuringRun r ops → (s.runs ops).1.disk = s.disk
  | [], _, _, _ => rfl
  | o :: l, s, h, hd => by
    obtain ⟨h1, h2⟩ := lost_step hr h o (hd o List.mem_cons_self)
    show ((s.step o).1.runs l).1.disk = s.disk
    rw [lost_runs hr l _ h1 fun x hx => hd x (List.mem_cons_of_mem _ hx), h2]

end Verif.HldOut
