import Verif.HldOutLemmas

/-! # The shape of files which are written -/

namespace Verif.HldOut

open Verif.Bytes

/-- Invariant of all operations; `good`: the disk never failed. -/
structure Inv (good : Prop) (s : Out) : Prop where
  nodup : (s.disk.map (·.1)).Nodup
  shape : ∀ f ∈ s.disk, Shape s.plain f
  file : ∀ n r, s.file = some (n, r) → n = nameOf s.plain r ∧ ∃ ps, Begun r ps ∧ (n, ps) ∈ s.disk
  fine : good → s.room = none ∧ s.canOpen = true ∧ ∀ f ∈ s.disk, (∃ r, s.file = some (f.1, r)) ∨ ∃ r, Whole r f.2

theorem Inv.congr {good : Prop} {s t : Out} (h : Inv good s) (h1 : t.disk = s.disk) (h2 : t.plain = s.plain) (h3 : t.file = s.file)
    (h4 : t.room = s.room) (h5 : t.canOpen = s.canOpen) : Inv good t := by
  constructor
  · rw [h1]; exact h.nodup
  · rw [h1, h2]; exact h.shape
  · rw [h1, h2, h3]; exact h.file
  · rw [h1, h3, h4, h5]; exact h.fine

theorem unique {d : List (Option Nat × List Piece)} (h : (d.map (·.1)).Nodup) {n : Option Nat} {ps qs : List Piece}
    (h1 : (n, ps) ∈ d) (h2 : (n, qs) ∈ d) : ps = qs := by
  induction d with
  | nil => exact absurd h1 List.not_mem_nil
  | cons f d ih =>
    rw [List.map_cons, List.nodup_cons] at h
    rcases List.mem_cons.1 h1 with e1 | h1
    · rcases List.mem_cons.1 h2 with e2 | h2
      · rw [← e1] at e2
        exact (Prod.mk.inj e2).2.symm
      · exact absurd (List.mem_map.2 ⟨_, h2, by rw [← e1]⟩) h.1
    · rcases List.mem_cons.1 h2 with e2 | h2
      · exact absurd (List.mem_map.2 ⟨_, h1, by rw [← e2]⟩) h.1
      · exact ih h.2 h1 h2

theorem mem_adds {n : Option Nat} {ps : List Piece} {d : List (Option Nat × List Piece)} {f : Option Nat × List Piece}
    (h : f ∈ adds n ps d) : (f.1 ≠ n ∧ f ∈ d) ∨ ∃ qs, (n, qs) ∈ d ∧ f = (n, qs ++ ps) := by
  obtain ⟨g, hg, he⟩ := List.mem_map.1 h
  by_cases h1 : g.1 = n
  · rw [if_pos h1] at he
    exact Or.inr ⟨g.2, by rw [← h1]; exact hg, he.symm⟩
  · rw [if_neg h1] at he
    subst he
    exact Or.inl ⟨h1, hg⟩

theorem adds_mem {n : Option Nat} {ps qs : List Piece} {d : List (Option Nat × List Piece)} (h : (n, qs) ∈ d) :
    (n, qs ++ ps) ∈ adds n ps d :=
  List.mem_map.2 ⟨_, h, by simp⟩

theorem begun_add {r : Nat} {ps qs : List Piece} (h : Begun r ps) (hq : Inner qs) : Begun r (ps ++ qs) := by
  obtain ⟨body, h1, h2⟩ := h
  exact ⟨body ++ qs, inner_append h1 hq, by rw [h2]; rfl⟩

/-- A piece of content. -/
theorem inv_put {good : Prop} {s : Out} (h : Inv good s) {p : Piece} (hp : Inner [p]) : Inv good (s.put p).1 := by
  rcases put_cases s p with ⟨h1, _⟩ | ⟨f, hf, hr, h1⟩ | ⟨f, k, hf, hk, _, h1⟩
  · rw [h1]; exact h
  · rw [h1]
    refine ⟨h.nodup, h.shape, (fun _ _ hc => by cases hc), fun hg => ?_⟩
    rw [(h.fine hg).1] at hr
    cases hr
  · rw [h1]
    obtain ⟨hn, ps, hb, hm⟩ := h.file f.1 f.2 hf
    refine ⟨by simp only [adds_names]; exact h.nodup, ?_, ?_, ?_⟩
    · intro g hg
      rcases mem_adds hg with ⟨_, h2⟩ | ⟨qs, h2, h3⟩
      · exact h.shape g h2
      · rw [unique h.nodup h2 hm] at h3
        rw [h3]
        exact Or.inr ⟨f.2, hn, Or.inl (begun_add hb hp)⟩
    · intro n r hc
      simp only at hc
      rw [hf] at hc
      cases hc
      exact ⟨hn, _, begun_add hb hp, adds_mem hm⟩
    · intro hg
      obtain ⟨h2, h3, h4⟩ := h.fine hg
      refine ⟨hk h2, h3, ?_⟩
      intro g hg
      rcases mem_adds hg with ⟨_, h5⟩ | ⟨qs, h5, h6⟩
      · exact h4 g h5
      · exact Or.inl ⟨f.2, by rw [h6]; exact hf⟩

theorem inv_segments {good : Prop} : ∀ (segs : List (List Byte)) (s : Out) (c w : Nat), Inv good s → Inv good (s.segments segs c w).1 := by
  intro segs
  induction segs with
  | nil => intro s c w h; exact h
  | cons g l ih =>
    intro s c w h
    unfold Out.segments
    by_cases hc : g.length ≤ c
    · rw [if_pos hc]; exact ih _ _ _ h
    · rw [if_neg hc]
      have h2 := inv_put h (inner_data (g.drop c))
      rcases hp : s.put (.data (g.drop c)) with ⟨u, b⟩
      rw [hp] at h2
      cases b with
      | false => exact h2
      | true => exact ih _ _ _ h2

theorem inv_flush {good : Prop} : ∀ (segs : List (List Byte)) (s : Out) (p : Nat), Inv good s → Inv good (s.flush segs p).1 := by
  intro segs
  induction segs with
  | nil => intro s p h; exact h
  | cons g l ih =>
    intro s p h
    unfold Out.flush
    by_cases hc : p = 0
    · rw [if_pos hc]; exact h
    · rw [if_neg hc]
      have h2 := inv_put h (inner_data (g.take p))
      rcases hp : s.put (.data (g.take p)) with ⟨u, b⟩
      rw [hp] at h2
      cases b with
      | false => exact h2
      | true => exact ih _ _ h2

theorem inv_account {good : Prop} {s : Out} (h : Inv good s) (n : Nat) : Inv good (s.account n) := h.congr rfl rfl rfl rfl rfl

theorem inv_subevents {good : Prop} {s : Out} (h : Inv good s) (l : List (List Byte)) : Inv good (s.subevents l).1 := by
  cases l with
  | nil => exact inv_account h 0
  | cons x l =>
    unfold Out.subevents
    simp only
    have h1 : Inv good ({ s with evnum := s.evnum + 1 } : Out) := h.congr rfl rfl rfl rfl rfl
    have h2 := inv_put h1 (inner_head s.evnum s.run (x.length + 32))
    rcases hp : Out.put { s with evnum := s.evnum + 1 } (.head s.evnum s.run (x.length + 32)) with ⟨u, b⟩
    rw [hp] at h2
    cases b with
    | false => exact h2
    | true =>
      simp only
      have h3 := inv_put h2 (inner_data x)
      simp only at h3
      rcases hq : u.put (.data x) with ⟨v, b⟩
      rw [hq] at h3
      cases b with
      | false => exact h3
      | true => exact inv_account h3 _

theorem inv_content {good : Prop} {s : Out} (h : Inv good s) (c : Nat) (b : Buf) : Inv good (s.content c b).1 := by
  cases b with
  | events evs segs =>
    have h1 := inv_segments segs s c 0 h
    show Inv good (match s.segments segs c 0 with
      | (s, false, _) => (s, Ret.error)
      | (s, true, w) => (s.account w, Ret.ok)).1
    rcases hp : s.segments segs c 0 with ⟨u, b, w⟩
    rw [hp] at h1
    cases b with
    | false => exact h1
    | true => exact inv_account h1 _
  | subevents l => exact inv_subevents h l
  | stopRun => exact inv_account h 0
  | eof => exact inv_account h 0
  | other => exact inv_account h 0

theorem inv_closeFile {good : Prop} {s : Out} (h : Inv good s) : Inv good s.closeFile ∧ s.closeFile.file = none ∧
    s.closeFile.plain = s.plain ∧ s.closeFile.run = s.run ∧ s.closeFile.slave = s.slave := by
  cases hf : s.file with
  | none =>
    rw [closeFile_none hf]
    exact ⟨h.congr rfl rfl rfl rfl rfl, hf, rfl, rfl, rfl⟩
  | some f =>
    have hcl : s.closeFile = { (s.put (.stop f.2)).1 with file := none, size := 0 } := by
      unfold Out.closeFile; rw [hf]
    rw [hcl]
    rcases put_cases s (.stop f.2) with ⟨h1, h2⟩ | ⟨f', hf', hr, h1⟩ | ⟨f', k, hf', hk, _, h1⟩
    · rcases h2 with h2 | h2
      · rw [hf] at h2; cases h2
      · simp [Piece.len] at h2
    · rw [h1]
      refine ⟨⟨h.nodup, h.shape, (fun _ _ hc => by cases hc), ?_⟩, rfl, rfl, rfl, rfl⟩
      intro hg
      rw [(h.fine hg).1] at hr
      cases hr
    · rw [h1]
      rw [hf] at hf'
      cases hf'
      obtain ⟨hn, ps, hb, hm⟩ := h.file f.1 f.2 hf
      have hw : Whole f.2 (ps ++ [.stop f.2]) := by
        obtain ⟨body, h2, h3⟩ := hb
        exact ⟨body, h2, by rw [h3]; rfl⟩
      refine ⟨⟨by simp only [adds_names]; exact h.nodup, ?_, (fun _ _ hc => by cases hc), ?_⟩, rfl, rfl, rfl, rfl⟩
      · intro g hg
        rcases mem_adds hg with ⟨_, h2⟩ | ⟨qs, h2, h3⟩
        · exact h.shape g h2
        · rw [unique h.nodup h2 hm] at h3
          rw [h3]
          exact Or.inr ⟨f.2, hn, Or.inr hw⟩
      · intro hg
        obtain ⟨h2, h3, h4⟩ := h.fine hg
        refine ⟨hk h2, h3, ?_⟩
        intro g hg
        rcases mem_adds hg with ⟨h6, h5⟩ | ⟨qs, h5, h6⟩
        · rcases h4 g h5 with ⟨r, hr⟩ | h4
          · rw [hf] at hr
            cases hr
            exact absurd rfl h6
          · exact Or.inr h4
        · rw [unique h.nodup h5 hm] at h6
          rw [h6]
          exact Or.inr ⟨f.2, hw⟩

theorem nodup_opened {d : List (Option Nat × List Piece)} (h : (d.map (·.1)).Nodup) (n : Option Nat) :
    ((opened n d).map (·.1)).Nodup := by
  unfold opened
  rw [List.map_append, List.nodup_append]
  refine ⟨(List.filter_sublist.map _).nodup h, by simp, ?_⟩
  intro a ha b hb
  obtain ⟨f, hf, he⟩ := List.mem_map.1 ha
  have := (List.mem_filter.1 hf).2
  simp only [List.map_cons, List.map_nil, List.mem_singleton] at hb
  subst hb he
  simpa using this

theorem inv_openWrite {good : Prop} {s : Out} (h : Inv good s) (hf : s.file = none) (r : Nat) :
    Inv good (s.openWrite (nameOf s.plain r) r).1 := by
  unfold Out.openWrite
  by_cases hc : s.canOpen = true
  · rw [if_pos hc]
    generalize hn : nameOf s.plain r = n
    rcases put_cases ({ s with disk := opened n s.disk, file := some (n, r) } : Out) (.start r) with ⟨_, h2⟩ | ⟨f', hf', hr, h1⟩ |
      ⟨f', k, hf', hk, _, h1⟩
    · rcases h2 with h2 | h2
      · cases h2
      · simp [Piece.len] at h2
    · show Inv good (Out.put { s with disk := opened n s.disk, file := some (n, r) } (.start r)).1
      rw [h1]
      refine ⟨nodup_opened h.nodup n, ?_, (fun _ _ hc => by cases hc), ?_⟩
      · intro g hg
        rcases List.mem_append.1 hg with hg | hg
        · exact h.shape g (List.mem_filter.1 hg).1
        · rw [List.mem_singleton.1 hg]; exact Or.inl rfl
      · intro hg
        simp only at hr
        rw [(h.fine hg).1] at hr
        cases hr
    · show Inv good (Out.put { s with disk := opened n s.disk, file := some (n, r) } (.start r)).1
      rw [h1]
      cases hf'
      simp only
      rw [adds_opened]
      have hb : Begun r [.start r] := ⟨[], inner_nil, rfl⟩
      refine ⟨?_, ?_, ?_, ?_⟩
      · have := nodup_opened h.nodup n
        unfold opened at this
        simpa using this
      · intro g hg
        rcases List.mem_append.1 hg with hg | hg
        · exact h.shape g (List.mem_filter.1 hg).1
        · rw [List.mem_singleton.1 hg]; exact Or.inr ⟨r, hn.symm, Or.inl hb⟩
      · intro m r' he
        simp only [Option.some.injEq, Prod.mk.injEq] at he
        obtain ⟨e1, e2⟩ := he
        subst e1 e2
        exact ⟨hn.symm, _, hb, by simp⟩
      · intro hg
        obtain ⟨h2, h3, h4⟩ := h.fine hg
        refine ⟨hk h2, h3, ?_⟩
        intro g hg
        rcases List.mem_append.1 hg with hg | hg
        · rcases h4 g (List.mem_filter.1 hg).1 with ⟨r, hr⟩ | h4
          · rw [hf] at hr; cases hr
          · exact Or.inr h4
        · rw [List.mem_singleton.1 hg]
          exact Or.inl ⟨r, rfl⟩
  · rw [if_neg hc]
    exact h

theorem inv_startNewFile {good : Prop} {s : Out} (h : Inv good s) (c : Nat) : Inv good (s.startNewFile c).1 := by
  unfold Out.startNewFile
  obtain ⟨h1, h2, h3, h4, h5⟩ := inv_closeFile h
  simp only
  by_cases h0 : s.closeFile.run = 0 ∧ s.closeFile.slave = true
  · rw [if_pos h0]; exact h1
  · rw [if_neg h0]
    generalize hu : (if s.closeFile.run = 0 then ({ s.closeFile with run := c } : Out) else s.closeFile) = u
    have hi : Inv good u := by
      rw [← hu]; split
      · exact h1.congr rfl rfl rfl rfl rfl
      · exact h1
    have hf : u.file = none := by
      rw [← hu]; split
      · exact h2
      · exact h2
    have h6 := inv_openWrite hi hf u.run
    show Inv good (match u.openWrite (nameOf u.plain u.run) u.run with
      | (s, true) => (({ s with last := s.run } : Out), true)
      | (s, false) => (s, false)).1
    rcases hp : u.openWrite (nameOf u.plain u.run) u.run with ⟨v, b⟩
    rw [hp] at h6
    cases b with
    | false => exact h6
    | true => exact h6.congr rfl rfl rfl rfl rfl

theorem inv_newFile {good : Prop} {s : Out} (h : Inv good s) (c p : Nat) (b : Buf) : Inv good (s.newFile c p b).1 := by
  unfold Out.newFile
  by_cases h1 : s.slave = true ∧ s.run = 0
  · rw [if_pos h1]; exact (inv_closeFile h).1
  · rw [if_neg h1]
    by_cases h2 : s.last ≠ 0 ∧ s.last = s.run
    · rw [if_pos h2]; exact h
    · rw [if_neg h2]
      have h3 := inv_startNewFile h c
      rcases hp : s.startNewFile c with ⟨v, x⟩
      rw [hp] at h3
      cases x with
      | false => exact h3
      | true =>
        simp only
        by_cases h4 : v.file.isNone = true
        · rw [if_pos h4]; exact h3
        · rw [if_neg h4]; exact inv_content h3 p b

theorem inv_go {good : Prop} {s : Out} (h : Inv good s) (b : Buf) : Inv good (s.go b).1 := by
  unfold Out.go
  by_cases h4 : s.file.isNone = true
  · rw [if_pos h4]; exact h
  · rw [if_neg h4]; exact inv_content h 0 b

/-- `Write_Buffer` for buffers with events or subevents. -/
def Out.payload (s : Out) (b : Buf) (clock : Nat) : Out × Ret :=
  if s.slave then
    match scan s.run b.evs 0 with
    | (none, _) => if s.run = 0 then (s, .ok) else s.go b
    | (some r, p) =>
      let s := { s with run := r }
      let (s, ok) := if s.file.isSome then s.flush b.segs p else (s, true)
      if ok then s.newFile clock p b else (s, .error)
  else if s.full b.size then ({ s with run := 0 } : Out).newFile clock 0 b
  else s.go b

theorem buffer_events (s : Out) (evs : List Ev) (segs : List (List Byte)) (c : Nat) :
    s.buffer (.events evs segs) c = s.payload (.events evs segs) c := rfl

theorem buffer_subevents (s : Out) (l : List (List Byte)) (c : Nat) :
    s.buffer (.subevents l) c = s.payload (.subevents l) c := rfl

theorem inv_payload {good : Prop} {s : Out} (h : Inv good s) (b : Buf) (c : Nat) : Inv good (s.payload b c).1 := by
  unfold Out.payload
  by_cases hs : s.slave = true
  · rw [if_pos hs]
    rcases hsc : scan s.run b.evs 0 with ⟨x, p⟩
    cases x with
    | none =>
      simp only
      by_cases h0 : s.run = 0
      · rw [if_pos h0]; exact h
      · rw [if_neg h0]; exact inv_go h b
    | some r =>
      simp only
      have h1 : Inv good ({ s with run := r } : Out) := h.congr rfl rfl rfl rfl rfl
      have h2 : Inv good (if s.file.isSome = true then Out.flush { s with run := r } b.segs p else ({ s with run := r }, true)).1 := by
        split
        · exact inv_flush _ _ _ h1
        · exact h1
      rcases hq : (if s.file.isSome = true then Out.flush { s with run := r } b.segs p else ({ s with run := r }, true)) with ⟨u, x⟩
      rw [hq] at h2
      cases x with
      | false => exact h2
      | true => exact inv_newFile h2 c p b
  · rw [if_neg hs]
    by_cases hf : s.full b.size = true
    · rw [if_pos hf]; exact inv_newFile (s := { s with run := 0 }) (h.congr rfl rfl rfl rfl rfl) c 0 b
    · rw [if_neg hf]; exact inv_go h b

theorem inv_buffer {good : Prop} {s : Out} (h : Inv good s) (b : Buf) (c : Nat) : Inv good (s.buffer b c).1 := by
  cases b with
  | events evs segs => exact inv_payload h _ c
  | subevents l => exact inv_payload h _ c
  | stopRun => exact inv_newFile (s := { s with run := 0 }) (h.congr rfl rfl rfl rfl rfl) c 0 _
  | eof => exact (inv_closeFile h).1
  | other => exact h

theorem inv_step {good : Prop} {s : Out} (h : Inv good s) (o : Op) (ho : good → ∀ r b, o ≠ .disk r b) : Inv good (s.step o).1 := by
  cases o with
  | init c =>
    show Inv good (s.init c).1
    unfold Out.init
    by_cases hs : s.slave = true
    · rw [if_pos hs]; exact h.congr rfl rfl rfl rfl rfl
    · rw [if_neg hs]; exact inv_startNewFile h c
  | buffer b c => exact inv_buffer h b c
  | retry =>
    show Inv good s.retry
    unfold Out.retry
    have := (inv_closeFile h).1
    simp only
    split
    · exact this
    · exact this.congr rfl rfl rfl rfl rfl
  | restart c =>
    show Inv good (s.restart c)
    unfold Out.restart
    split
    · exact inv_startNewFile (s := { s.closeFile with run := 0 }) ((inv_closeFile h).1.congr rfl rfl rfl rfl rfl) c
    · exact h
  | close => exact (inv_closeFile h).1
  | disk r b => exact ⟨h.nodup, h.shape, h.file, fun hg => absurd rfl (ho hg r b)⟩

theorem inv_runs {good : Prop} : ∀ (ops : List Op) (s : Out), Inv good s → (good → NoFault ops) → Inv good (s.runs ops).1 := by
  intro ops
  induction ops with
  | nil => intro s h _; exact h
  | cons o l ih =>
    intro s h hg
    exact ih _ (inv_step h o fun g => hg g o List.mem_cons_self) fun g x hx => hg g x (List.mem_cons_of_mem _ hx)

end Verif.HldOut
