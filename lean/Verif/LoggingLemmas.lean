import Verif.Spec.Logging

namespace Verif.Logging

theorem isAt_iff (e : Entry) (l : Nat) (f : String) : e.isAt l f = true ↔ e.line = l ∧ e.file = f := by
  simp [Entry.isAt]

/-- The entry of a place. -/
def entryAt (s : St) (l : Nat) (f : String) : Option Entry := s.ents.find? fun e => e.isAt l f

theorem entryAt_at {s : St} {l : Nat} {f : String} {e : Entry} (h : entryAt s l f = some e) : e.line = l ∧ e.file = f :=
  (isAt_iff e l f).1 (List.find?_some (p := fun e : Entry => e.isAt l f) h)

theorem find_filter_ne {l l' : Nat} {f f' : String} (h : ¬ (l = l' ∧ f = f')) : ∀ es : List Entry,
    (es.filter fun x => !x.isAt l f).find? (fun e => e.isAt l' f') = es.find? (fun e => e.isAt l' f')
  | [] => rfl
  | x :: es => by
    rw [List.filter_cons]
    by_cases hx : x.isAt l f = true
    · rw [if_neg (by simp [hx])]
      rw [List.find?_cons_of_neg, find_filter_ne h es]
      intro hc
      obtain ⟨h1, h2⟩ := (isAt_iff x l f).1 hx
      obtain ⟨h3, h4⟩ := (isAt_iff x l' f').1 hc
      exact h ⟨h1 ▸ h3, h2 ▸ h4⟩
    · rw [if_pos (by simp [hx])]
      by_cases hy : x.isAt l' f' = true
      · rw [List.find?_cons_of_pos (p := fun e : Entry => e.isAt l' f') hy, List.find?_cons_of_pos (p := fun e : Entry => e.isAt l' f') hy]
      · rw [List.find?_cons_of_neg (p := fun e : Entry => e.isAt l' f') hy, List.find?_cons_of_neg (p := fun e : Entry => e.isAt l' f') hy, find_filter_ne h es]

theorem entryAt_put (s : St) (e : Entry) (l : Nat) (f : String) :
    entryAt (putEntry s e) l f = if e.line = l ∧ e.file = f then some e else entryAt s l f := by
  unfold entryAt putEntry
  dsimp only
  by_cases h : e.line = l ∧ e.file = f
  · rw [if_pos h, List.find?_cons_of_pos (p := fun e : Entry => e.isAt l f) ((isAt_iff e l f).2 h)]
  · rw [if_neg h, List.find?_cons_of_neg (p := fun e : Entry => e.isAt l f) (fun hc => h ((isAt_iff e l f).1 hc)), find_filter_ne h]

theorem getEntry_place (s : St) (m : Msg) : (getEntry s m).line = m.line ∧ (getEntry s m).file = m.file := by
  unfold getEntry
  cases h : s.ents.find? fun e => e.isAt m.line m.file with
  | none => exact ⟨rfl, rfl⟩
  | some e => exact entryAt_at h

/-- Values of the entry before any message. -/
theorem getEntry_none {s : St} {m : Msg} (h : entryAt s m.line m.file = none) :
    getEntry s m = { file := m.file, func := m.func, line := m.line, level := m.level } := by
  unfold entryAt at h
  unfold getEntry
  rw [h]

theorem getEntry_some {s : St} {m : Msg} {e : Entry} (h : entryAt s m.line m.file = some e) : getEntry s m = e := by
  unfold entryAt at h
  unfold getEntry
  rw [h]

/-! ## Texts -/

theorem fill_drop {p : String} {m : Mask} {e : Entry} (h1 : m.message = true) (h2 : m.noDrop = false) :
    (fill p m e).drop = (if e.dropCnt = 0 then none else some e.dropCnt) ∧ (fill p m e).shows e.lastMsg := by
  have h0 : m ≠ {} := by intro hc; rw [hc] at h1; cases h1
  unfold fill
  rw [if_neg h0]
  refine ⟨?_, ?_⟩
  · dsimp only
    rw [h2]
    by_cases hd : e.dropCnt = 0
    · simp [hd]
    · rw [if_pos ⟨rfl, Nat.pos_of_ne_zero hd⟩, if_neg hd]
  · unfold Text.shows
    simp [opt, h1]

theorem fill_ne {p : String} {m : Mask} {e : Entry} (h : m.tstamp = true ∨ m.sys = true) : (fill p m e).isEmpty = false := by
  have h0 : m ≠ {} := by intro hc; rw [hc] at h; simp at h
  unfold fill
  rw [if_neg h0]
  unfold Text.isEmpty
  have : ∃ x ∈ (opt (m.pfx && !m.noPrefix) (Fld.pfx p) ++ opt m.level (.level (if e.level < 0 then none else some e.level)) ++
      opt m.sys (.sys (e.level < 0)) ++ opt m.date (.date e.msgTime) ++ opt m.time (.time e.msgTime) ++
      opt (m.tstamp && !m.sys) .tstamp ++ opt m.file (.file e.file) ++ opt m.func (.func e.func) ++ opt m.line (.line e.line) ++
      opt m.message (.msg e.lastMsg)), x.isEmpty = false := by
    by_cases hs : m.sys = true
    · exact ⟨.sys (e.level < 0), by simp [opt, hs], rfl⟩
    · have ht : m.tstamp = true := by rcases h with h | h; exact h; exact absurd h hs
      exact ⟨.tstamp, by simp [opt, hs, ht], rfl⟩
  obtain ⟨x, hx, hx'⟩ := this
  rw [Bool.and_eq_false_iff]
  right
  rw [List.all_eq_false]
  exact ⟨x, hx, by simp [hx']⟩

/-! ## One call -/

/-- The three outputs of a message which is shown. -/
def lines (c : Cfg) (m : Msg) (t1 t2 t3 : Text) : List (Chan × Text) :=
  (if m.level ≤ c.debugLevel then [(if m.level < 0 then Chan.err else Chan.out, t1)] else []) ++
  (if c.hasFile = true ∧ m.level ≤ c.fileLevel then [(Chan.file, t2)] else []) ++
  (if c.hasSyslog = true ∧ m.level ≤ c.syslogLevel then [(if m.level < 0 then Chan.sysErr else Chan.sysInfo, t3)] else [])

/-- The line says how many messages were dropped before. -/
def Tells (t : Text) (m : Msg) (n : Nat) : Prop := t.shows m.text ∧ t.drop = (if n = 0 then none else some n)

/-- One call for a place under plain settings. -/
theorem doOutput_plain {c : Cfg} {s s' : St} {m : Msg} {o : List (Chan × Text)} (hc : Plain c) (h : doOutput c s m = some (s', o)) :
    ∃ e', (∀ l f, entryAt s' l f = if m.line = l ∧ m.file = f then some e' else entryAt s l f) ∧
      e'.counter = ((getEntry s m).counter + 1) % 2 ^ 32 ∧
      ((c.limit < e'.counter ∧ m.now - (getEntry s m).lastTm < half ∧ o = [] ∧ e'.dropCnt = ((getEntry s m).dropCnt + 1) % 2 ^ 32 ∧
          e'.lastTm = (getEntry s m).lastTm) ∨
        ((e'.counter ≤ c.limit ∨ half ≤ m.now - (getEntry s m).lastTm) ∧ e'.dropCnt = 0 ∧ e'.lastTm = m.now ∧
          ∃ t1 t2 t3, o = lines c m t1 t2 t3 ∧ ∀ t ∈ [t1, t2, t3], Tells t m (getEntry s m).dropCnt)) := by
  unfold doOutput at h
  dsimp only at h
  generalize hs1 : (if m.line ≥ s.maxLine then ({ s with maxLine := extend s.maxLine (((m.line / 1024 + 1) * 1024) % 2 ^ 32) } : St) else s) = s1 at h
  have hents : s1.ents = s.ents := by subst hs1; split <;> rfl
  have hget : getEntry s1 m = getEntry s m := by unfold getEntry; rw [hents]
  have hat : ∀ l f, entryAt s1 l f = entryAt s l f := fun l f => by unfold entryAt; rw [hents]
  obtain ⟨hl, hf⟩ := getEntry_place s m
  split at h
  · cases h
  rw [hget] at h
  generalize hcn : ((getEntry s m).counter + 1) % 2 ^ 32 = cn at h
  generalize hdn : ((getEntry s m).dropCnt + 1) % 2 ^ 32 = dn at h
  generalize hg : getEntry s m = e at h hl hf
  generalize hmask : (if m.level ≥ 0 then c.debugMask else c.errorMask) = mask at h
  have hm : mask.message = true ∧ mask.tstamp = true ∧ mask.noDrop = false := by
    subst hmask; split
    · exact hc.debug
    · exact hc.error
  generalize hfm : (if c.hasFile then mask.or c.fileMask else mask) = fmask at h
  have hfm' : fmask.message = true ∧ fmask.tstamp = true ∧ fmask.noDrop = false := by
    subst hfm; split
    · simp [Mask.or, hm, hc.file]
    · exact hm
  have hput : ∀ (e' : Entry), e'.line = m.line → e'.file = m.file → ∀ l f, entryAt (putEntry s1 e') l f = if m.line = l ∧ m.file = f then some e' else entryAt s l f := by
    intro e' h1 h2 l f
    rw [entryAt_put, h1, h2, hat]
  by_cases hd : c.limit < cn ∧ m.now - e.lastTm < half
  · have hd' : (decide (cn > c.limit) && decide (m.now - e.lastTm < half)) = true := by simp [hd.1, hd.2]
    rw [hd'] at h
    simp only [hm.2.2, hfm'.2.2, Bool.not_false, Bool.and_self, if_true] at h
    injection h with h
    injection h with h1 h2
    subst h1
    refine ⟨_, hput _ hl hf, rfl, .inl ⟨hd.1, hd.2, h2.symm, rfl, rfl⟩⟩
  · have hd' : (decide (cn > c.limit) && decide (m.now - e.lastTm < half)) = false := by
      simp only [Bool.and_eq_false_iff, decide_eq_false_iff_not]
      by_cases h1 : c.limit < cn
      · exact .inr fun h2 => hd ⟨h1, h2⟩
      · exact .inl h1
    rw [hd'] at h
    simp only [Bool.false_and, Bool.false_eq_true, if_false, Bool.not_false, Bool.true_or, Bool.true_and, Bool.and_true, if_true] at h
    injection h with h
    injection h with h1 h2
    subst h1
    refine ⟨_, hput _ hl hf, rfl, .inr ⟨?_, rfl, rfl, ?_⟩⟩
    · show cn ≤ c.limit ∨ _
      by_cases h1 : c.limit < cn
      · right
        have : ¬ (m.now - e.lastTm < half) := fun h2 => hd ⟨h1, h2⟩
        omega
      · left; omega
    · let e2 : Entry := { e with counter := cn, msgTime := m.clock, lastMsg := m.text }
      refine ⟨fill c.pfx mask e2, fill c.pfx fmask e2, fill c.pfx (mask.or { sys := true }) e2, ?_, ?_⟩
      · rw [← h2]
        have n1 : (fill c.pfx mask e2).isEmpty = false := fill_ne (.inl hm.2.1)
        have n2 : (fill c.pfx fmask e2).isEmpty = false := fill_ne (.inl hfm'.2.1)
        have n3 : (fill c.pfx (mask.or { sys := true }) e2).isEmpty = false := fill_ne (.inr (by simp [Mask.or]))
        show (if decide (m.level ≤ c.debugLevel) = true then (if (fill c.pfx mask e2).isEmpty = true then [] else _) else []) ++
          (if (c.hasFile && decide (m.level ≤ c.fileLevel)) = true then (if (fill c.pfx fmask e2).isEmpty = true then [] else _) else []) ++
          (if (c.hasSyslog && decide (m.level ≤ c.syslogLevel)) = true then (if (fill c.pfx (mask.or { sys := true }) e2).isEmpty = true then [] else _) else []) = _
        rw [n1, n2, n3]
        unfold lines
        simp only [Bool.false_eq_true, if_false, decide_eq_true_eq, Bool.and_eq_true]
        rfl
      · intro t ht
        simp only [List.mem_cons, List.not_mem_nil, or_false] at ht
        rcases ht with rfl | rfl | rfl
        · have := fill_drop (p := c.pfx) (e := e2) hm.1 hm.2.2; exact ⟨this.2, this.1⟩
        · have := fill_drop (p := c.pfx) (e := e2) hfm'.1 hfm'.2.2; exact ⟨this.2, this.1⟩
        · have := fill_drop (p := c.pfx) (m := mask.or { sys := true }) (e := e2) (by simp [Mask.or, hm.1]) (by simp [Mask.or, hm.2.2]); exact ⟨this.2, this.1⟩

/-- A call never touches the entries of other places, whatever the settings. -/
theorem debug_other {c : Cfg} {s s' : St} {m : Msg} {o : List (Chan × Text)} (h : debug c s m = some (s', o)) {l : Nat} {f : String}
    (hn : ¬ (m.line = l ∧ m.file = f)) : entryAt s' l f = entryAt s l f := by
  unfold debug at h
  split at h
  rotate_left
  · injection h with h; injection h with h1 _; subst h1; rfl
  unfold doOutput at h
  dsimp only at h
  generalize hs1 : (if m.line ≥ s.maxLine then ({ s with maxLine := extend s.maxLine (((m.line / 1024 + 1) * 1024) % 2 ^ 32) } : St) else s) = s1 at h
  have hents : s1.ents = s.ents := by subst hs1; split <;> rfl
  have hat : ∀ l f, entryAt s1 l f = entryAt s l f := fun l f => by unfold entryAt; rw [hents]
  obtain ⟨hl, hf⟩ := getEntry_place s1 m
  have hput : ∀ (e' : Entry), e'.line = m.line → e'.file = m.file → entryAt (putEntry s1 e') l f = entryAt s l f := by
    intro e' h1 h2
    rw [entryAt_put, h1, h2, if_neg hn, hat]
  split at h
  · cases h
  generalize (if m.level ≥ 0 then c.debugMask else c.errorMask) = mask at h
  generalize (if c.hasFile then mask.or c.fileMask else mask) = fmask at h
  generalize (decide (((getEntry s1 m).counter + 1) % 2 ^ 32 > c.limit) && decide (m.now - (getEntry s1 m).lastTm < half)) = drop at h
  cases hcond : (drop && !mask.noDrop && !fmask.noDrop) <;> rw [hcond] at h <;> simp only [Bool.false_eq_true, if_false, if_true] at h
  rotate_left
  · injection h with h; injection h with h1 _
    subst h1
    apply hput
    · split <;> exact hl
    · split <;> exact hf
  · injection h with h; injection h with h1 _
    subst h1
    apply hput
    · cases drop <;> exact hl
    · cases drop <;> exact hf

end Verif.Logging
