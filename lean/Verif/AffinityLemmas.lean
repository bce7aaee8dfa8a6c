import Verif.Affinity

/-!
# Lemmas about affinities
-/

namespace Verif.Affinity
open Verif.Bytes Verif.Text

theorem upd_self (s : CpuSet) (k : Nat) (v : Bool) : upd s k v k = v := by simp [upd]

theorem upd_ne (s : CpuSet) {k i : Nat} (v : Bool) (h : i ≠ k) : upd s k v i = s i := by simp [upd, h]

theorem letters_ok (n : Nat) (cs : List Byte) : ∀ cpu s any, (∀ c ∈ cs, c = 120 ∨ c = 111) →
    (letters n cs cpu s any).2.2 = true ∧
    ((letters n cs cpu s any).2.1 = true ↔ any = true ∨ ∃ j, cpu + j < n ∧ cs[j]? = some 120) ∧
    ∀ i, (letters n cs cpu s any).1 i =
      if cpu ≤ i ∧ i < n ∧ i < cpu + cs.length then decide (cs[i - cpu]? = some 120) else s i := by
  induction cs with
  | nil =>
    intro cpu s any _
    simp [letters]
    intro i _
    omega
  | cons c cs ih =>
    intro cpu s any h
    unfold letters
    have hcs : ∀ c ∈ cs, c = 120 ∨ c = 111 := fun d hd => h d (List.mem_cons_of_mem _ hd)
    by_cases hn : n ≤ cpu
    · rw [if_pos hn]
      refine ⟨rfl, ?_, ?_⟩
      · constructor
        · exact .inl
        · rintro (h1 | ⟨j, hj, _⟩)
          · exact h1
          · omega
      · intro i
        rw [if_neg (by omega)]
    · rw [if_neg hn]
      have key : ∀ (v : Bool) (any' : Bool), (v = decide (c = 120)) → (any' = true ↔ any = true ∨ c = 120) →
          (letters n cs (cpu + 1) (upd s cpu v) any').2.2 = true ∧
          ((letters n cs (cpu + 1) (upd s cpu v) any').2.1 = true ↔
            any = true ∨ ∃ j, cpu + j < n ∧ (c :: cs)[j]? = some 120) ∧
          ∀ i, (letters n cs (cpu + 1) (upd s cpu v) any').1 i =
            if cpu ≤ i ∧ i < n ∧ i < cpu + (c :: cs).length then decide ((c :: cs)[i - cpu]? = some 120) else s i := by
        intro v any' hv ha
        obtain ⟨h1, h2, h3⟩ := ih (cpu + 1) (upd s cpu v) any' hcs
        refine ⟨h1, ?_, ?_⟩
        · rw [h2, ha]
          constructor
          · rintro ((h | h) | ⟨j, hj, hc⟩)
            · exact .inl h
            · exact .inr ⟨0, by omega, by simp [h]⟩
            · exact .inr ⟨j + 1, by omega, by simpa using hc⟩
          · rintro (h | ⟨j, hj, hc⟩)
            · exact .inl (.inl h)
            · cases j with
              | zero => simp at hc; exact .inl (.inr hc)
              | succ j => exact .inr ⟨j, by omega, by simpa using hc⟩
        · intro i
          rw [h3]
          by_cases hi : i = cpu
          · subst hi
            rw [if_neg (by omega), upd_self, if_pos (by simp; omega)]
            simp [hv]
          · rw [upd_ne _ _ hi]
            by_cases hc : cpu + 1 ≤ i ∧ i < n ∧ i < cpu + 1 + cs.length
            · rw [if_pos hc, if_pos (by simp; omega)]
              have e : i - cpu = (i - (cpu + 1)) + 1 := by omega
              rw [e]
              simp
            · rw [if_neg hc, if_neg (by simp; omega)]
      rcases h c (by simp) with rfl | rfl
      · rw [if_pos rfl]
        exact key true true (by decide) (by simp)
      · rw [if_neg (by decide), if_pos rfl]
        exact key false any (by decide) (by
          constructor
          · exact .inl
          · rintro (h | h)
            · exact h
            · exact absurd h (by decide))

theorem lettersD_ok (n : Nat) (cs : List Byte) : ∀ cpu s any, (∀ c ∈ cs, c = 120 ∨ c = 111 ∨ c = 115) →
    (∀ i, cpu ≤ i → s.dflt i = false ∧ s.spec i = false) →
    (lettersD n cs cpu s any).2.2 = true ∧
    ∀ i, ((lettersD n cs cpu s any).1.dflt i =
        if cpu ≤ i ∧ i < n ∧ i < cpu + cs.length then decide (cs[i - cpu]? = some 120) else s.dflt i) ∧
      ((lettersD n cs cpu s any).1.spec i =
        if cpu ≤ i ∧ i < n ∧ i < cpu + cs.length then decide (cs[i - cpu]? = some 115) else s.spec i) := by
  induction cs with
  | nil =>
    intro cpu s any _ _
    simp only [lettersD, List.length_nil, Nat.add_zero, true_and]
    intro i
    rw [if_neg (by omega), if_neg (by omega)]
    exact ⟨rfl, rfl⟩
  | cons c cs ih =>
    intro cpu s any h hz
    unfold lettersD
    have hcs : ∀ c ∈ cs, c = 120 ∨ c = 111 ∨ c = 115 := fun d hd => h d (List.mem_cons_of_mem _ hd)
    by_cases hn : n ≤ cpu
    · rw [if_pos hn]
      refine ⟨rfl, ?_⟩
      intro i
      rw [if_neg (by omega), if_neg (by omega)]
      exact ⟨rfl, rfl⟩
    · rw [if_neg hn]
      have key : ∀ (s' : Sets) (any' : Bool), s'.dflt cpu = decide (c = 120) → s'.spec cpu = decide (c = 115) →
          (∀ i, i ≠ cpu → s'.dflt i = s.dflt i ∧ s'.spec i = s.spec i) →
          (lettersD n cs (cpu + 1) s' any').2.2 = true ∧
          ∀ i, ((lettersD n cs (cpu + 1) s' any').1.dflt i =
            if cpu ≤ i ∧ i < n ∧ i < cpu + (c :: cs).length then decide ((c :: cs)[i - cpu]? = some 120) else s.dflt i) ∧
            ((lettersD n cs (cpu + 1) s' any').1.spec i =
            if cpu ≤ i ∧ i < n ∧ i < cpu + (c :: cs).length then decide ((c :: cs)[i - cpu]? = some 115) else s.spec i) := by
        intro s' any' hd hs he
        obtain ⟨h1, h2⟩ := ih (cpu + 1) s' any' hcs (by
          intro i hi
          rw [(he i (by omega)).1, (he i (by omega)).2]
          exact hz i (by omega))
        refine ⟨h1, ?_⟩
        intro i
        rw [(h2 i).1, (h2 i).2]
        by_cases hi : i = cpu
        · subst hi
          have e1 : ¬ (i + 1 ≤ i ∧ i < n ∧ i < i + 1 + cs.length) := by omega
          have e2 : i ≤ i ∧ i < n ∧ i < i + (c :: cs).length := by simp; omega
          rw [if_neg e1, if_neg e1, if_pos e2, if_pos e2, hd, hs]
          simp
        · rw [(he i hi).1, (he i hi).2]
          by_cases hc : cpu + 1 ≤ i ∧ i < n ∧ i < cpu + 1 + cs.length
          · have e2 : cpu ≤ i ∧ i < n ∧ i < cpu + (c :: cs).length := by simp; omega
            rw [if_pos hc, if_pos hc, if_pos e2, if_pos e2]
            have e : i - cpu = (i - (cpu + 1)) + 1 := by omega
            rw [e]
            simp
          · have e2 : ¬ (cpu ≤ i ∧ i < n ∧ i < cpu + (c :: cs).length) := by simp; omega
            rw [if_neg hc, if_neg hc, if_neg e2, if_neg e2]
            exact ⟨rfl, rfl⟩
      have hz0 := hz cpu (Nat.le_refl _)
      rcases h c (by simp) with rfl | rfl | rfl
      · rw [if_pos rfl]
        exact key _ true (by simp [upd_self]) (by simp [hz0.2]) (fun i hi => ⟨by simp [upd_ne _ _ hi], rfl⟩)
      · rw [if_neg (by decide), if_pos rfl]
        exact key _ any (by simp [upd_self]) (by simp [hz0.2]) (fun i hi => ⟨by simp [upd_ne _ _ hi], rfl⟩)
      · rw [if_neg (by decide), if_neg (by decide), if_pos rfl]
        exact key _ any (by simp [hz0.1]) (by simp [upd_self]) (fun i hi => ⟨rfl, by simp [upd_ne _ _ hi]⟩)

theorem numSet_le (s : CpuSet) {i k : Nat} (h : i ≤ k) : numSet s i ≤ numSet s k := by
  induction k with
  | zero => rw [Nat.le_zero.mp h]; exact Nat.le_refl _
  | succ k ih =>
    by_cases he : i = k + 1
    · rw [he]; exact Nat.le_refl _
    · have h1 := ih (by omega)
      have h2 : numSet s k ≤ numSet s (k + 1) := by
        simp only [numSet]
        split <;> omega
      omega

theorem pickLoop_spec (spec : CpuSet) (id : Nat) (k : Nat) : (pickLoop spec id k).2 = numSet spec k ∧
    ∀ i, (pickLoop spec id k).1 i = (decide (i < k) && (spec i && decide (numSet spec i = id))) := by
  induction k with
  | zero => simp [pickLoop, numSet, zero]
  | succ k ih =>
    obtain ⟨h1, h2⟩ := ih
    unfold pickLoop
    simp only
    by_cases hs : spec k = true
    · rw [if_pos hs]
      refine ⟨by simp [numSet, hs, h1], ?_⟩
      intro i
      simp only
      rw [h1]
      by_cases hi : i = k
      · subst hi
        by_cases hid : id = numSet spec i
        · rw [if_pos hid, upd_self]; simp [hs, hid]
        · rw [if_neg hid, h2]
          simp [hs]
          exact fun h => hid h.symm
      · have e : (if id = numSet spec k then upd (pickLoop spec id k).1 k true else (pickLoop spec id k).1) i =
            (pickLoop spec id k).1 i := by
          split
          · exact upd_ne _ _ hi
          · rfl
        rw [e, h2]
        have : decide (i < k) = decide (i < k + 1) := decide_eq_decide.mpr (by omega)
        rw [this]
    · rw [if_neg hs]
      refine ⟨by simp [numSet, hs, h1], ?_⟩
      intro i
      rw [h2]
      by_cases hi : i = k
      · subst hi; simp [hs]
      · have : decide (i < k) = decide (i < k + 1) := decide_eq_decide.mpr (by omega)
        rw [this]

theorem splitLoop_spec (lim : Nat) (s : CpuSet) (k : Nat) : (splitLoop lim s k).1 = numSet s k ∧
    (∀ i, k ≤ i → (splitLoop lim s k).2.dflt i = s i ∧ (splitLoop lim s k).2.spec i = false) ∧
    ∀ i, i < k → (splitLoop lim s k).2.dflt i = (s i && decide (numSet s i < lim)) ∧
      (splitLoop lim s k).2.spec i = (s i && decide (lim ≤ numSet s i)) := by
  induction k with
  | zero => simp [splitLoop, numSet, zero]
  | succ k ih =>
    obtain ⟨h1, h2, h3⟩ := ih
    unfold splitLoop
    simp only
    rw [(h2 k (Nat.le_refl _)).1]
    by_cases hs : s k = true
    · rw [if_pos hs]
      by_cases hl : (splitLoop lim s k).1 + 1 > lim
      · rw [if_pos hl]
        rw [h1] at hl
        refine ⟨by simp [numSet, hs, h1], ?_, ?_⟩
        · intro i hi
          simp only
          rw [upd_ne _ _ (by omega), upd_ne _ _ (by omega)]
          exact h2 i (by omega)
        · intro i hi
          simp only
          by_cases he : i = k
          · subst he
            rw [upd_self, upd_self]
            simp [hs]
            omega
          · rw [upd_ne _ _ he, upd_ne _ _ he]
            exact h3 i (by omega)
      · rw [if_neg hl]
        rw [h1] at hl
        refine ⟨by simp [numSet, hs, h1], fun i hi => h2 i (by omega), ?_⟩
        intro i hi
        by_cases he : i = k
        · subst he
          simp only
          rw [(h2 i (Nat.le_refl _)).1, (h2 i (Nat.le_refl _)).2]
          simp [hs]
          omega
        · exact h3 i (by omega)
    · rw [if_neg hs]
      refine ⟨by simp [numSet, hs, h1], fun i hi => h2 i (by omega), ?_⟩
      intro i hi
      by_cases he : i = k
      · subst he
        rw [(h2 i (Nat.le_refl _)).1, (h2 i (Nat.le_refl _)).2]
        simp [hs]
      · exact h3 i (by omega)

theorem wr_ok {buf : List Byte} {i : Nat} {v : Byte} (h : i < buf.length) : wr buf i v = some (buf.set i v) := by
  simp [wr, h]

theorem fill_spec (sy : Nat → Byte) (maxbuf : Nat) (buf : List Byte) (hb : buf.length = maxbuf) (k : Nat) :
    ∃ b last, fill sy maxbuf k buf = some (b, last) ∧ b.length = maxbuf ∧ (∀ i, i < k → i < maxbuf → b[i]? = some (sy i)) ∧
      (∀ i, i < k → sy i ≠ 111 → i ≤ last) ∧ (last = 0 ∨ (last < k ∧ sy last ≠ 111)) ∧ (0 < k → last < k) := by
  induction k with
  | zero => exact ⟨buf, 0, rfl, hb, by simp, by simp, .inl rfl, by simp⟩
  | succ k ih =>
    obtain ⟨b, last, h1, h2, h3, h4, h5, h6⟩ := ih
    have h6' : last ≤ k := by
      rcases h5 with h | h
      · omega
      · omega
    unfold fill
    rw [h1]
    simp only [Option.bind_some]
    have hc : ∃ b', (if k < maxbuf then wr b k (sy k) else some b) = some b' ∧ b'.length = maxbuf ∧
        ∀ i, i < k + 1 → i < maxbuf → b'[i]? = some (sy i) := by
      by_cases hk : k < maxbuf
      · rw [if_pos hk, wr_ok (by omega)]
        refine ⟨_, rfl, by simp [h2], ?_⟩
        intro i hi hm
        by_cases he : i = k
        · subst he
          rw [List.getElem?_set_self (by omega)]
        · rw [List.getElem?_set_ne (fun h => he h.symm)]
          exact h3 i (by omega) hm
      · rw [if_neg hk]
        exact ⟨b, rfl, h2, fun i hi hm => h3 i (by omega) hm⟩
    obtain ⟨b', e, hl, hi⟩ := hc
    rw [e]
    simp only [Option.bind_some]
    refine ⟨b', _, rfl, hl, hi, ?_, ?_, ?_⟩
    · intro i hi hs
      by_cases he : i = k
      · subst he; rw [if_pos hs]; exact Nat.le_refl _
      · have := h4 i (by omega) hs
        split <;> omega
    · split
      · right; exact ⟨by omega, ‹_›⟩
      · rcases h5 with h | h
        · exact .inl h
        · exact .inr ⟨by omega, h.2⟩
    · intro _
      split <;> omega

theorem cstr_prefix (sy : Nat → Byte) (hz : ∀ i, sy i ≠ 0) : ∀ (m : Nat) (b : List Byte) (o : Nat),
    (∀ i, i < m → b[i]? = some (sy (o + i))) → b[m]? = some 0 → cstr b = (List.range m).map fun i => sy (o + i) := by
  intro m
  induction m with
  | zero =>
    intro b o _ h0
    cases b with
    | nil => simp at h0
    | cons c cs =>
      simp at h0
      subst h0
      simp [cstr]
  | succ m ih =>
    intro b o hi h0
    cases b with
    | nil => simp at h0
    | cons c cs =>
      have hc : c = sy o := by simpa using hi 0 (by omega)
      have h1 := ih cs (o + 1) (fun i h => by
        have := hi (i + 1) (by omega)
        simpa [Nat.add_assoc, Nat.add_comm 1 i] using this) (by simpa using h0)
      rw [List.range_succ_eq_map]
      simp only [List.map_cons, List.map_map, Nat.add_zero]
      unfold cstr at h1 ⊢
      rw [List.takeWhile_cons_of_pos (by rw [hc]; exact decide_eq_true (hz o))]
      rw [h1, hc]
      congr 1
      apply List.map_congr_left
      intro i _
      simp [Nat.add_assoc, Nat.add_comm 1 i]

end Verif.Affinity
