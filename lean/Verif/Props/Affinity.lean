import Verif.AffinityLemmas
import Verif.UrlLemmas

/-!
# C105: affinity of threads
-/

namespace Verif.Affinity
open Verif.Bytes Verif.Text Verif.Json

/-- **C105.**  A text of `x` and `o` which begins with one of them selects the processors with an `x`. -/
theorem C105_letters (n : Nat) (s : Sets) (t : List Byte) (ht : t ≠ []) (hl : ∀ c ∈ t, c = 120 ∨ c = 111)
    (hx : ∃ i, i < n ∧ t[i]? = some 120) :
    (set n s t).2 = .ok ∧ ∀ i, (set n s t).1 i = true ↔ i < n ∧ t[i]? = some 120 := by
  cases t with
  | nil => exact absurd rfl ht
  | cons c cs =>
    obtain ⟨h1, h2, h3⟩ := letters_ok n (c :: cs) 0 zero false hl
    have hc := hl c (by simp)
    have hany : (letters n (c :: cs) 0 zero false).2.1 = true := by
      rw [h2]
      obtain ⟨i, hi, he⟩ := hx
      exact .inr ⟨i, by omega, he⟩
    have e : set n s (c :: cs) = ((letters n (c :: cs) 0 zero false).1, .ok) := by
      unfold set
      dsimp only
      rw [if_neg (by rintro ⟨rfl, _⟩; rcases hc with h | h <;> exact absurd h (by decide)),
        if_pos (by rcases hc with h | h <;> simp [h]), h1, hany]
      rfl
    rw [e]
    refine ⟨rfl, ?_⟩
    intro i
    dsimp only
    rw [h3]
    by_cases hi : i < n ∧ i < (c :: cs).length
    · rw [if_pos (by omega)]
      simp [hi.1]
    · rw [if_neg (by omega)]
      simp only [zero, Bool.false_eq_true, false_iff, not_and]
      intro h4 h5
      have := (List.getElem?_eq_some_iff.mp h5).1
      omega

example : (set 1024 ⟨zero, zero⟩ [111, 120, 120]).2 = .ok ∧ (set 1024 ⟨zero, zero⟩ [111, 120, 120]).1 1 = true ∧
    (set 1024 ⟨zero, zero⟩ [111, 120, 120]).1 0 = false := by decide

theorem digit_head {c : Byte} {cs : List Byte} (ht : Digits (c :: cs)) : 48 ≤ c.toNat ∧ c.toNat ≤ 57 :=
  ht.2 c (by simp)

/-- **C105.**  A positive decimal number selects the processors of its bits. -/
theorem C105_mask (n : Nat) (s : Sets) (t : List Byte) (ht : Digits t) (hv : natVal t < 2 ^ 32) (h0 : 0 < natVal t) :
    (set n s t).2 = .ok ∧ ∀ i, (set n s t).1 i = true ↔ i < n ∧ (natVal t).testBit i = true := by
  cases t with
  | nil => exact absurd rfl ht.1
  | cons c cs =>
    have hc := digit_head ht
    have e : set n s (c :: cs) = (maskSet n (natVal (c :: cs)), .ok) := by
      unfold set
      dsimp only
      rw [if_neg (by rintro ⟨rfl, _⟩; exact absurd hc.1 (by decide)),
        if_neg (by rintro (rfl | rfl) <;> exact absurd hc.2 (by decide)), strToUint_digits ht hv]
      unfold setMask
      dsimp only
      rw [if_neg (by omega)]
      simp
    rw [e]
    refine ⟨rfl, ?_⟩
    intro i
    simp only [maskSet, Bool.and_eq_true, decide_eq_true_eq]
    constructor
    · rintro ⟨⟨_, h1⟩, h2⟩
      exact ⟨h1, h2⟩
    · rintro ⟨h1, h2⟩
      refine ⟨⟨?_, h1⟩, h2⟩
      cases Nat.lt_or_ge i 32 with
      | inl h => exact h
      | inr h =>
        have := Nat.testBit_lt_two_pow (x := natVal (c :: cs)) (i := i)
          (Nat.lt_of_lt_of_le hv (Nat.pow_le_pow_right (by omega) h))
        rw [this] at h2
        cases h2

example : (set 1024 ⟨zero, zero⟩ [53]).1 2 = true := by
  rw [(C105_mask 1024 ⟨zero, zero⟩ [53] ⟨by simp, by simp [isDigit]⟩ (by decide) (by decide)).2 2]
  decide

/-- The same for the default affinity. -/
theorem C105_dflt_mask (n : Nat) (proc : Option CpuSet) (t : List Byte) (ht : Digits t) (hv : natVal t < 2 ^ 32)
    (h0 : 0 < natVal t) :
    (setDflt n proc true t).2 = .ok ∧
      ∀ i, ((setDflt n proc true t).1.dflt i = true ↔ i < n ∧ (natVal t).testBit i = true) ∧
        (setDflt n proc true t).1.spec i = false := by
  cases t with
  | nil => exact absurd rfl ht.1
  | cons c cs =>
    have hc := digit_head ht
    have e : setDflt n proc true (c :: cs) = (⟨maskSet n (natVal (c :: cs)), zero⟩, .ok) := by
      unfold setDflt
      dsimp only
      rw [if_neg (by rintro ⟨rfl, _⟩; exact absurd hc.1 (by decide)),
        if_neg (by rintro (rfl | rfl | rfl) <;> exact absurd hc.2 (by decide)), strToUint_digits ht hv]
      unfold dfltMask
      dsimp only
      rw [if_neg (by omega)]
      simp
    rw [e]
    refine ⟨rfl, fun i => ⟨?_, rfl⟩⟩
    simp only [maskSet, Bool.and_eq_true, decide_eq_true_eq]
    constructor
    · rintro ⟨⟨_, h1⟩, h2⟩
      exact ⟨h1, h2⟩
    · rintro ⟨h1, h2⟩
      refine ⟨⟨?_, h1⟩, h2⟩
      cases Nat.lt_or_ge i 32 with
      | inl h => exact h
      | inr h =>
        have := Nat.testBit_lt_two_pow (x := natVal (c :: cs)) (i := i)
          (Nat.lt_of_lt_of_le hv (Nat.pow_le_pow_right (by omega) h))
        rw [this] at h2
        cases h2

/-- Processors of a set below `k`. -/
def members (s : CpuSet) (k : Nat) : List Nat := (List.range k).filter s

theorem numSet_members (s : CpuSet) (k : Nat) : numSet s k = (members s k).length := by
  induction k with
  | zero => rfl
  | succ k ih =>
    unfold members at ih ⊢
    rw [List.range_succ, List.filter_append, List.length_append, ← ih]
    simp only [numSet]
    cases hs : s k <;> simp [hs]

/-- **C105.**  `+K` selects one processor: the special one with `K` special ones below; if there is none it fails. -/
theorem C105_special (n : Nat) (s : Sets) (t : List Byte) (ht : Digits t) (hv : natVal t < 2 ^ 32) :
    ((set n s (43 :: t)).2 = .ok ↔ natVal t < (members s.spec n).length) ∧
      ∀ i, (set n s (43 :: t)).1 i = true ↔
        i < n ∧ s.spec i = true ∧ (members s.spec i).length = natVal t := by
  have e : set n s (43 :: t) = setPlus n s.spec (.val (natVal t)) := by
    unfold set
    dsimp only
    rw [if_pos ⟨rfl, ht.1⟩, strToUint_digits ht hv]
  obtain ⟨h1, h2⟩ := pickLoop_spec s.spec (natVal t) n
  rw [e]
  have e2 : setPlus n s.spec (.val (natVal t)) =
      ((pickLoop s.spec (natVal t) n).1, if (pickLoop s.spec (natVal t) n).2 ≤ natVal t then .fail else .ok) := rfl
  rw [e2]
  dsimp only
  constructor
  · rw [h1, ← numSet_members]
    by_cases h : numSet s.spec n ≤ natVal t
    · rw [if_pos h]
      simp only [reduceCtorEq, false_iff]
      omega
    · rw [if_neg h]
      simp only [true_iff]
      omega
  · intro i
    rw [h2, ← numSet_members]
    simp [Bool.and_eq_true]

/-- Exactly one, if there is one. -/
theorem C105_special_one (s : Sets) (k i j : Nat) (hi : s.spec i = true) (hj : s.spec j = true)
    (h1 : (members s.spec i).length = k) (h2 : (members s.spec j).length = k) : i = j := by
  rw [← numSet_members] at h1 h2
  rcases Nat.lt_trichotomy i j with h | h | h
  · have := numSet_le s.spec (i := i + 1) (k := j) h
    simp only [numSet, hi, if_true] at this
    omega
  · exact h
  · have := numSet_le s.spec (i := j + 1) (k := i) h
    simp only [numSet, hj, if_true] at this
    omega

example : (set 1024 ⟨zero, fun i => decide (i = 3 ∨ i = 5)⟩ [43, 49]).1 5 = true := by
  rw [(C105_special 1024 ⟨zero, fun i => decide (i = 3 ∨ i = 5)⟩ [49] ⟨by simp, by simp [isDigit]⟩ (by decide)).2 5]
  decide

theorem numSet_split (lim : Nat) (s : CpuSet) (f : CpuSet) (k : Nat)
    (hf : ∀ i, i < k → f i = (s i && decide (lim ≤ numSet s i))) : numSet f k = numSet s k - lim := by
  induction k with
  | zero => simp [numSet]
  | succ k ih =>
    have h1 := ih (fun i hi => hf i (by omega))
    have h2 := hf k (by omega)
    simp only [numSet]
    cases hs : s k with
    | false => rw [hs] at h2; simp [h2, h1]
    | true =>
      rw [hs] at h2
      by_cases hl : lim ≤ numSet s k
      · rw [h2]; simp [hl, h1]; omega
      · rw [h2]; simp [hl, h1]; omega

/-- **C105.**  `-N` for the default affinity of a process which may use more than N processors: the N highest ones become
special, the others remain for normal threads. -/
theorem C105_split (n : Nat) (d : CpuSet) (t : List Byte) (ht : Digits t) (hv : natVal t < 2 ^ 32) (h0 : 0 < natVal t)
    (hn : natVal t < (members d n).length) :
    let r := setDflt n (some d) true (45 :: t)
    r.2 = .ok ∧ (members r.1.spec n).length = natVal t ∧
      (∀ i, i < n → (d i = true ↔ r.1.dflt i = true ∨ r.1.spec i = true)) ∧
      ∀ i j, i < n → j < n → r.1.dflt i = true → r.1.spec j = true → i < j := by
  have hn' : natVal t < numSet d n := by rw [numSet_members]; exact hn
  have e : setDflt n (some d) true (45 :: t) = ((splitLoop (numSet d n - natVal t) d n).2, .ok) := by
    unfold setDflt
    dsimp only
    rw [if_pos ⟨rfl, ht.1⟩, strToUint_digits ht hv]
    unfold dfltMinus
    dsimp only
    rw [if_neg (by omega), if_neg (by simp; omega)]
    simp
  obtain ⟨_, _, h3⟩ := splitLoop_spec (numSet d n - natVal t) d n
  dsimp only
  rw [e]
  refine ⟨rfl, ?_, ?_, ?_⟩
  · rw [← numSet_members, numSet_split (numSet d n - natVal t) d _ n (fun i hi => (h3 i hi).2)]
    omega
  · intro i hi
    dsimp only
    rw [(h3 i hi).1, (h3 i hi).2]
    cases d i with
    | false => simp
    | true => simp; omega
  · intro i j hi hj h1 h2
    dsimp only at h1 h2
    rw [(h3 i hi).1] at h1
    rw [(h3 j hj).2] at h2
    simp only [Bool.and_eq_true, decide_eq_true_eq] at h1 h2
    cases Nat.lt_or_ge i j with
    | inl h => exact h
    | inr h =>
      have := numSet_le d h
      omega

example : (setDflt 8 (some fun i => decide (i < 4)) true [45, 49]).1.spec 3 = true ∧
    (setDflt 8 (some fun i => decide (i < 4)) true [45, 49]).1.dflt 2 = true := by decide

/-- **C105.**  The texts of `GetAffinity` and `GetDfltAffinity`: nothing is written outside of the buffer; they succeed
exactly when all letters other than `o` fit together with the end of the text; then the text shows the letters of
the first processors, and all others are `o`.  `n` is a multiple of 8. -/
theorem C105_get (n : Nat) (sy : Nat → Byte) (maxbuf : Nat) (buf : List Byte) (hn : 0 < n) (h8 : n % 8 = 0)
    (hz : ∀ i, sy i ≠ 0) (hb : buf.length = maxbuf) (hm : 0 < maxbuf) :
    ∃ b r, get n sy maxbuf buf = some (b, r) ∧ b.length = maxbuf ∧
      (r = true ↔ 1 < maxbuf ∧ ∀ i, i < n → sy i ≠ 111 → i + 1 < maxbuf) ∧
      (r = true → ∃ m, 0 < m ∧ m ≤ n ∧ cstr b = (List.range m).map sy ∧ ∀ i, i < n → sy i ≠ 111 → i < m) ∧
      (r = false → cstr b = (List.range (maxbuf - 1)).map sy) := by
  obtain ⟨b, last, h1, h2, h3, h4, h5, h6⟩ := fill_spec sy maxbuf buf hb n
  have h6 := h6 hn
  unfold get
  rw [if_neg (by omega), h1]
  simp only [Option.bind_some]
  unfold term
  dsimp only
  by_cases hl : last + 1 < maxbuf
  · rw [if_pos hl]
    have hw : (last / 8 + 1) * 8 ≤ n := by omega
    have hw2 : last < (last / 8 + 1) * 8 := by omega
    have fin : ∀ m, last < m → m ≤ n → m < maxbuf → ∃ b' r, (wr b m 0).map (fun b => (b, true)) = some (b', r) ∧
        b'.length = maxbuf ∧ (r = true ↔ 1 < maxbuf ∧ ∀ i, i < n → sy i ≠ 111 → i + 1 < maxbuf) ∧
        (r = true → ∃ m, 0 < m ∧ m ≤ n ∧ cstr b' = (List.range m).map sy ∧ ∀ i, i < n → sy i ≠ 111 → i < m) ∧
        (r = false → cstr b' = (List.range (maxbuf - 1)).map sy) := by
      intro m hlm hmn hmb
      rw [wr_ok (by omega)]
      refine ⟨_, _, rfl, by simp [h2], ?_, ?_, by simp⟩
      · simp only [true_iff]
        refine ⟨by omega, ?_⟩
        intro i hi hs
        have := h4 i hi hs
        omega
      · intro _
        refine ⟨m, by omega, hmn, ?_, ?_⟩
        · have := cstr_prefix sy hz m (b.set m 0) 0 (by
            intro i hi
            rw [List.getElem?_set_ne (by omega)]
            rw [Nat.zero_add]
            exact h3 i (by omega) (by omega)) (by rw [List.getElem?_set_self (by omega)])
          simpa using this
        · intro i hi hs
          have := h4 i hi hs
          omega
    split
    · exact fin _ hw2 hw ‹_›
    · exact fin _ (by omega) (by omega) hl
  · rw [if_neg hl, wr_ok (by omega)]
    refine ⟨_, _, rfl, by simp [h2], ?_, by simp, ?_⟩
    · simp only [Bool.false_eq_true, false_iff, not_and]
      intro hm1 h7
      rcases h5 with h | ⟨ha, hb'⟩
      · omega
      · have := h7 last ha hb'
        omega
    · intro _
      have := cstr_prefix sy hz (maxbuf - 1) (b.set (maxbuf - 1) 0) 0 (by
        intro i hi
        rw [List.getElem?_set_ne (by omega)]
        rw [Nat.zero_add]
        exact h3 i (by omega) (by omega)) (by rw [List.getElem?_set_self (by omega)])
      simpa using this

example : (get 8 (symb fun i => decide (i = 2)) 20 (List.replicate 20 1)).map (fun r => (cstr r.1, r.2)) =
    some ([111, 111, 120, 111, 111, 111, 111, 111], true) := by decide

theorem symb_ne (s : CpuSet) (i : Nat) : symb s i ≠ 0 := by unfold symb; split <;> decide
theorem symb_x (s : CpuSet) (i : Nat) : symb s i = 120 ↔ s i = true := by
  unfold symb
  cases s i <;> simp
theorem symb_o (s : CpuSet) (i : Nat) : symb s i ≠ 111 ↔ s i = true := by
  unfold symb
  cases s i <;> simp

/-- **C105.**  What `GetAffinity` writes, `SetAffinity` reads - when the set is not empty and the buffer is large enough. -/
theorem C105_roundtrip_partial (n : Nat) (s : CpuSet) (ss : Sets) (maxbuf : Nat) (buf : List Byte) (b : List Byte)
    (hn : 0 < n) (h8 : n % 8 = 0) (hb : buf.length = maxbuf) (hm : 0 < maxbuf) (hs : ∃ i, i < n ∧ s i = true)
    (h : getSet n s maxbuf buf = some (b, true)) :
    (set n ss (cstr b)).2 = .ok ∧ ∀ i, i < n → (set n ss (cstr b)).1 i = s i := by
  obtain ⟨b', r, h1, _, _, h2, _⟩ := C105_get n (symb s) maxbuf buf hn h8 (symb_ne s) hb hm
  unfold getSet at h
  rw [h] at h1
  cases h1
  obtain ⟨m, hm0, hmn, hc, hx⟩ := h2 rfl
  rw [hc]
  have hg : ∀ i, i < m → ((List.range m).map (symb s))[i]? = some (symb s i) := by
    intro i hi
    simp [List.getElem?_map, List.getElem?_range hi]
  obtain ⟨k, hk, hks⟩ := hs
  have hkm := hx k hk ((symb_o s k).mpr hks)
  obtain ⟨h3, h4⟩ := C105_letters n ss ((List.range m).map (symb s))
    (by intro h; have := congrArg List.length h; simp at this; omega)
    (by
      intro c hc
      obtain ⟨i, _, rfl⟩ := List.mem_map.mp hc
      unfold symb
      split
      · exact .inl rfl
      · exact .inr rfl)
    ⟨k, hk, by rw [hg k hkm, (symb_x s k).mpr hks]⟩
  refine ⟨h3, ?_⟩
  intro i hi
  rw [Bool.eq_iff_iff, h4]
  constructor
  · rintro ⟨_, h5⟩
    by_cases him : i < m
    · rw [hg i him] at h5
      exact (symb_x s i).mp (Option.some.inj h5)
    · rw [List.getElem?_eq_none (by simp; omega)] at h5
      cases h5
  · intro h5
    have him := hx i hi ((symb_o s i).mpr h5)
    exact ⟨hi, by rw [hg i him, (symb_x s i).mpr h5]⟩

/-- **C105, what fails**: the text of the empty set (no restriction) is refused. -/
theorem C105_roundtrip_counterexample (n : Nat) (ss : Sets) (maxbuf : Nat) (buf : List Byte)
    (hn : 0 < n) (h8 : n % 8 = 0) (hb : buf.length = maxbuf) (hm : 1 < maxbuf) :
    ∃ b, getSet n (fun _ => false) maxbuf buf = some (b, true) ∧ (set n ss (cstr b)).2 = .fail := by
  have hs : ∀ i, symb (fun _ => false) i = 111 := fun i => rfl
  obtain ⟨b, r, h1, _, h3, h2, _⟩ := C105_get n (symb fun _ => false) maxbuf buf hn h8 (symb_ne _) hb (by omega)
  have hr : r = true := h3.mpr ⟨hm, fun i _ h => absurd (hs i) h⟩
  subst hr
  refine ⟨b, h1, ?_⟩
  obtain ⟨m, hm0, hmn, hc, _⟩ := h2 rfl
  rw [hc]
  have hall : ∀ c ∈ (List.range m).map (symb fun _ => false), c = 111 := by
    intro c hc
    obtain ⟨i, _, rfl⟩ := List.mem_map.mp hc
    rfl
  have hlen : ((List.range m).map (symb fun _ => false)).length = m := by simp
  generalize (List.range m).map (symb fun _ => false) = t at hall hlen
  cases t with
  | nil => simp at hlen; omega
  | cons c cs =>
    obtain ⟨h4, h5, _⟩ := letters_ok n (c :: cs) 0 zero false (fun d hd => .inr (hall d hd))
    have hcc := hall c (by simp)
    have h6 : (letters n (c :: cs) 0 zero false).2.1 = false := by
      cases h : (letters n (c :: cs) 0 zero false).2.1 with
      | false => rfl
      | true =>
        rcases h5.mp h with h | ⟨j, _, hj⟩
        · cases h
        · exact absurd (hall _ (List.mem_of_getElem? hj)) (by decide)
    unfold set
    dsimp only
    rw [if_neg (by rintro ⟨rfl, _⟩; exact absurd hcc (by decide)), if_pos (.inl hcc), if_neg (by rw [h4]; decide), if_pos h6]

theorem symbD_ne (s : Sets) (i : Nat) : symbD s i ≠ 0 := by
  unfold symbD
  split
  · decide
  · split <;> decide

theorem lettersD_disj (n : Nat) (cs : List Byte) : ∀ cpu s any,
    (∀ i, ¬ (s.dflt i = true ∧ s.spec i = true)) → (∀ i, cpu ≤ i → s.dflt i = false ∧ s.spec i = false) →
    ∀ i, ¬ ((lettersD n cs cpu s any).1.dflt i = true ∧ (lettersD n cs cpu s any).1.spec i = true) := by
  induction cs with
  | nil => intro cpu s any h _; exact h
  | cons c cs ih =>
    intro cpu s any h h0
    have key : ∀ (s' : Sets) any', (∀ i, i ≠ cpu → s'.dflt i = s.dflt i ∧ s'.spec i = s.spec i) →
        ¬ (s'.dflt cpu = true ∧ s'.spec cpu = true) →
        ∀ i, ¬ ((lettersD n cs (cpu + 1) s' any').1.dflt i = true ∧ (lettersD n cs (cpu + 1) s' any').1.spec i = true) := by
      intro s' any' h1 h2
      apply ih
      · intro i
        by_cases hi : i = cpu
        · subst hi; exact h2
        · rw [(h1 i hi).1, (h1 i hi).2]; exact h i
      · intro i hi
        rw [(h1 i (by omega)).1, (h1 i (by omega)).2]
        exact h0 i (by omega)
    have hc := h0 cpu (by omega)
    unfold lettersD
    split
    · exact h
    · split
      · apply key
        · intro i hi; simp [upd, hi]
        · simp [hc.2]
      · split
        · apply key
          · intro i hi; simp [upd, hi]
          · simp [hc.2]
        · split
          · apply key
            · intro i hi; simp [upd, hi]
            · simp [hc.1]
          · exact h

/-- **C105.**  Whatever the text and the answers of the operating system: no processor is both default and special. -/
theorem C105_disjoint (n : Nat) (proc : Option CpuSet) (sys : Bool) (t : List Byte) (i : Nat) (hi : i < n) :
    ¬ ((setDflt n proc sys t).1.dflt i = true ∧ (setDflt n proc sys t).1.spec i = true) := by
  cases t with
  | nil => simp [setDflt, zero]
  | cons c cs =>
    unfold setDflt
    dsimp only
    split
    · unfold dfltMinus
      split
      · simp [zero]
      · simp [zero]
      · split
        · simp [zero]
        · split
          · simp [zero]
          · split
            · simp [zero]
            · rename_i v _ _ _ d _
              dsimp only
              obtain ⟨_, _, h3⟩ := splitLoop_spec (numSet d n - v.toNat) d n
              rw [(h3 i hi).1, (h3 i hi).2]
              simp only [Bool.and_eq_true, decide_eq_true_eq]
              omega
    · split
      · exact lettersD_disj n _ 0 ⟨zero, zero⟩ false (by simp [zero]) (by simp [zero]) i
      · unfold dfltMask
        split
        · simp [zero]
        · simp [zero]
        · split <;> simp [zero]

/-- **C105.**  What `GetDfltAffinity` writes, `SetDfltAffinity` reads; the two sets have no common member, see
`C105_disjoint`. -/
theorem C105_dflt_roundtrip (n : Nat) (s : Sets) (proc : Option CpuSet) (maxbuf : Nat) (buf : List Byte) (b : List Byte)
    (hn : 0 < n) (h8 : n % 8 = 0) (hb : buf.length = maxbuf) (hm : 0 < maxbuf)
    (hd : ∀ i, i < n → ¬ (s.dflt i = true ∧ s.spec i = true))
    (h : getDflt n s maxbuf buf = some (b, true)) :
    (setDflt n proc true (cstr b)).2 = .ok ∧
      ∀ i, i < n → (setDflt n proc true (cstr b)).1.dflt i = s.dflt i ∧ (setDflt n proc true (cstr b)).1.spec i = s.spec i := by
  obtain ⟨b', r, h1, _, _, h2, _⟩ := C105_get n (symbD s) maxbuf buf hn h8 (symbD_ne s) hb hm
  unfold getDflt at h
  rw [h] at h1
  cases h1
  obtain ⟨m, hm0, hmn, hc, hx⟩ := h2 rfl
  rw [hc]
  have hg : ∀ i, i < m → ((List.range m).map (symbD s))[i]? = some (symbD s i) := by
    intro i hi
    simp [List.getElem?_map, List.getElem?_range hi]
  have hall : ∀ c ∈ (List.range m).map (symbD s), c = 120 ∨ c = 111 ∨ c = 115 := by
    intro c hc
    obtain ⟨i, _, rfl⟩ := List.mem_map.mp hc
    unfold symbD
    split
    · exact .inl rfl
    · split
      · exact .inr (.inr rfl)
      · exact .inr (.inl rfl)
  have hlen : ((List.range m).map (symbD s)).length = m := by simp
  generalize (List.range m).map (symbD s) = t at hg hall hlen
  cases t with
  | nil => simp at hlen; omega
  | cons c cs =>
    obtain ⟨h3, h4⟩ := lettersD_ok n (c :: cs) 0 ⟨zero, zero⟩ false hall (fun i _ => ⟨rfl, rfl⟩)
    have hcc := hall c (by simp)
    have e : setDflt n proc true (c :: cs) = ((lettersD n (c :: cs) 0 ⟨zero, zero⟩ false).1, .ok) := by
      unfold setDflt
      dsimp only
      rw [if_neg (by rintro ⟨rfl, _⟩; rcases hcc with h | h | h <;> exact absurd h (by decide)),
        if_pos (by rcases hcc with h | h | h <;> simp [h]), h3]
      simp
    rw [e]
    refine ⟨rfl, ?_⟩
    intro i hi
    dsimp only
    rw [(h4 i).1, (h4 i).2]
    by_cases him : i < m
    · rw [if_pos (by omega), if_pos (by omega), Nat.sub_zero, hg i him]
      have := hd i hi
      unfold symbD
      cases h6 : s.dflt i <;> cases h7 : s.spec i <;> simp [h6, h7] at this ⊢ <;> decide
    · rw [if_neg (by omega), if_neg (by omega)]
      have hs : symbD s i = 111 := by
        cases Classical.em (symbD s i = 111) with
        | inl h => exact h
        | inr h => exact absurd (hx i hi h) him
      unfold symbD at hs
      cases h6 : s.dflt i <;> cases h7 : s.spec i <;> simp [h6, h7, zero] at hs ⊢
      all_goals exact absurd hs (by decide)

example : (getDflt 8 ⟨fun i => decide (i = 2), fun i => decide (i = 3)⟩ 20 (List.replicate 20 1)).map
    (fun r => (cstr r.1, r.2)) = some ([111, 111, 120, 115, 111, 111, 111, 111], true) := by decide

/-- **C105.**  Without text a thread gets the default processors, which are those of the last accepted text. -/
theorem C105_default (n : Nat) (s : Sets) :
    (set n s []).2 = .ok ∧ ∀ i, (set n s []).1 i = true ↔ i < n ∧ s.dflt i = true := by
  simp [set]

/-- **C105, what fails**: after a wrong text `SetAffinity` returns false but part of the text is already used. -/
theorem C105_failed_counterexample :
    (set 1024 ⟨fun _ => true, zero⟩ [120, 113]).2 = .fail ∧ (set 1024 ⟨fun _ => true, zero⟩ [120, 113]).1 0 = true ∧
      (set 1024 ⟨fun _ => true, zero⟩ [120, 113]).1 1 = false := by decide

end Verif.Affinity
