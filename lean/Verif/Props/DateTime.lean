import Verif.DateTimeLemmas

/-!
# C43: dates and times
-/

namespace Verif.DateTime
open Verif.Bytes Verif.Text

/-- Conversion to milliseconds and back keeps the instant up to a millisecond. -/
theorem C43_round (t : Time) (h : Normal t) :
    Normal (setJSDate (asJSDate t)) ∧ instant (setJSDate (asJSDate t)) ≤ instant t ∧
      instant t < instant (setJSDate (asJSDate t)) + 1000000 := by
  obtain ⟨h1, h2⟩ := h
  have e : asJSDate t = t.sec * 1000 + t.nsec / 1000000 := Nat.mod_eq_of_lt (by omega)
  have e1 : (t.sec * 1000 + t.nsec / 1000000) / 1000 % 2 ^ 32 = t.sec := by omega
  have e2 : (t.sec * 1000 + t.nsec / 1000000) % 1000 * 1000000 % 2 ^ 32 = t.nsec / 1000000 * 1000000 := by omega
  rw [e, setJSDate, e1, e2]
  simp only [Normal, instant]
  omega

example : Normal ⟨1700000000, 123456789⟩ := by unfold Normal; decide

/-- Milliseconds survive.  Missing in comparison with the full statement: the milliseconds after 2106
(`C43_2106_counterexample`). -/
theorem C43_back_partial (js : Nat) (h : js < 2 ^ 32 * 1000) : asJSDate (setJSDate js) = js := by
  unfold asJSDate setJSDate
  dsimp only
  have e1 : js / 1000 % 2 ^ 32 = js / 1000 := Nat.mod_eq_of_lt (by omega)
  have e2 : js % 1000 * 1000000 % 2 ^ 32 = js % 1000 * 1000000 := Nat.mod_eq_of_lt (by omega)
  rw [e1, e2, Nat.mod_eq_of_lt (by omega)]
  omega

example : (1700000000123 : Nat) < 2 ^ 32 * 1000 := by decide

/-- Later dates come back as earlier ones. -/
theorem C43_2106_counterexample : asJSDate (setJSDate (2 ^ 32 * 1000)) = 0 := by decide

/-- The order of instants is kept, and instants a millisecond apart stay different. -/
theorem C43_order (a b : Time) (ha : Normal a) (hb : Normal b) :
    (instant a ≤ instant b → asJSDate a ≤ asJSDate b) ∧
      (instant a + 1000000 ≤ instant b → asJSDate a < asJSDate b) := by
  obtain ⟨a1, a2⟩ := ha
  obtain ⟨b1, b2⟩ := hb
  have ea : asJSDate a = a.sec * 1000 + a.nsec / 1000000 := Nat.mod_eq_of_lt (by omega)
  have eb : asJSDate b = b.sec * 1000 + b.nsec / 1000000 := Nat.mod_eq_of_lt (by omega)
  rw [ea, eb]
  unfold instant
  omega

/-- No operation produces a time with a second or more in the nanoseconds. -/
theorem C43_normal (ops : List Op) (h : ∀ op ∈ ops, op.Clock) : Normal (ops.foldl Op.step ⟨0, 0⟩) := by
  have key : ∀ (ops : List Op) (t : Time), Normal t → (∀ op ∈ ops, op.Clock) → Normal (ops.foldl Op.step t) := by
    intro ops
    induction ops with
    | nil => intro t ht _; exact ht
    | cons op ops ih =>
      intro t ht h
      refine ih _ ?_ fun o ho => h o (by simp [ho])
      have hc := h op (by simp)
      obtain ⟨t1, t2⟩ := ht
      have hjs : ∀ v, Normal (setJSDate v) := by
        intro v
        refine ⟨Nat.mod_lt _ (by decide), ?_⟩
        have := Nat.mod_le (v % 1000 * 1000000) (2 ^ 32)
        show v % 1000 * 1000000 % 2 ^ 32 < 10 ^ 9
        omega
      have hun : ∀ v, toUnsigned v < 2 ^ 32 := by
        intro v
        unfold toUnsigned
        omega
      cases op with
      | now s n =>
        have hn : n < 10 ^ 9 := hc
        have := Nat.mod_le n (2 ^ 32)
        exact ⟨Nat.mod_lt _ (by decide), by show n % 2 ^ 32 < _; omega⟩
      | js v => exact hjs v
      | double n d => exact hjs _
      | date s =>
        simp only [Op.step, setOnlyDate]
        split
        · exact ⟨t1, t2⟩
        · split
          · exact ⟨t1, t2⟩
          · split
            · exact ⟨t1, t2⟩
            · exact ⟨hun _, t2⟩
      | time s =>
        simp only [Op.step, setOnlyTime]
        split
        · exact ⟨t1, t2⟩
        · split
          · exact ⟨t1, t2⟩
          · split
            · exact ⟨t1, t2⟩
            · exact ⟨hun _, t2⟩
  exact key ops _ ⟨by decide, by decide⟩ h

example : ∀ op ∈ ([.now 5 7, .date [50]] : List Op), op.Clock := by
  simp [Op.Clock]

/-- Setting seconds by a floating-point number loses the fraction. -/
theorem C43_double_counterexample : setDouble 3 2 = ⟨1, 0⟩ := by decide

/-- Reading date and time of day as text. -/
theorem C43_read (t : Time) (h : null t = false) :
    onlyDate [45] t = dateStr (dateAt t) ∧ onlyTime [58] t = timeStr (daytime t) := by
  refine ⟨?_, ?_⟩
  · simp [onlyDate, h, dateText, dateStr, gmtime, dateAt]
  · have e1 : t.sec % 3600 / 60 = t.sec % 86400 / 60 % 60 := by omega
    have e2 : t.sec % 60 = t.sec % 86400 % 60 := by omega
    simp only [onlyTime, h, timeText, timeStr, gmtime, daytime, e1, e2]
    simp

example : null ⟨5, 0⟩ = false := by decide

/-- Setting the date by its text: from then on the date is this, the time of day is as before. -/
theorem C43_set_date (t : Time) (d : Date) (he : Exists d) (h1 : 1970 ≤ d.year) (h2 : d.year ≤ 2100) :
    ∃ t', setOnlyDate t (dateStr d) = (true, t') ∧ dateAt t' = d ∧ daytime t' = daytime t ∧ t'.nsec = t.nsec := by
  obtain ⟨m1, m2, d1, d2⟩ := he
  have hml := monthLen_pos d.year d.month
  obtain ⟨n, hn, hd⟩ := dateOf_daysTo d h1 ⟨m1, m2, d1, d2⟩
  have hle := daysTo_le d h1 h2 m2 (by omega)
  unfold setOnlyDate
  have hlen : (dateStr d).length = 10 := by simp [dateStr, pad_length]
  rw [if_neg (by simp [hlen])]
  have hs := scan3_pad 4 2 2 d.year d.month d.day 45 (by omega) (by omega) (by omega) (by omega) (by omega) (by omega)
  rw [show dateStr d = pad 4 d.year ++ [45] ++ pad 2 d.month ++ [45] ++ pad 2 d.day from rfl, hs]
  dsimp only
  rw [if_neg (by simp; omega)]
  have hsec : timegm { gmtime t.sec with date := ⟨d.year, d.month, d.day⟩ } =
      ((n * 86400 + t.sec % 86400 : Nat) : Int) := by
    show daysTo d * 86400 + ((t.sec % 86400 / 3600 : Nat) : Int) * 3600 + ((t.sec % 3600 / 60 : Nat) : Int) * 60 +
      ((t.sec % 60 : Nat) : Int) = _
    rw [hn]
    omega
  rw [hsec, toUnsigned_nat _ (by omega)]
  refine ⟨_, rfl, ?_, ?_, rfl⟩
  · unfold dateAt
    rw [show (n * 86400 + t.sec % 86400) / 86400 = n by omega, hd]
  · unfold daytime
    show (n * 86400 + t.sec % 86400) % 86400 = t.sec % 86400
    omega

example : Exists ⟨2024, 2, 29⟩ ∧ ¬ Exists ⟨2023, 2, 29⟩ := by
  unfold Exists; decide

/-- Setting the time of day by its text: from then on the time of day is this, the date is as before.
Missing in comparison with the full statement: a time which was not set before (`C43_order_counterexample`). -/
theorem C43_set_time_partial (t : Time) (s : Nat) (hs : s < 86400) (h : null t = false) (hn : t.sec < 2 ^ 32 - 86400) :
    ∃ t', setOnlyTime t (timeStr s) = (true, t') ∧ dateAt t' = dateAt t ∧ daytime t' = s ∧ t'.nsec = t.nsec := by
  unfold setOnlyTime
  have hlen : (timeStr s).length = 8 := by simp [timeStr, pad_length]
  rw [if_neg (by simp [hlen])]
  have hsc := scan3_pad 2 2 2 (s / 3600) (s / 60 % 60) (s % 60) 58 (by omega) (by omega) (by omega) (by omega) (by omega)
    (by omega)
  rw [show timeStr s = pad 2 (s / 3600) ++ [58] ++ pad 2 (s / 60 % 60) ++ [58] ++ pad 2 (s % 60) from rfl, hsc]
  dsimp only
  rw [if_neg (by simp; omega), if_neg (by simp [h])]
  have hsec : timegm { date := (gmtime t.sec).date, hour := s / 3600, min := s / 60 % 60, sec := s % 60 } =
      ((t.sec / 86400 * 86400 + s : Nat) : Int) := by
    show daysTo (dateOf (t.sec / 86400)) * 86400 + ((s / 3600 : Nat) : Int) * 3600 + ((s / 60 % 60 : Nat) : Int) * 60 +
      ((s % 60 : Nat) : Int) = _
    rw [daysTo_dateOf]
    omega
  rw [hsec, toUnsigned_nat _ (by omega)]
  refine ⟨_, rfl, ?_, ?_, rfl⟩
  · unfold dateAt
    rw [show (t.sec / 86400 * 86400 + s) / 86400 = t.sec / 86400 by omega]
  · unfold daytime
    show (t.sec / 86400 * 86400 + s) % 86400 = s
    omega

example : null ⟨86400, 0⟩ = false ∧ (86400 : Nat) < 2 ^ 32 - 86400 := by decide

/-- Text as bytes. -/
def txt (s : String) : List Byte := s.toList.map fun c => BitVec.ofNat 8 c.toNat

/-- When the time of day is set first, the time of day is wrong after the date is set. -/
theorem C43_order_counterexample :
    let t1 := (setOnlyTime ⟨0, 0⟩ (txt "12:00:00")).2
    let r := setOnlyDate t1 (txt "2020-01-01")
    (setOnlyTime ⟨0, 0⟩ (txt "12:00:00")).1 = true ∧ r.1 = true ∧ daytime r.2 ≠ 12 * 3600 := by
  decide +kernel

/-- Dates which do not exist are accepted and mean another day. -/
theorem C43_exists_counterexample : ¬ Exists ⟨1970, 2, 31⟩ ∧
    setOnlyDate ⟨0, 0⟩ (txt "1970-02-31") = (true, ⟨61 * 86400, 0⟩) ∧ dateAt ⟨61 * 86400, 0⟩ = ⟨1970, 3, 3⟩ := by
  unfold Exists
  decide +kernel

/-- The time found for a stored file is the second for which its name was made, and the name made for this time is the
same again.  Missing in comparison with the full statement: the first day (`C43_file_counterexample`) and years after
2100, whose directories are not taken for dates. -/
theorem C43_file_partial (t : Time) (h0 : 86400 ≤ t.sec) (h : (dateAt t).year ≤ 2100) :
    scanFile (fileName t).1 (fileName t).2 = some (t.sec * 1000) ∧
      (t.sec < 2 ^ 32 → fileName (setJSDate (t.sec * 1000)) = fileName t) := by
  have hnull : null t = false := by simp [null]; omega
  obtain ⟨e1, e2⟩ := C43_read t hnull
  have hex := dateOf_exists (t.sec / 86400)
  have hle := daysTo_le (dateAt t) hex.2 h hex.1.2.1 (by
    have := monthLen_pos (dateAt t).year (dateAt t).month
    have h3 : (dateAt t).day ≤ monthLen (dateAt t).year (dateAt t).month := hex.1.2.2.2
    omega)
  have hday : daysTo (dateAt t) = (t.sec / 86400 : Nat) := daysTo_dateOf _
  rw [hday] at hle
  obtain ⟨t1, s1, s2, s3, s4⟩ := C43_set_date ⟨0, 0⟩ (dateAt t) hex.1 hex.2 h
  have hd1 : t1.sec / 86400 = t.sec / 86400 := by
    have := congrArg daysTo s2
    rw [hday] at this
    have e : daysTo (dateAt t1) = (t1.sec / 86400 : Nat) := daysTo_dateOf _
    rw [e] at this
    omega
  have hn1 : null t1 = false := by
    have : t1.sec ≠ 0 := by omega
    simp [null, this]
  obtain ⟨t2, r1, r2, r3, r4⟩ := C43_set_time_partial t1 (daytime t) (Nat.mod_lt _ (by decide)) hn1 (by omega)
  have hd2 : t2.sec / 86400 = t1.sec / 86400 := by
    have e := congrArg daysTo r2
    have ea : daysTo (dateAt t2) = (t2.sec / 86400 : Nat) := daysTo_dateOf _
    have eb : daysTo (dateAt t1) = (t1.sec / 86400 : Nat) := daysTo_dateOf _
    rw [ea, eb] at e
    omega
  have hsec : t2.sec = t.sec := by
    unfold daytime at r3
    omega
  have hns : t2.nsec = 0 := by rw [r4, s4]
  refine ⟨?_, ?_⟩
  · unfold scanFile fileName
    dsimp only
    rw [e1, e2, s1]
    dsimp only
    rw [r1]
    dsimp only
    rw [asJSDate, hsec, hns, Nat.mod_eq_of_lt (by omega)]
    simp
  · intro hlt
    have : setJSDate (t.sec * 1000) = ⟨t.sec, 0⟩ := by
      unfold setJSDate
      rw [Nat.mul_div_cancel _ (by decide), Nat.mod_eq_of_lt hlt, Nat.mul_mod_left]
    have hnull' : null ⟨t.sec, 0⟩ = false := by simp [null]; omega
    rw [this]
    unfold fileName
    rw [e1, e2, (C43_read _ hnull').1, (C43_read _ hnull').2]
    rfl

example : 86400 ≤ (⟨86400 + 3600, 5⟩ : Time).sec ∧ (dateAt ⟨86400 + 3600, 5⟩).year ≤ 2100 := by decide +kernel

/-- On the first day the time found is another one. -/
theorem C43_file_counterexample :
    scanFile (fileName ⟨3600, 0⟩).1 (fileName ⟨3600, 0⟩).2 ≠ some 3600000 := by
  decide +kernel

/-- The second and the fraction which are shown differ from the instant by less than 5/9 of the last digit. -/
theorem shown_bound (nd : Nat) (t : Time) (h : Normal t) (h1 : 1 ≤ nd) (h9 : nd ≤ 9) :
    ∃ s f, rounded nd t = (s, f) ∧ f < 10 ^ nd ∧ s ≤ t.sec + 1 ∧
      9 * (s * 10 ^ 9 + f * 10 ^ (9 - nd)) ≤ 9 * instant t + 5 * 10 ^ (9 - nd) ∧
      9 * instant t ≤ 9 * (s * 10 ^ 9 + f * 10 ^ (9 - nd)) + 5 * 10 ^ (9 - nd) := by
  obtain ⟨t1, t2⟩ := h
  have hp : 0 < 10 ^ nd := Nat.pow_pos (by decide)
  unfold rounded
  by_cases hz : t.nsec > 0
  · rw [if_pos ⟨by omega, hz⟩]
    have hnd : (if (nd : Int) > 9 then 9 else (nd : Int).toNat) = nd := by
      split <;> omega
    rw [hnd]
    dsimp only
    have hb := roundLoop_bound (9 - nd) t.nsec
    have hpow : 10 ^ nd * 10 ^ (9 - nd) = 10 ^ 9 := by rw [← Nat.pow_add]; congr 1; omega
    generalize hr : roundLoop (9 - nd) t.nsec = r at *
    split
    · rename_i hge
      refine ⟨t.sec + 1, 0, rfl, hp, Nat.le_refl _, ?_, ?_⟩
      · have : r * 10 ^ (9 - nd) ≥ 10 ^ nd * 10 ^ (9 - nd) := Nat.mul_le_mul_right _ hge
        rw [hpow] at this
        unfold instant
        generalize r * 10 ^ (9 - nd) = X at *
        generalize 10 ^ (9 - nd) = P at *
        omega
      · unfold instant
        generalize 10 ^ (9 - nd) = P at *
        omega
    · rename_i hlt
      refine ⟨t.sec, r, rfl, by omega, by omega, ?_, ?_⟩
      · unfold instant
        generalize r * 10 ^ (9 - nd) = X at *
        generalize 10 ^ (9 - nd) = P at *
        omega
      · unfold instant
        generalize r * 10 ^ (9 - nd) = X at *
        generalize 10 ^ (9 - nd) = P at *
        omega
  · rw [if_neg (by omega)]
    refine ⟨t.sec, 0, rfl, hp, by omega, ?_, ?_⟩ <;> unfold instant <;> omega

/-- Text of an instant: date, time of day and, if it is not zero, the fraction with `nd` digits. -/
def text (sep : Byte) (nd s f : Nat) : List Byte :=
  dateStr (dateOf (s / 86400)) ++ [sep] ++ timeStr (s % 86400) ++ (if f = 0 then [] else [46] ++ pad nd f)

theorem text_length (sep : Byte) (s : Nat) : (text sep 0 s 0).length = 19 := by
  simp [text, dateStr, timeStr, pad_length]

theorem gm_text (sep : Byte) (s : Nat) :
    dateText [45] (gmtime s).date ++ [sep] ++ timeText [58] (gmtime s) = text sep 0 s 0 := by
  have e1 : s % 3600 / 60 = s % 86400 / 60 % 60 := by omega
  have e2 : s % 60 = s % 86400 % 60 := by omega
  simp only [text, dateText, timeText, dateStr, timeStr, gmtime]
  rw [← e1, ← e2, if_pos True.intro, List.append_nil]

theorem asString_text (nd : Nat) (t : Time) (s f : Nat) (hz : null t = false) (hr : rounded nd t = (s, f)) (h9 : nd ≤ 9) :
    asString nd t = text 32 nd s f ∧ asJSString nd t = text 84 nd s f ++ [90] := by
  have hdec : decimals nd t = nd := by
    unfold decimals
    split <;> omega
  have hlen := text_length 32 s
  have hlen' := text_length 84 s
  have ht : ∀ sep, text sep nd s f = text sep 0 s 0 ++ if f = 0 then [] else [46] ++ pad nd f := by
    intro sep
    simp [text]
  refine ⟨?_, ?_⟩
  · unfold asString
    rw [hz, hr, hdec, if_neg Bool.false_ne_true]
    dsimp only
    rw [gm_text, hlen, ht]
    generalize text 32 0 s 0 = x
    by_cases h0 : f = 0
    · rw [if_neg (by omega), if_pos h0, List.append_nil]
    · rw [if_pos (by omega), if_neg h0]
      simp
  · unfold asJSString
    rw [hz, hr, hdec, if_neg Bool.false_ne_true]
    dsimp only
    rw [gm_text, hlen', ht]
    generalize text 84 0 s 0 = x at *
    have hcond : (f > 0 ∧ (50 - ((19 : Nat) : Int) - ((19 : Nat) : Int) > (nd : Int) + 1)) ↔ f > 0 := by omega
    by_cases h0 : f = 0
    · have hn : ¬ (f > 0 ∧ (50 - ((19 : Nat) : Int) - ((19 : Nat) : Int) > (nd : Int) + 1)) := by omega
      rw [if_neg hn, if_neg (by omega), if_pos h0, List.append_nil]
    · have hp : (f > 0 ∧ (50 - ((19 : Nat) : Int) - ((19 : Nat) : Int) > (nd : Int) + 1)) := by omega
      rw [if_pos hp, if_neg, if_neg h0]
      · simp
      · simp only [List.length_append, pad_length, hlen', List.length_cons, List.length_nil]
        omega

/-- Texts with `nd` decimals show an instant which differs from the given one by at most 5/9 of the last digit.
Missing in comparison with the full statement (rounding to the nearest): `C43_nearest_counterexample`. -/
theorem C43_text_partial (nd : Nat) (t : Time) (h : Normal t) (hz : null t = false) (h1 : 1 ≤ nd) (h9 : nd ≤ 9) :
    ∃ s f, f < 10 ^ nd ∧ asString nd t = text 32 nd s f ∧ asJSString nd t = text 84 nd s f ++ [90] ∧
      9 * (s * 10 ^ 9 + f * 10 ^ (9 - nd)) ≤ 9 * instant t + 5 * 10 ^ (9 - nd) ∧
      9 * instant t ≤ 9 * (s * 10 ^ 9 + f * 10 ^ (9 - nd)) + 5 * 10 ^ (9 - nd) := by
  obtain ⟨s, f, hr, hf, _, hb⟩ := shown_bound nd t h h1 h9
  have ht := asString_text nd t s f hz hr h9
  exact ⟨s, f, hf, ht.1, ht.2, hb⟩

example : Normal ⟨1700000000, 449999999⟩ ∧ null ⟨1700000000, 449999999⟩ = false := by
  unfold Normal; decide

/-- Digits are rounded one after the other: 0.449999999 is shown as 0.5. -/
theorem C43_nearest_counterexample : rounded 1 ⟨0, 449999999⟩ = (0, 5) := by decide +kernel

/-- Milliseconds are shown exactly. -/
theorem C43_js_text (js : Nat) (h : js < 2 ^ 32 * 1000) (h0 : 0 < js) :
    asJSString 3 (setJSDate js) = text 84 3 (js / 1000) (js % 1000) ++ [90] := by
  have e : setJSDate js = ⟨js / 1000, js % 1000 * 10 ^ 6⟩ := by
    unfold setJSDate
    rw [Nat.mod_eq_of_lt (show js / 1000 < 2 ^ 32 by omega), Nat.mod_eq_of_lt (by omega)]
  have hn : Normal (setJSDate js) := by
    rw [e]
    exact ⟨by dsimp only; omega, by dsimp only; omega⟩
  have hz : null (setJSDate js) = false := by
    rw [e]
    simp [null]
    omega
  have hr : rounded (3 : Nat) (setJSDate js) = (js / 1000, js % 1000) := by
    rw [e]
    have hx := roundLoop_exact 6 (js % 1000)
    have hm := Nat.mod_lt js (show 0 < 1000 by decide)
    generalize js % 1000 = m at *
    generalize js / 1000 = q
    unfold rounded
    dsimp only
    by_cases hm0 : m = 0
    · rw [if_neg (by omega), hm0]
    · rw [if_pos (by omega), if_neg (show ¬ ((3 : Nat) : Int) > 9 by omega)]
      rw [show 9 - ((3 : Nat) : Int).toNat = 6 from rfl, hx, show ((3 : Nat) : Int).toNat = 3 from rfl, if_neg (by omega)]
  exact (asString_text 3 _ _ _ hz hr (by omega)).2

example : (1700000000123 : Nat) < 2 ^ 32 * 1000 ∧ 0 < 1700000000123 := by decide

end Verif.DateTime
