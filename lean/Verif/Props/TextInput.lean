import Verif.TextInputInv

/-!
# C100: a text input makes one event of every line
-/

namespace Verif.TextInput
open Verif.TextInput.Spec

/-! ## Numbers -/

theorem digit_char : ∀ d : Fin 10, (Char.ofNat (48 + d.val)).isDigit = true ∧ (Char.ofNat (48 + d.val)).toNat - 48 = d.val ∧
    isSpace (Char.ofNat (48 + d.val)) = false ∧ Char.ofNat (48 + d.val) ≠ '-' ∧ Char.ofNat (48 + d.val) ≠ '+' := by decide

theorem dec_digits (n : Nat) : ∀ c ∈ dec n, ∃ d : Fin 10, c = Char.ofNat (48 + d.val) := by
  induction n using Nat.strongRecOn with
  | ind n ih =>
    intro c hc
    rw [dec] at hc
    split at hc
    · next h => exact ⟨⟨n, h⟩, List.mem_singleton.1 hc⟩
    · next h =>
      rcases List.mem_append.1 hc with hc | hc
      · exact ih (n / 10) (by omega) c hc
      · exact ⟨⟨n % 10, by omega⟩, List.mem_singleton.1 hc⟩

theorem dec_ne (n : Nat) : dec n ≠ [] := by
  rw [dec]
  split <;> simp

theorem value_dec (n : Nat) : value (dec n) = n := by
  induction n using Nat.strongRecOn with
  | ind n ih =>
    rw [dec]
    split
    · next h =>
      have := (digit_char ⟨n, h⟩).2.1
      simp only [value, List.foldl_cons, List.foldl_nil]
      dsimp only at this
      omega
    · next h =>
      have h1 := (digit_char ⟨n % 10, by omega⟩).2.1
      have h2 := ih (n / 10) (by omega)
      unfold value at h2 ⊢
      rw [List.foldl_append, h2]
      simp only [List.foldl_cons, List.foldl_nil]
      dsimp only at h1
      omega

/-- 32 bits of an integer. -/
def bits (v : Int) : Nat := (v % (W : Int)).toNat

def inRange (signed : Bool) (v : Int) : Prop := if signed then -(W / 2 : Nat) ≤ v ∧ v < (W / 2 : Nat) else 0 ≤ v ∧ v < (W : Nat)

theorem dropWhile_all {p : Char → Bool} {a b : List Char} (h : ∀ c ∈ a, p c = true) : (a ++ b).dropWhile p = b.dropWhile p := by
  induction a with
  | nil => rfl
  | cons x a ih =>
    rw [List.cons_append, List.dropWhile_cons, if_pos (h x (by simp))]
    exact ih fun c hc => h c (by simp [hc])

theorem takeWhile_all {p : Char → Bool} {a b : List Char} (h : ∀ c ∈ a, p c = true) (hb : ∀ c, b.head? = some c → p c = false) : (a ++ b).takeWhile p = a ∧ (a ++ b).dropWhile p = b := by
  induction a with
  | nil =>
    cases b with
    | nil => exact ⟨rfl, rfl⟩
    | cons y b =>
      have := hb y rfl
      simp [this]
  | cons x a ih =>
    obtain ⟨i1, i2⟩ := ih fun c hc => h c (by simp [hc])
    rw [List.cons_append, List.dropWhile_cons, if_pos (h x (by simp)), List.takeWhile_cons, if_pos (h x (by simp)), i1, i2]
    exact ⟨rfl, rfl⟩

theorem getNum_text {signed : Bool} {sp rest : List Char} {v : Int} (hsp : ∀ c ∈ sp, isSpace c = true) (hv : inRange signed v)
    (hr : ∀ c, rest.head? = some c → c.isDigit = false) : getNum signed (sp ++ text v ++ rest) = some (bits v, rest) := by
  have hdig : ∀ c ∈ dec v.natAbs, c.isDigit = true := by
    intro c hc
    obtain ⟨d, rfl⟩ := dec_digits _ c hc
    exact (digit_char d).1
  obtain ⟨t1, t2⟩ := takeWhile_all hdig hr
  have hne : (dec v.natAbs).isEmpty = false := by
    cases h : dec v.natAbs with
    | nil => exact absurd h (dec_ne _)
    | cons _ _ => rfl
  have hW : W = 4294967296 := rfl
  rw [List.append_assoc]
  unfold getNum
  rw [dropWhile_all hsp]
  by_cases hneg : v < 0
  · have e : text v ++ rest = '-' :: (dec v.natAbs ++ rest) := by
      unfold text
      rw [if_pos hneg]
      rfl
    have hd : List.dropWhile isSpace ('-' :: (dec v.natAbs ++ rest)) = '-' :: (dec v.natAbs ++ rest) := by
      rw [List.dropWhile_cons, if_neg (by decide)]
    rw [e, hd]
    simp only [List.head?_cons, List.drop_one, List.tail_cons, BEq.rfl, Bool.true_or, if_true, t1, t2, hne, value_dec]
    have hs : signed = true := by
      cases signed with
      | true => rfl
      | false =>
        simp only [inRange, Bool.false_eq_true, if_false] at hv
        omega
    subst hs
    simp only [inRange, if_true] at hv
    have : toWord true true v.natAbs = some (bits v) := by
      unfold toWord bits
      simp only [if_true]
      rw [if_pos (by omega)]
      congr 1
      rw [hW]
      omega
    rw [this]
    rfl
  · have e : text v ++ rest = dec v.natAbs ++ rest := by
      unfold text
      rw [if_neg hneg]
    rw [e]
    match hdec : dec v.natAbs with
    | [] => exact absurd hdec (dec_ne _)
    | x :: xs =>
      obtain ⟨d, hd⟩ := dec_digits v.natAbs x (by rw [hdec]; simp)
      obtain ⟨d1, d2, d3, d4, d5⟩ := digit_char d
      rw [← hd] at d1 d2 d3 d4 d5
      have hdw : List.dropWhile isSpace (x :: xs ++ rest) = x :: xs ++ rest := by
        rw [List.cons_append, List.dropWhile_cons, if_neg (by rw [d3]; simp)]
      rw [hdw]
      have n1 : (some x == some '-') = false := by simp [d4]
      have n2 : (some x == some '+') = false := by simp [d5]
      rw [hdec] at t1 t2 hne
      have hval := value_dec v.natAbs
      rw [hdec] at hval
      simp only [List.cons_append, List.head?_cons, n1, n2, Bool.or_self, Bool.false_eq_true, if_false]
      rw [List.cons_append] at t1 t2
      simp only [t1, t2, hne, hval, Bool.false_eq_true, if_false]
      have : toWord signed false v.natAbs = some (bits v) := by
        unfold toWord bits
        cases signed with
        | true =>
          simp only [inRange, if_true] at hv
          simp only [if_true, Bool.false_eq_true, if_false]
          rw [if_pos (by omega)]
          congr 1
          rw [hW]
          omega
        | false =>
          simp only [inRange, Bool.false_eq_true, if_false] at hv
          simp only [Bool.false_eq_true, if_false]
          rw [if_pos (by omega)]
          congr 1
          rw [hW]
          omega
      rw [this]
      rfl

theorem isSpace_white {c : Char} (h : White c) : isSpace c = true := by
  rcases h with rfl | rfl | rfl | rfl | rfl | rfl <;> decide

/-- **C100, numbers.** A line with numbers in the range of the format and any white space between them gives these numbers, as 32 bits; text
behind them does not matter. -/
theorem C100_numbers (signed : Bool) (rest : List Char) (hr : ∀ c, rest.head? = some c → c.isDigit = false) :
    ∀ (vs : List (List Char × Int)), (∀ p ∈ vs, (∀ c ∈ p.1, White c) ∧ inRange signed p.2) → (∀ p ∈ vs.tail, p.1 ≠ []) →
      fill signed vs.length (line vs ++ rest) = some (vs.map fun p => bits p.2)
  | [], _, _ => rfl
  | p :: vs, h, ht => by
    obtain ⟨h1', h2⟩ := h p (by simp)
    have h1 : ∀ c ∈ p.1, isSpace c = true := fun c hc => isSpace_white (h1' c hc)
    have hrest : ∀ c, (line vs ++ rest).head? = some c → c.isDigit = false := by
      cases vs with
      | nil => exact hr
      | cons q vs =>
        intro c hc
        obtain ⟨g1, -⟩ := h q (by simp)
        have hq := ht q (by simp)
        match hq1 : q.1 with
        | [] => exact absurd hq1 hq
        | x :: xs =>
          simp only [line, List.flatMap_cons, hq1, List.cons_append, List.head?_cons, Option.some.injEq] at hc
          subst hc
          rcases g1 x (by rw [hq1]; simp) with rfl | rfl | rfl | rfl | rfl | rfl <;> decide
    have e : line (p :: vs) ++ rest = p.1 ++ text p.2 ++ (line vs ++ rest) := by
      simp [line]
    have ih := C100_numbers signed rest hr vs (fun q hq => h q (by simp [hq])) (fun q hq => ht q (List.mem_of_mem_tail hq))
    rw [List.length_cons, fill, e, getNum_text h1 h2 hrest]
    simp only [ih]
    rfl

example : ∃ vs : List (List Char × Int), (∀ p ∈ vs, (∀ c ∈ p.1, White c) ∧ inRange true p.2) ∧ (∀ p ∈ vs.tail, p.1 ≠ []) ∧ line vs = "12 -7".toList :=
  ⟨[([], 12), ([' '], -7)], by simp [inRange, White, W], by simp, by
    have h1 : dec 12 = ['1', '2'] := by rw [dec, dif_neg (by decide), dec, dif_pos (by decide)]; rfl
    have h2 : dec 7 = ['7'] := by rw [dec, dif_pos (by decide)]
    show [] ++ (dec 12) ++ ([' '] ++ ('-' :: dec 7) ++ []) = _
    rw [h1, h2]
    rfl⟩

/-! ## Events -/

/-- **C100, order (partial).** At every time the delivered events with data are the first ones of the lines, in order, with their numbers.
For good files; see the counterexamples for the others. -/
theorem C100_order_partial (c : Cfg) (hn : 0 < c.num) (hs : c.evsize ≤ c.size) (t : List Char) (ts : List (List Char)) (hg : ∀ x ∈ t :: ts, Good c x) (n : Nat) :
    withData (run c ((t :: ts).map some) n).delivered <+: expected c (t :: ts) := by
  obtain ⟨ts', rl, h⟩ := run_inv hn hs hg n
  rw [h.acc, List.append_assoc]
  exact List.prefix_append ..

/-- **C100, end (partial).** Every run comes to an end (without error); when it is a regular end, at most one buffer of events is missing. -/
theorem C100_ends_partial (c : Cfg) (hn : 0 < c.num) (hs : c.evsize ≤ c.size) (t : List Char) (ts : List (List Char)) (hg : ∀ x ∈ t :: ts, Good c x) :
    (∃ n, (run c ((t :: ts).map some) n).pc = .ended ∨ (run c ((t :: ts).map some) n).pc = .crash) ∧
      ∀ n, (run c ((t :: ts).map some) n).pc = .ended → ∃ es, expected c (t :: ts) = withData (run c ((t :: ts).map some) n).delivered ++ es ∧ es.length ≤ c.size / c.evsize := by
  refine ⟨steps_end hn hs _ (init_inv hg).1 (Nat.le_refl _), fun n he => ?_⟩
  obtain ⟨ts', rl, h⟩ := run_inv hn hs hg n
  obtain ⟨e1, e2⟩ := h.ended he
  subst e1 e2
  refine ⟨_, by have := h.acc; simp only [nonBlank, List.filter_nil, List.flatMap_nil, List.append_nil, vals, List.map_nil, number] at this; exact this, ?_⟩
  rw [Nat.le_div_iff_mul_le (by unfold Cfg.evsize; omega), Nat.mul_comm]
  exact h.fits

/-- **C100 counterexample, end of a file.** When some file ends, as usual, with the line end of its last line with data, the input uses a null
pointer (`continue` jumps to the test `strlen(sbuf)==0`). -/
theorem C100_crash_counterexample (c : Cfg) (hn : 0 < c.num) (hs : c.evsize ≤ c.size) (t : List Char) (ts : List (List Char)) (hg : ∀ x ∈ t :: ts, Good c x)
    (hb : ∃ x ∈ t :: ts, EndsBare c.header x) : ∃ n, (run c ((t :: ts).map some) n).pc = .crash := by
  obtain ⟨i, ip⟩ := init_inv hg
  obtain ⟨n, hd⟩ := steps_end hn hs _ i (Nat.le_refl _)
  have hbad : Bad c (init c ((t :: ts).map some)) ts ((lines t).drop c.header) := by
    obtain ⟨x, hx, hb⟩ := hb
    rcases List.mem_cons.1 hx with rfl | hx
    · obtain ⟨ls, l, e, hl⟩ := hb
      left
      rw [e]
      exact bare_endsBare hl _
    · exact .inr ⟨x, hx, hb⟩
  rcases bad_steps hn hs i hbad n with h | ⟨ts', rl, k1, k2⟩
  · exact ⟨n, h⟩
  · rcases hd with hd | hd
    · obtain ⟨e1, e2⟩ := k1.ended hd
      subst e1 e2
      rcases k2 with k2 | ⟨x, k2, -⟩
      · cases k2
      · cases k2
    · exact ⟨n, hd⟩

/-- **C100, end of files (partial).** No null pointer when no file ends like this, and no file has only its header. -/
theorem C100_safe_partial (c : Cfg) (hn : 0 < c.num) (hs : c.evsize ≤ c.size) (t : List Char) (ts : List (List Char)) (hg : ∀ x ∈ t :: ts, Good c x)
    (hb : ∀ x ∈ t :: ts, ¬ EndsBare c.header x ∧ ¬ OnlyHeader c.header x) (n : Nat) : (run c ((t :: ts).map some) n).pc ≠ .crash := by
  obtain ⟨i, ip⟩ := init_inv hg
  have hx : ∀ x ∈ t :: ts, bare true ((lines x).drop c.header) = false := by
    intro x hx
    cases h : bare true ((lines x).drop c.header) with
    | false => rfl
    | true =>
      rcases bare_true h with ⟨ls, l, e, hl⟩ | e
      · exact absurd ⟨ls, l, e, hl⟩ (hb x hx).1
      · exact absurd e (hb x hx).2
  exact (calm_steps hn hs i ⟨bare_calm (hx t (by simp)), fun x h => hx x (by simp [h])⟩ (by rw [ip]; simp) n).1

/-- **C100 counterexample, last events.** When the last file ends with a line with data without line end, the last event is never delivered: at
the end of the file `Read_Complete` returns `di_EndOfStream` and forgets the buffer. -/
theorem C100_tail_counterexample (c : Cfg) (hn : 0 < c.num) (hs : c.evsize ≤ c.size) (ts : List (List Char)) (t : List Char) (hg : ∀ x ∈ ts ++ [t], Good c x)
    (hb : EndsWithData c.header t) (n : Nat) : (withData (run c ((ts ++ [t]).map some) n).delivered).length < (expected c (ts ++ [t])).length := by
  have key : ∀ (a : List Char) (as : List (List Char)), a :: as = ts ++ [t] →
      (withData (run c ((a :: as).map some) n).delivered).length < (expected c (a :: as)).length := by
    intro a as e
    obtain ⟨i, ip⟩ := init_inv (t := a) (ts := as) (by rw [e]; exact hg)
    have htail : Tail c (init c ((a :: as).map some)) as ((lines a).drop c.header) := by
      cases ts with
      | nil =>
        simp only [List.nil_append, List.cons.injEq] at e
        obtain ⟨rfl, rfl⟩ := e
        exact .inr (.inl ⟨rfl, hb⟩)
      | cons u us =>
        simp only [List.cons_append, List.cons.injEq] at e
        exact .inl ⟨us, t, e.2, hb⟩
    obtain ⟨ts', rl, k1, k2⟩ := tail_steps hn hs i htail n
    exact tail_missing k1 k2
  cases hts : ts ++ [t] with
  | nil => simp at hts
  | cons a as => exact key a as hts.symm

/-- Configuration and files for examples. -/
def exCfg : Cfg := ⟨true, 2, 0, 1024, 100⟩

def exText : List Char := "1 2\n-1 7".toList

theorem exGood : Good exCfg exText := by
  have e : lines exText = ["1 2".toList, "-1 7".toList] := by decide
  refine ⟨by rw [e]; decide, by rw [e]; decide, ?_⟩
  unfold dataLines
  rw [e]
  intro l hl
  have : l = "1 2".toList ∨ l = "-1 7".toList := by
    simp only [List.mem_filter] at hl
    simpa [exCfg] using hl.1
  rcases this with rfl | rfl
  · exact ⟨[1, 2], by decide⟩
  · exact ⟨[4294967295, 7], by decide⟩

example : EndsWithData exCfg.header exText := ⟨["1 2".toList], "-1 7".toList, by decide, by decide⟩
example : ¬ EndsBare exCfg.header exText ∧ ¬ OnlyHeader exCfg.header exText := by
  have e : (lines exText).drop exCfg.header = ["1 2".toList, "-1 7".toList] := by decide
  refine ⟨?_, ?_⟩
  · rintro ⟨ls, l, h, -⟩
    rw [e] at h
    have := congrArg List.getLast? h
    simp at this
  · unfold OnlyHeader
    rw [e]
    simp
example : EndsBare 0 "1 2\n".toList := ⟨[], "1 2".toList, by decide, by decide⟩

example : (run exCfg ["1 2\n".toList |> some] 5).pc = .crash := by decide
example : (run exCfg [exText |> some] 5).pc = .ended ∧ (run exCfg [exText |> some] 5).delivered = [] ∧
    expected exCfg [exText] = [⟨0, some [1, 2]⟩, ⟨1, some [4294967295, 7]⟩] := by decide

/-! ## Buffers -/

theorem step_out (c : Cfg) (s : St) : (step c s).out = s.out ∨
    (s.pc = .event ∧ room c s < c.evsize ∧ (step c s).out = s.out ++ [if room c s ≤ 16 then s.cur else s.cur ++ [⟨s.cnt, none⟩]]) := by
  have hnext : ∀ (s : St) pc, (next c s pc).out = s.out := by
    intro s pc
    unfold next
    split
    · rfl
    · dsimp only
      split <;> rfl
  have he : c.evsize = 28 + c.raw := rfl
  unfold step
  split
  · split
    · exact .inl rfl
    · exact .inl (hnext _ _)
  · next hp =>
    split
    · next h => exact .inr ⟨hp, by omega, by rw [if_pos (by omega)]⟩
    · next h =>
      split
      · next h' =>
        refine .inr ⟨hp, h', ?_⟩
        by_cases e : room c s = 16
        · rw [if_pos e, if_pos (by omega)]
        · rw [if_neg e, if_neg (by omega)]
      · exact .inl rfl
  · left
    split
    · exact hnext _ _
    · dsimp only
      split
      · split <;> rfl
      · split
        · rfl
        · split
          · rfl
          · split
            · rfl
            · split
              · exact hnext _ _
              · rfl
  · exact .inl rfl
  · exact .inl rfl
  · exact .inl rfl

/-- What a delivered buffer is like. -/
theorem buffer_shape {c : Cfg} (hn : 0 < c.num) (hs : c.evsize ≤ c.size) {t : List Char} {ts : List (List Char)} (hg : ∀ x ∈ t :: ts, Good c x) (n : Nat) :
    ∀ b ∈ (run c ((t :: ts).map some) n).out, (withData b).length = c.size / c.evsize ∧
      b.length = c.size / c.evsize + (if c.size % c.evsize ≤ 16 then 0 else 1) := by
  have hpos : 0 < c.evsize := by unfold Cfg.evsize; omega
  induction n with
  | zero =>
    have : (run c ((t :: ts).map some) 0).out = [] := by
      show (init c _).out = []
      unfold init next
      simp only [List.map_cons]
      split <;> rfl
    rw [this]
    simp
  | succ n ih =>
    obtain ⟨ts', rl, h⟩ := run_inv hn hs hg n
    have e : run c ((t :: ts).map some) (n + 1) = step c (run c ((t :: ts).map some) n) := steps_succ _ _ _
    rw [e]
    generalize run c ((t :: ts).map some) n = s at h ih
    rcases step_out c s with k | ⟨k1, k2, k3⟩
    · rw [k]; exact ih
    · rw [k3]
      intro b hb
      rcases List.mem_append.1 hb with hb | hb
      · exact ih b hb
      · rw [List.mem_singleton.1 hb]
        have hf := h.fits
        have hlen : s.cur.length = c.size / c.evsize := by
          unfold room at k2
          have h1 : s.cur.length ≤ c.size / c.evsize := by rw [Nat.le_div_iff_mul_le hpos, Nat.mul_comm]; exact hf
          have h2 : c.size / c.evsize < s.cur.length + 1 := by
            rw [Nat.div_lt_iff_lt_mul hpos, Nat.add_mul, Nat.one_mul, Nat.mul_comm]
            omega
          omega
        have hroom : room c s = c.size % c.evsize := by
          unfold room
          rw [hlen]
          have := Nat.div_add_mod c.size c.evsize
          omega
        rw [hroom]
        split
        · rw [withData_self h.curs]
          exact ⟨hlen, hlen⟩
        · rw [withData_append, withData_self h.curs]
          simp [withData, hlen]

/-- **C100, buffers.** Every delivered buffer has as many events with data as fit; when not more than 16 bytes are left, nothing else. -/
theorem C100_buffers_partial (c : Cfg) (hn : 0 < c.num) (hs : c.evsize ≤ c.size) (t : List Char) (ts : List (List Char)) (hg : ∀ x ∈ t :: ts, Good c x) (n : Nat) :
    ∀ b ∈ (run c ((t :: ts).map some) n).out, (withData b).length = c.size / c.evsize ∧ (c.size % c.evsize ≤ 16 → b.length = c.size / c.evsize) := by
  intro b hb
  obtain ⟨h1, h2⟩ := buffer_shape hn hs hg n b hb
  exact ⟨h1, fun h => by rw [h2, if_pos h]; rfl⟩

/-- **C100 counterexample, events without data.** When more than 16 bytes are left, every delivered buffer has one more event, which has no data
and which belongs to no line. -/
theorem C100_empty_counterexample (c : Cfg) (hn : 0 < c.num) (hs : c.evsize ≤ c.size) (h16 : 16 < c.size % c.evsize) (t : List Char) (ts : List (List Char))
    (hg : ∀ x ∈ t :: ts, Good c x) (n : Nat) : ∀ b ∈ (run c ((t :: ts).map some) n).out, b.length = (withData b).length + 1 := by
  intro b hb
  obtain ⟨h1, h2⟩ := buffer_shape hn hs hg n b hb
  rw [h1, h2, if_neg (by omega)]

example : exCfg.evsize ≤ exCfg.size ∧ 16 < exCfg.size % exCfg.evsize := by decide

/-- **C100 counterexample, small buffers.** When an event does not fit into a buffer, the input delivers buffers with an event without data and
the same number again and again, without end and without reading the file. -/
theorem C100_small_counterexample (c : Cfg) (h16 : 16 < c.size) (hs : c.size < c.evsize) (t : List Char) (ts : List (List Char)) (hg : Good c t) (k : Nat) :
    (run c ((t :: ts).map some) (2 * k)).out = List.replicate k [⟨0, none⟩] ∧ (run c ((t :: ts).map some) (2 * k)).pc = .size := by
  have hi : ∃ r, init c ((t :: ts).map some) = ⟨ts.map some, ⟨r, false, false⟩, 0, [], [], .size⟩ := by
    obtain ⟨r, k1, -, -⟩ := skip_spec c.header hg.header hg.short
    refine ⟨r, ?_⟩
    unfold init next
    simp only [List.map_cons, opened, k1, Stream.good]
    rfl
  obtain ⟨r, hi⟩ := hi
  have key : run c ((t :: ts).map some) (2 * k) = ⟨ts.map some, ⟨r, false, false⟩, 0, [], List.replicate k [⟨0, none⟩], .size⟩ := by
    induction k with
    | zero => exact hi
    | succ k ih =>
      unfold run at ih ⊢
      rw [show 2 * (k + 1) = 2 * k + 1 + 1 from by omega, steps_succ, steps_succ, ih]
      have e1 : step c ⟨ts.map some, ⟨r, false, false⟩, 0, [], List.replicate k [⟨0, none⟩], .size⟩ =
          ⟨ts.map some, ⟨r, false, false⟩, 0, [], List.replicate k [⟨0, none⟩], .event⟩ := rfl
      rw [e1]
      unfold step
      have hr : room c ⟨ts.map some, ⟨r, false, false⟩, 0, [], List.replicate k [⟨0, none⟩], .event⟩ = c.size := by simp [room]
      simp only []
      rw [hr, if_neg (by omega), if_pos hs, if_neg (by omega), List.replicate_succ']
      rfl
  rw [key]
  exact ⟨rfl, rfl⟩

/-- **C100 counterexample, long lines.** When the first line is longer than the buffer for lines, the input makes an event of its first part and
then runs in a loop without end (`failbit` is never cleared), nothing is delivered. -/
theorem C100_long_counterexample (c : Cfg) (hn : 0 < c.num) (hh : c.header = 0) (hs : 2 * c.evsize ≤ c.size) (t : List Char) (fs : List (Option (List Char)))
    (hl : c.buflen ≤ (t.takeWhile notNl).length) (hbl : ¬ Blank (t.take (c.buflen - 1))) (ws : List Nat) (hw : fill c.signed c.num (t.take (c.buflen - 1)) = some ws) (n : Nat) :
    (run c (some t :: fs) (n + 5)).pc = .line false ∧ (run c (some t :: fs) (n + 5)).delivered = [] := by
  have hraw : c.raw ≠ 0 := by unfold Cfg.raw; omega
  have he : c.evsize = 28 + c.raw := rfl
  have hi : init c (some t :: fs) = ⟨fs, ⟨t, false, false⟩, 0, [], [], .size⟩ := by
    unfold init next
    simp only [hh, skip, opened, Stream.good]
    rfl
  have e1 : step c ⟨fs, ⟨t, false, false⟩, 0, [], [], .size⟩ = ⟨fs, ⟨t, false, false⟩, 0, [], [], .event⟩ := rfl
  have e2 : step c ⟨fs, ⟨t, false, false⟩, 0, [], [], .event⟩ = ⟨fs, ⟨t, false, false⟩, 0, [], [], .line true⟩ := by
    have hr : room c ⟨fs, ⟨t, false, false⟩, 0, [], [], .event⟩ = c.size := by simp [room]
    unfold step
    simp only []
    rw [hr, if_neg (by omega), if_neg (by omega)]
  have hg : getline c.buflen ⟨t, false, false⟩ = (t.take (c.buflen - 1), ⟨t.drop (c.buflen - 1), false, true⟩) := by
    unfold getline
    simp only [Stream.good]
    rw [if_neg (by simp), if_pos hl]
  have e3 : step c ⟨fs, ⟨t, false, false⟩, 0, [], [], .line true⟩ = ⟨fs, ⟨t.drop (c.buflen - 1), false, true⟩, 1, [⟨0, some ws⟩], [], .event⟩ := by
    unfold step
    simp only [hg]
    rw [if_neg (by simp), if_neg (by simp), if_neg (by rw [all_isBlank]; exact hbl), hw]
    simp only [if_neg hraw]
    rfl
  have e4 : step c ⟨fs, ⟨t.drop (c.buflen - 1), false, true⟩, 1, [⟨0, some ws⟩], [], .event⟩ = ⟨fs, ⟨t.drop (c.buflen - 1), false, true⟩, 1, [⟨0, some ws⟩], [], .line true⟩ := by
    have hr : room c ⟨fs, ⟨t.drop (c.buflen - 1), false, true⟩, 1, [⟨0, some ws⟩], [], .event⟩ = c.size - c.evsize := by simp [room]
    unfold step
    simp only []
    rw [hr, if_neg (by omega), if_neg (by omega)]
  have e5 : ∀ b, step c ⟨fs, ⟨t.drop (c.buflen - 1), false, true⟩, 1, [⟨0, some ws⟩], [], .line b⟩ = ⟨fs, ⟨t.drop (c.buflen - 1), false, true⟩, 1, [⟨0, some ws⟩], [], .line false⟩ := by
    intro b
    unfold step
    simp [getline, Stream.good]
  have key : run c (some t :: fs) (n + 5) = ⟨fs, ⟨t.drop (c.buflen - 1), false, true⟩, 1, [⟨0, some ws⟩], [], .line false⟩ := by
    induction n with
    | zero =>
      unfold run
      rw [hi]
      show step c (step c (step c (step c (step c _)))) = _
      rw [e1, e2, e3, e4, e5]
    | succ n ih =>
      unfold run at ih ⊢
      rw [show n + 1 + 5 = n + 5 + 1 from by omega, steps_succ, ih, e5]
  rw [key]
  exact ⟨rfl, rfl⟩

example : ∃ (c : Cfg) (t : List Char) (ws : List Nat), 0 < c.num ∧ c.header = 0 ∧ 2 * c.evsize ≤ c.size ∧ c.buflen ≤ (t.takeWhile notNl).length ∧
    ¬ Blank (t.take (c.buflen - 1)) ∧ fill c.signed c.num (t.take (c.buflen - 1)) = some ws :=
  ⟨⟨false, 1, 0, 4, 100⟩, "12 13".toList, [12], by decide, rfl, by decide, by decide, by decide, by decide⟩

end Verif.TextInput
