import Verif.Spec.Gosip
import Verif.TextFormLemmas
/-! # C128: commands of the GOSIP player -/

namespace Verif.Gosip
open Verif.Bytes Verif.Json Verif.Text

theorem loop_spec (a : Text) (pipe : Nat → Option (List Text)) : ∀ (l : List Text) (n : Nat)
    {r : List Res} {lines : List Text}, loop a pipe n l = some (r, lines) →
    Answered (fun i c => answer c (pipe (n + i))) (line a) l
      (r ++ List.replicate (l.length - r.length) .skip) lines r.length ∧ r.length ≤ l.length
  | [], n, r, lines, h => by
    simp only [loop, Option.some.injEq, Prod.mk.injEq] at h
    obtain ⟨rfl, rfl⟩ := h
    exact ⟨⟨rfl, rfl, Nat.le_refl _, by simp, by simp, by simp, by simp⟩, Nat.le_refl _⟩
  | c :: l, n, r, lines, h => by
    rw [loop] at h
    obtain ⟨x, hx, h⟩ := Option.bind_eq_some_iff.mp h
    by_cases he : x = .err
    · rw [if_pos he] at h
      simp only [Option.some.injEq, Prod.mk.injEq] at h
      obtain ⟨rfl, rfl⟩ := h
      subst he
      refine ⟨⟨by simp, rfl, by simp, ?_, ?_, ?_, ?_⟩, by simp⟩
      · intro i d hi hd
        have : i = 0 := by simpa using hi
        subst this
        cases hd
        exact hx.symm
      · intro i h1 h2
        obtain ⟨j, rfl⟩ : ∃ j, i = j + 1 := ⟨i - 1, by simp at h1; omega⟩
        simp only [List.length_cons] at h2
        simp [List.getElem?_replicate]
        omega
      · intro i hi
        simp at hi
      · intro _
        exact ⟨by simp, rfl⟩
    · rw [if_neg he] at h
      obtain ⟨y, hy, h⟩ := Option.map_eq_some_iff.mp h
      simp only [Prod.mk.injEq] at h
      obtain ⟨rfl, rfl⟩ := h
      obtain ⟨ih, hle⟩ := loop_spec a pipe l (n + 1) (r := y.1) (lines := y.2) hy
      have e : (x :: y.1) ++ List.replicate ((c :: l).length - (x :: y.1).length) Res.skip
          = x :: (y.1 ++ List.replicate (l.length - y.1.length) Res.skip) := by simp
      rw [e]
      refine ⟨⟨by simpa using ih.one_each, ?_, by simpa using hle, ?_, ?_, ?_, ?_⟩,
        by simpa using hle⟩
      · rw [ih.executed]
        simp
      · intro i d hi hd
        cases i with
        | zero => cases hd; exact hx.symm
        | succ i =>
          have := ih.results i d (by simpa using hi) (by simpa using hd)
          rw [List.getElem?_cons_succ, this]
          show answer d (pipe (n + 1 + i)) = answer d (pipe (n + (i + 1)))
          rw [show n + 1 + i = n + (i + 1) by omega]
      · intro i h1 h2
        cases i with
        | zero => simp at h1
        | succ i =>
          rw [List.getElem?_cons_succ]
          exact ih.skipped i (by simpa using h1) (by simpa using h2)
      · intro i hi
        cases i with
        | zero => simpa using he
        | succ i =>
          rw [List.getElem?_cons_succ]
          exact ih.go_on i (by simpa using hi)
      · intro hk
        obtain ⟨h1, h2⟩ := ih.stop (by simpa using hk)
        refine ⟨by simp, ?_⟩
        have : (x :: y.1).length - 1 = (y.1.length - 1) + 1 := by simp; omega
        rw [this, List.getElem?_cons_succ]
        exact h2

/-- Every command has one element in the answer; commands are executed in order up to the first
error, those behind are skipped and not executed. -/
theorem C128_answer {sfp dev : Int} {pipe : Nat → Option (List Text)} {cmds : List Text}
    {res : List Res} {lines : List Text} (h : execute sfp dev pipe cmds = some (res, lines)) :
    ∃ k, Answered (fun i c => answer c (pipe i)) (line (address sfp dev)) cmds res lines k := by
  obtain ⟨x, hx, h⟩ := Option.map_eq_some_iff.mp h
  simp only [Prod.mk.injEq] at h
  obtain ⟨rfl, rfl⟩ := h
  have := (loop_spec _ pipe cmds 0 (r := x.1) (lines := x.2) hx).1
  simp only [Nat.zero_add] at this
  exact ⟨_, this⟩

theorem cstr_id : ∀ {t : Text}, (0 : Byte) ∉ t → cstr t = t
  | [], _ => rfl
  | b :: t, h => by
    have hb : b ≠ 0 := fun e => h (by simp [e])
    have ht : (0 : Byte) ∉ t := fun e => h (List.mem_cons_of_mem _ e)
    have ih := cstr_id ht
    unfold cstr at ih ⊢
    rw [List.takeWhile_cons_of_pos (by simpa using hb), ih]

/-- Reading and writing at the address of the device: `-r adr x` and `-w adr x`. -/
theorem C128_line {a rest : Text} {b : Byte} (hb : b = 114 ∨ b = 119) (ha : (0 : Byte) ∉ a)
    (hr : (0 : Byte) ∉ rest) :
    line a ([45, b, 32] ++ adr ++ rest) = gosipcmd ++ [45, b, 32] ++ a ++ rest := by
  have hp : plain ([45, b, 32] ++ adr ++ rest) = false := by simp [plain]
  have hf : find adr ([45, b, 32] ++ adr ++ rest) = some 3 := by
    rcases hb with rfl | rfl <;> simp [find, adr, List.isPrefixOf]
  unfold line
  rw [hp, if_neg (by simp)]
  have : replaceAdr a ([45, b, 32] ++ adr ++ rest) = [45, b, 32] ++ a ++ rest := by
    unfold replaceAdr
    rw [hf]
    simp [adr]
  rw [this, cstr_id]
  · simp
  · have h1 : (0 : Byte) ∉ gosipcmd ++ [45, b, 32] := by rcases hb with rfl | rfl <;> decide
    intro h
    rw [← List.append_assoc, ← List.append_assoc] at h
    rcases List.mem_append.mp h with h | h
    · rcases List.mem_append.mp h with h | h
      · exact h1 h
      · exact ha h
    · exact hr h

theorem plain_of {c : Text} (hc : c.head? ≠ some 45) : plain c = true ∧ isWriting c = false := by
  have h1 : ∀ x : Byte, find [45, x] c ≠ some 0 := by
    intro x hx
    cases c with
    | nil => simp [find] at hx
    | cons y c =>
      have hy : y ≠ 45 := by simpa using hc
      simp [find, List.isPrefixOf] at hx
      exact hy hx.1.symm
  simp only [plain, isReading, isWriting, Bool.and_eq_true, Bool.not_eq_true',
    decide_eq_false_iff_not, decide_eq_true_eq]
  exact ⟨⟨⟨h1 114, h1 119⟩, hc⟩, h1 119⟩

/-- Text which does not begin with `-` is an address which is read. -/
theorem C128_plain {a c : Text} (hc : c.head? ≠ some 45) (ha : (0 : Byte) ∉ a)
    (h0 : (0 : Byte) ∉ c) : line a c = gosipcmd ++ [45, 114, 32] ++ a ++ [32] ++ c := by
  have hp := (plain_of hc).1
  have hl : ∀ (t : Text), plain t = false → ∀ u, plain u = true → readAdr ++ u = t →
      line a u = line a t := by
    intro t ht u hu e
    unfold line
    rw [hu, ht, if_pos rfl, e]
    simp
  have h3 := C128_line (a := a) (rest := [32] ++ c) (b := 114) (Or.inl rfl) ha
    (fun h => by
      rcases List.mem_append.mp h with h | h
      · revert h; decide
      · exact h0 h)
  rw [hl ([45, 114, 32] ++ adr ++ ([32] ++ c)) (by simp [plain]) c hp (by simp [readAdr]), h3]
  simp

/-- A command which writes is good when the program gives at most two characters. -/
theorem C128_write {c rest out : Text} (hc : c = [45, 119] ++ rest) (ho : out ≠ [])
    (h0 : (0 : Byte) ∉ out) (hs : strip out = out) :
    answer c (some [out]) = some (if out.length ≤ 2 then .ok else .err) ∧
      answer c (some []) = some .ok ∧ answer c none = some .err := by
  subst hc
  have hw : isWriting ([45, 119] ++ rest) = true := by simp [isWriting, find, List.isPrefixOf]
  have hb : cstr (readAll [] 0 [out]) = out := by
    rw [readAll, if_neg (by simp [ho]), readAll, hs, cstr_id h0]
  refine ⟨?_, by simp only [answer, hw, if_true]; rfl, rfl⟩
  simp only [answer, hw, if_true, hb]
  by_cases h : out.length ≤ 2
  · rw [if_neg (by omega), if_pos h]
  · rw [if_pos (by omega), if_neg h]

theorem strip_lf (t : Text) (n : Nat) (h : ∀ b, t.getLast? = some b → b ≠ 32 ∧ b ≠ 10) :
    strip (t ++ List.replicate n 10) = t := by
  unfold strip
  rw [List.reverse_append, List.reverse_replicate, List.dropWhile_append_of_pos]
  · cases ht : t.reverse with
    | nil => simpa using ht.symm
    | cons b l =>
      have hb : t.getLast? = some b := by
        rw [← List.head?_reverse, ht]
        rfl
      have := h b hb
      rw [List.dropWhile_cons_of_neg (by simpa using this), ← ht, List.reverse_reverse]
  · intro b hb
    have := List.eq_of_mem_replicate hb
    simp [this]

theorem decInt_chars (v : Int) : (∀ b ∈ decInt v, 45 ≤ b.toNat) ∧ decInt v ≠ [] := by
  obtain ⟨⟨h1, h2⟩, _⟩ := Verif.TextForm.decNat_text v.natAbs
  unfold decInt
  split
  · refine ⟨fun b hb => ?_, by simp⟩
    rcases List.mem_cons.mp hb with rfl | hb
    · simp
    · have := (h2 b hb).1
      omega
  · exact ⟨fun b hb => by have := (h2 b hb).1; omega, h1⟩

theorem address_clean (sfp dev : Int) : (0 : Byte) ∉ address sfp dev := by
  intro h
  unfold address at h
  split at h
  · revert h; decide
  · rcases List.mem_append.mp h with h | h
    · rcases List.mem_append.mp h with h | h
      · have := (decInt_chars sfp).1 0 h
        simp at this
      · revert h; decide
    · have := (decInt_chars dev).1 0 h
      simp at this

/-- The address which the program gets: numbers of link and device, or the text for all devices. -/
theorem C128_device {sfp dev : Int} {rest : Text} (hr : (0 : Byte) ∉ rest) :
    (0 ≤ sfp → 0 ≤ dev → line (address sfp dev) ([45, 119, 32] ++ adr ++ rest)
      = gosipcmd ++ [45, 119, 32] ++ decInt sfp ++ [32] ++ decInt dev ++ rest) ∧
    ((sfp < 0 ∨ dev < 0) → line (address sfp dev) ([45, 119, 32] ++ adr ++ rest)
      = gosipcmd ++ [45, 119, 32] ++ [45, 45, 32, 45, 49, 32, 45, 49] ++ rest) := by
  have h := C128_line (b := 119) (Or.inr rfl) (address_clean sfp dev) hr
  rw [h]
  refine ⟨fun h1 h2 => ?_, fun h1 => ?_⟩
  · rw [address, if_neg (by omega)]
    simp
  · rw [address, if_pos h1]
    rfl

/-- A command which reads gives the number which the program prints, with any number of line
feeds behind it. -/
theorem C128_read {c rest : Text} (hc : c = [45, 114] ++ rest ∨ c.head? ≠ some 45) (v : BitVec 64) (n : Nat) :
    answer c (some [decInt v.toInt ++ List.replicate n 10]) = some (.value v.toInt) ∧
      answer c (some []) = some .err ∧ answer c none = some .err := by
  obtain ⟨hm, hne⟩ := decInt_chars v.toInt
  have h0 : (0 : Byte) ∉ decInt v.toInt := fun h => by
    have := hm 0 h
    simp at this
  have hl : ∀ b, (decInt v.toInt).getLast? = some b → b ≠ 32 ∧ b ≠ 10 := by
    intro b hb
    have := hm b (List.mem_of_getLast? hb)
    constructor <;> (rintro rfl; simp at this)
  have hw : isWriting c = false ∧ (isReading c || plain c) = true := by
    rcases hc with rfl | hc
    · refine ⟨?_, by simp [isReading, find, List.isPrefixOf]⟩
      simp only [isWriting, decide_eq_false_iff_not]
      intro h
      simp [find, List.isPrefixOf] at h
    · exact ⟨(plain_of hc).2, by simp [(plain_of hc).1]⟩
  have hb : cstr (readAll [] 0 [decInt v.toInt ++ List.replicate n 10]) = decInt v.toInt := by
    rw [readAll, if_neg (by simp [hne]), readAll, strip_lf _ _ hl, cstr_id h0]
  refine ⟨?_, ?_, rfl⟩
  · simp only [answer, hw.1, hw.2, if_true, hb, Verif.TextForm.strToInt_dec]
    rfl
  · simp only [answer, hw.1, hw.2, if_true]
    rfl

theorem readAll_limit (q : List Text) : ∀ (p : List Text) (buf : Text) (total : Nat),
    200000 ≤ total + (p.map fun c => (strip c).length).sum →
    readAll buf total (p ++ q) = readAll buf total p
  | [], buf, total, h => by
    have h' : 200000 ≤ total := by simpa using h
    cases q with
    | nil => rfl
    | cons c q => simp [readAll, h']
  | c :: p, buf, total, h => by
    rw [List.cons_append, readAll, readAll]
    by_cases hc : 200000 ≤ total ∨ c = []
    · rw [if_pos hc, if_pos hc]
    · rw [if_neg hc, if_neg hc]
      exact readAll_limit q p _ _ (by simp only [List.map_cons, List.sum_cons] at h; omega)

/-- Output behind 200000 characters, without white space at the end of pieces, is not looked at. -/
theorem C128_limit (c : Text) {p q : List Text}
    (h : 200000 ≤ (p.map fun x => (strip x).length).sum) :
    answer c (some (p ++ q)) = answer c (some p) := by
  simp only [answer]
  rw [readAll_limit q p [] 0 (by omega)]

/-- Other options are executed, their output is not looked at. -/
theorem C128_other {rest : Text} {b : Byte} (h1 : b ≠ 114) (h2 : b ≠ 119) (p : List Text) :
    answer ([45, b] ++ rest) (some p) = some .undef := by
  have hn : ∀ x : Byte, b ≠ x → find [45, x] ([45, b] ++ rest) ≠ some 0 := by
    intro x hx h
    simp [find, List.isPrefixOf] at h
    exact hx h.symm
  have hw : isWriting ([45, b] ++ rest) = false := by
    simpa [isWriting] using hn 119 h2
  have hr : isReading ([45, b] ++ rest) = false := by
    simpa [isReading] using hn 114 h1
  have hp : plain ([45, b] ++ rest) = false := by simp [plain]
  simp only [answer, hw, hr, hp]
  rfl

/-! ## Deviations and examples -/

/-- Everything behind an option goes to the shell as it is, also a second command: whoever can send
the command executes any program. -/
theorem C128_shell_counterexample {c : Text} {b : Byte} (hb : c.head? = some 45)
    (ha : find adr c = none) (h0 : (0 : Byte) ∉ c) (hc : b ∈ c) (hs : b = 59) (a : Text) :
    line a c = gosipcmd ++ c ∧ (59 : Byte) ∈ line a c := by
  have hp : plain c = false := by simp [plain, hb]
  have : line a c = gosipcmd ++ c := by
    unfold line
    rw [hp, if_neg (by simp)]
    simp only [replaceAdr, ha]
    refine cstr_id fun h => ?_
    rcases List.mem_append.mp h with h | h
    · revert h; decide
    · exact h0 h
  exact ⟨this, by rw [this]; exact List.mem_append_right _ (hs ▸ hc)⟩

/-- `-x;ls` -/
example : line noAddr [45, 120, 59, 108, 115] = gosipcmd ++ [45, 120, 59, 108, 115] := by decide

/-- Only the last piece of the output decides: a long message of an error which ends with a piece
of white space counts as success. -/
theorem C128_long_counterexample {c rest out : Text} (hc : c = [45, 119] ++ rest)
    (ho : out.length = 49999) : answer c (some [out, [10]]) = some .ok := by
  subst hc
  have hw : isWriting ([45, 119] ++ rest) = true := by simp [isWriting, find, List.isPrefixOf]
  have hn : out ≠ [] := by rintro rfl; simp at ho
  have hl : (strip out).length ≤ out.length := by
    unfold strip
    rw [List.length_reverse]
    exact Nat.le_trans (List.dropWhile_sublist _).length_le (by simp)
  have hb : readAll [] 0 [out, [10]] = [] := by
    rw [readAll, if_neg (by simp [hn]), readAll, if_neg (by simp; omega)]
    rfl
  simp only [answer, hw, if_true, hb]
  rfl

/-- A reading, a writing with an error and a command which is skipped. -/
example : execute 0 (-1) (fun n => if n = 0 then some [[53, 10]] else some [[101, 114, 114]])
    [[49], [45, 119, 32, 97, 100, 114], [50]]
      = some ([.value 5, .err, .skip], [line (address 0 (-1)) [49],
          line (address 0 (-1)) [45, 119, 32, 97, 100, 114]]) := by
  decide

end Verif.Gosip
