import Verif.Spec.ExeCmd
import Verif.TextFormLemmas
import Verif.Props.Url
/-!
# C117: parameters in the query of a command arrive
-/

namespace Verif.ExeCmd
open Verif.Bytes Verif.Json Verif.Text Verif.Url

theorem replace_none {s : List Byte} (h : 37 ∉ s) : replaceCode 50 48 32 s = s := by
  have hf : find [37, 50, 48] s = none := by
    apply find_none
    rintro ⟨a, b, e⟩
    apply h
    rw [← e]
    simp
  rw [replaceCode]
  split
  · rfl
  · rename_i pos hp
    rw [hf] at hp
    cases hp

theorem digit_ne {t : List Byte} (h : Digits t) {b : Byte} (hb : b.toNat < 48 ∨ 57 < b.toNat) : b ∉ t := by
  intro hm
  have := h.2 b hm
  unfold isDigit at this
  omega

theorem digits_head {t : List Byte} (h : Digits t) : t.head? ≠ some 39 ∧ t.head? ≠ some 34 := by
  constructor
  · intro e; exact digit_ne h (b := 39) (by decide) (List.mem_of_mem_head? (by rw [e]; rfl))
  · intro e; exact digit_ne h (b := 34) (by decide) (List.mem_of_mem_head? (by rw [e]; rfl))

theorem toInt32_id {v : Int} (h1 : -(2 ^ 31) ≤ v) (h2 : v < 2 ^ 31) : toInt32 v = v := by
  unfold toInt32
  rw [BitVec.toInt_ofInt]
  apply Int.bmod_eq_of_le <;> omega

theorem quoted_true {q : Byte} {s : List Byte} (hq : q = 39 ∨ q = 34) : quoted (q :: (s ++ [q])) = true := by
  unfold quoted
  apply decide_eq_true
  refine ⟨by simp, ?_, ?_⟩
  · rcases hq with rfl | rfl
    · exact Or.inl rfl
    · exact Or.inr rfl
  · rw [← List.cons_append, List.getLast?_concat]; rfl

theorem quoted_false {s : List Byte} (h : s.head? ≠ some 39 ∧ s.head? ≠ some 34) : quoted s = false := by
  unfold quoted
  apply decide_eq_false
  rintro ⟨_, h' | h', _⟩
  · exact h.1 h'
  · exact h.2 h'

theorem ints_nat (C : Conv) (l : List (List Byte))
    (h : ∀ x ∈ l, Digits x ∧ natVal x < 2 ^ 31 ∧ ∃ d, C.dbl x = some d ∧ C.toInt d = natVal x) :
    ints C l = some (l.map fun x => (natVal x : Int)) := by
  induction l with
  | nil => rfl
  | cons x l ih =>
    obtain ⟨h1, h2, d, h3, h4⟩ := h x List.mem_cons_self
    have hs : strToInt 64 x = .val (natVal x) := strToInt_digits h1 (by
      have : (2 : Nat) ^ 31 ≤ 2 ^ (64 - 1) := Nat.pow_le_pow_right (by decide) (by decide)
      omega)
    unfold ints
    rw [hs, h3, ih (fun y hy => h y (List.mem_cons_of_mem _ hy))]
    simp only [h4, List.map_cons]

theorem word_fail {b : Byte} {s : List Byte} (hb : Letter b) (h0 : 0 ∉ s) : strToInt 64 (b :: s) = .fail := by
  have e0 : b ≠ 0 := by rintro rfl; unfold Letter at hb; revert hb; decide
  have e32 : b ≠ 32 := by rintro rfl; unfold Letter at hb; revert hb; decide
  have e48 : b ≠ 48 := by rintro rfl; unfold Letter at hb; revert hb; decide
  have e43 : b ≠ 43 := by rintro rfl; unfold Letter at hb; revert hb; decide
  have e45 : b ≠ 45 := by rintro rfl; unfold Letter at hb; revert hb; decide
  have esp : isSpace b = false := by
    unfold isSpace
    have h1 : decide (b = 32) = false := decide_eq_false e32
    rw [h1]
    unfold Letter at hb
    simp
    omega
  have edec : isDec b = false := by
    unfold isDec
    unfold Letter at hb
    simp
    omega
  have hs : start (b :: s) = b :: s := by
    unfold start
    rw [cstr_id (by simp only [List.mem_cons, not_or]; exact ⟨fun e => e0 e.symm, h0⟩)]
    rw [List.dropWhile_cons_of_neg (by simpa using e32)]
  have hh : hexPrefix (b :: s) = false := by
    unfold hexPrefix
    split
    · rename_i heq; cases heq; exact absurd rfl e48
    · rfl
  unfold strToInt
  dsimp only
  rw [hs, if_neg (by simp), hh]
  simp only [Bool.false_eq_true, if_false]
  split
  · rfl
  · unfold scanInt scanDec
    rw [List.dropWhile_cons_of_neg (by rw [esp]; decide)]
    simp only [sign, if_neg e45, if_neg e43]
    rw [List.takeWhile_cons_of_neg (by rw [edec]; decide)]
    rfl

theorem means_ne {C : Conv} {t : List Byte} {v : V} (h : Means C t v) : t ≠ [] := by
  cases h with
  | nat h _ => exact h.1
  | neg _ _ => simp
  | quoted _ _ _ => simp
  | ints _ _ _ _ => simp
  | word _ _ _ _ => simp

theorem body_ne {t : List Byte} {l : List (List Byte)} (h : TextForm.Spec.Body t l) : l ≠ [] := by
  cases h <;> simp

/-- One parameter. -/
theorem param_means (C : Conv) (c : Cmd) {name t : List Byte} {v : V} (hn : name ≠ lit "tmout") (h : Means C t v) :
    param C c name t = some (c.set name v) := by
  have hbig : (2 : Nat) ^ 31 ≤ 2 ^ (64 - 1) := Nat.pow_le_pow_right (by decide) (by decide)
  unfold param
  cases h with
  | nat h1 h2 =>
    rw [replace_none (digit_ne h1 (by decide))]
    dsimp only
    rw [quoted_false (digits_head h1), strToInt_digits h1 (by omega)]
    simp only [Bool.false_eq_true, if_false, if_neg hn]
    rw [toInt32_id (by omega) (by omega)]
  | @neg t h1 h2 =>
    have h37 : (37 : Byte) ∉ 45 :: t := by
      simp only [List.mem_cons, not_or]
      exact ⟨by decide, digit_ne h1 (by decide)⟩
    rw [replace_none h37]
    dsimp only
    rw [quoted_false ⟨by simp, by simp⟩, strToInt_neg h1 (by omega)]
    simp only [Bool.false_eq_true, if_false, if_neg hn]
    rw [toInt32_id (by omega) (by omega)]
  | @quoted q s hq h1 h2 =>
    have h37 : (37 : Byte) ∉ q :: (s ++ [q]) := by
      simp only [List.mem_cons, List.mem_append, List.not_mem_nil, or_false, not_or]
      rcases hq with rfl | rfl <;> exact ⟨by decide, h1, by decide⟩
    rw [replace_none h37]
    dsimp only
    rw [quoted_true hq, if_pos rfl, List.tail_cons, List.dropLast_concat]
    have : TextForm.strToStrVect s = .no := by
      unfold TextForm.strToStrVect
      rw [if_pos (Or.inr (Or.inl h2))]
    simp only [vector, this, Option.map_some]
  | @ints q t l hq h1 h2 h3 =>
    have h37 : (37 : Byte) ∉ q :: (91 :: (t ++ [93]) ++ [q]) := by
      simp only [List.cons_append, List.mem_cons, List.mem_append, List.not_mem_nil, or_false, not_or]
      rcases hq with rfl | rfl <;> exact ⟨by decide, by decide, ⟨h1, by decide⟩, by decide⟩
    rw [replace_none h37]
    dsimp only
    rw [quoted_true hq, if_pos rfl, List.tail_cons, List.dropLast_concat]
    have hp := TextForm.parse_body h2
    have hi := ints_nat C l h3
    have hl := body_ne h2
    have : vector C (91 :: (t ++ [93])) = some (.ints (l.map fun x => (natVal x : Int))) := by
      unfold vector
      rw [hp]
      cases l with
      | nil => exact absurd rfl hl
      | cons x l =>
        dsimp only
        rw [hi]
        dsimp only
        rw [if_pos (by simp)]
    rw [this]; rfl
  | @word b s hb h1 h0 hd =>
    have h37 : (37 : Byte) ∉ b :: s := by
      simp only [List.mem_cons, not_or]
      refine ⟨?_, h1⟩
      rintro rfl
      unfold Letter at hb; revert hb; decide
    have hq : quoted (b :: s) = false := by
      apply quoted_false
      constructor
      · intro e; cases e; unfold Letter at hb; revert hb; decide
      · intro e; cases e; unfold Letter at hb; revert hb; decide
    rw [replace_none h37]
    dsimp only
    rw [hq, word_fail hb h0, hd]
    simp only [Bool.false_eq_true, if_false, if_neg hn]

theorem joined_len : ∀ (ps : List (List Byte)), (∀ p ∈ ps, p ≠ []) → ps.length ≤ (joined ps).length
  | [], _ => Nat.zero_le _
  | [p], h => by
    have := List.length_pos_iff.mpr (h p List.mem_cons_self)
    simp only [joined, List.length_cons, List.length_nil]; omega
  | p :: q :: l, h => by
    have := joined_len (q :: l) (fun x hx => h x (List.mem_cons_of_mem _ hx))
    simp only [joined, List.length_append, List.length_cons, List.length_nil] at *
    omega

theorem get_set (c : Cmd) (name n : List Byte) (v : V) : (c.set name v).get n = if n = name then some v else c.get n := by
  unfold Cmd.set Cmd.get
  by_cases h : n = name
  · subst h; simp
  · rw [if_neg h]
    have hb : (n == name) = false := by simpa using h
    simp only [List.lookup_cons, hb]
    induction c.fields with
    | nil => rfl
    | cons e l ih =>
      by_cases he : e.1 = name
      · rw [List.filter_cons_of_neg (by simpa using he), ih]
        have : (n == e.1) = false := by rw [he]; exact hb
        rw [show e = (e.1, e.2) from rfl, List.lookup_cons, this]
      · rw [List.filter_cons_of_pos (by simpa using he), show e = (e.1, e.2) from rfl, List.lookup_cons, List.lookup_cons, ih]

/-- State after all parameters. -/
def apply (c : Cmd) (ps : List Par) : Cmd := ps.foldl (fun c p => c.set p.name p.val) c

theorem apply_get (ps : List Par) : ∀ (c : Cmd) (n : List Byte), (apply c ps).get n = (last ps n).or (c.get n) ∧ (apply c ps).timeout = c.timeout := by
  induction ps with
  | nil => intro c n; exact ⟨rfl, rfl⟩
  | cons p ps ih =>
    intro c n
    obtain ⟨h1, h2⟩ := ih (c.set p.name p.val) n
    refine ⟨?_, h2⟩
    show (apply (c.set p.name p.val) ps).get n = _
    rw [h1, get_set]
    unfold last
    rw [List.reverse_cons, List.find?_append]
    cases hf : ps.reverse.find? (fun p => decide (p.name = n)) with
    | some x => simp
    | none =>
      by_cases h : n = p.name
      · simp [h]
      · have : ¬ p.name = n := fun e => h e.symm
        simp [h, this]

theorem loop_pars (C : Conv) (u : Url.Url) (all : List (List Byte)) (ho : u.options = joined all) (ht : ∀ x ∈ all, OptText x) :
    ∀ (ps : List Par) (rest : List (List Byte)) (k fuel : Nat) (c : Cmd), all.drop k = ps.map Par.opt ++ rest →
      (∀ p ∈ ps, p.Ok C) → ps.length ≤ fuel → ∃ fuel', fuel' = fuel - ps.length ∧ loop C u fuel k c = loop C u fuel' (k + ps.length) (apply c ps) := by
  intro ps
  induction ps with
  | nil => intro rest k fuel c _ _ _; exact ⟨fuel, by simp, rfl⟩
  | cons p ps ih =>
    intro rest k fuel c hd hok hf
    cases fuel with
    | zero => simp at hf
    | succ fuel =>
      have hp := hok p List.mem_cons_self
      have hk : all.getD k [] = p.opt := by
        have : all[k]? = some p.opt := by
          have := congrArg List.head? hd
          rw [List.head?_drop] at this
          simpa using this
        simp [this]
      have hd' : all.drop (k + 1) = ps.map Par.opt ++ rest := by
        rw [← List.drop_drop, hd]; rfl
      obtain ⟨fuel', e1, e2⟩ := ih rest (k + 1) fuel (c.set p.name p.val) hd' (fun q hq => hok q (List.mem_cons_of_mem _ hq)) (by simp at hf; omega)
      refine ⟨fuel', by simp only [List.length_cons]; omega, ?_⟩
      have hfind : find [61] p.opt = some p.name.length := by
        unfold Par.opt
        rw [List.append_assoc]
        exact find_single hp.eq
      have hne : p.opt ≠ [] := by unfold Par.opt; simp
      have htx := List.length_pos_iff.mpr (means_ne hp.means)
      have hnx := List.length_pos_iff.mpr hp.name
      have hlen : ¬ (p.name.length = 0 ∨ p.name.length = p.opt.length - 1) := by
        unfold Par.opt
        simp only [List.length_append, List.length_cons, List.length_nil]
        omega
      have htake : p.opt.take p.name.length = p.name := by
        unfold Par.opt
        rw [List.append_assoc, List.take_left' rfl]
      have hdrop : p.opt.drop (p.name.length + 1) = p.text := by
        unfold Par.opt
        rw [List.drop_left' (by simp)]
      rw [loop]
      rw [C17_number ho ht k, hk, if_neg hne, hfind]
      dsimp only
      rw [if_neg hlen, htake, hdrop, param_means C c hp.tmout hp.means, Option.bind_some, e2]
      have : k + 1 + ps.length = k + (p :: ps).length := by simp only [List.length_cons]; omega
      rw [this]
      rfl

/-- Url of the query. -/
theorem execute_url {q : List Byte} (h : Without (lit "://") (lit "execute?" ++ q)) :
    setUrl (lit "execute?" ++ q) = some ⟨true, [], lit "execute", 0, [], decode code q⟩ := by
  have e : (lit "execute?" ++ q) = Parts.text ⟨none, lit "execute", none, none, some q⟩ := by
    unfold Parts.text Url.opt
    simp only [List.nil_append, List.append_nil]
    rw [← List.append_assoc]
    rfl
  rw [e]
  have := C17_parts (p := ⟨none, lit "execute", none, none, some q⟩) ⟨by rw [← e]; simp [lit], (by intro t h; cases h), (by intro _; rw [← e]; exact h),
    (by show ∀ b ∈ lit "execute", b ≠ 47 ∧ b ≠ 63 ∧ b ≠ 58; decide), (by intro t h; cases h), (by intro t h; cases h)⟩
  rw [this]
  rfl

/-- All parameters of a query arrive with their values; of those with the same name the last one; the other fields of the command and its
timeout stay. -/
theorem C117_params (C : Conv) (c : Cmd) (q : List Byte) (ps : List Par) (hok : ∀ p ∈ ps, p.Ok C)
    (hq : decode code q = joined (ps.map Par.opt)) (hw : Without (lit "://") (lit "execute?" ++ q)) :
    ∃ c', create C c q = some c' ∧ (∀ n, c'.get n = (last ps n).or (c.get n)) ∧ c'.timeout = c.timeout := by
  refine ⟨apply c ps, ?_, fun n => (apply_get ps c n).1, (apply_get ps c []).2⟩
  unfold create
  rw [execute_url hw, Option.bind_some]
  simp only [if_true]
  have ht : ∀ x ∈ ps.map Par.opt, OptText x := by
    intro x hx
    obtain ⟨p, hp, rfl⟩ := List.mem_map.1 hx
    exact (hok p hp).opt
  have hlen : ps.length ≤ (decode code q).length := by
    rw [hq]
    have := joined_len (ps.map Par.opt) (by
      intro x hx
      obtain ⟨p, hp, rfl⟩ := List.mem_map.1 hx
      unfold Par.opt; simp)
    simpa using this
  obtain ⟨fuel', h1, h2⟩ := loop_pars C ⟨true, [], lit "execute", 0, [], decode code q⟩ (ps.map Par.opt) hq ht ps [] 0 ((decode code q).length + 1) c
    (by simp) hok (by omega)
  rw [h2]
  cases fuel' with
  | zero => omega
  | succ n =>
    rw [loop]
    rw [C17_number hq ht]
    simp

/-- Conversions for the examples: no text is a double. -/
def exConv : Conv := ⟨fun _ => none, fun _ => 0⟩

theorem exPars : ∀ p ∈ [Par.mk (lit "a") (lit "15") (.int 15), ⟨lit "b", lit "'x&y'", .str (lit "x&y")⟩, ⟨lit "a", lit "on", .str (lit "on")⟩],
    p.Ok exConv := by
  intro p hp
  simp only [List.mem_cons, List.not_mem_nil, or_false] at hp
  rcases hp with rfl | rfl | rfl
  · exact ⟨by decide, by decide, by decide, .nat (t := lit "15") ⟨by decide, by unfold isDigit; decide⟩ (by decide),
      .plain (by decide) (by decide) (by decide) (.plain (by decide) (by decide) (by decide) (.plain (by decide) (by decide) (by decide)
        (.plain (by decide) (by decide) (by decide) .nil)))⟩
  · exact ⟨by decide, by decide, by decide, .quoted (q := 39) (s := lit "x&y") (Or.inl rfl) (by decide) (by decide),
      .plain (by decide) (by decide) (by decide) (.plain (by decide) (by decide) (by decide)
        (.quoted (q := 39) (c := lit "x&y") (Or.inl rfl) (by decide) .nil))⟩
  · exact ⟨by decide, by decide, by decide, .word (b := 111) (s := lit "n") (by unfold Letter; decide) (by decide) (by decide) rfl,
      .plain (by decide) (by decide) (by decide) (.plain (by decide) (by decide) (by decide) (.plain (by decide) (by decide) (by decide)
        (.plain (by decide) (by decide) (by decide) .nil)))⟩

example : ∃ (q : List Byte) (ps : List Par), (∀ p ∈ ps, p.Ok exConv) ∧ decode code q = joined (ps.map Par.opt) ∧
    Without (lit "://") (lit "execute?" ++ q) ∧ last ps (lit "a") = some (.str (lit "on")) ∧ last ps (lit "b") = some (.str (lit "x&y")) := by
  refine ⟨lit "a=15&b=%27x&y%27&a=on", _, exPars, by decide, ?_, by decide, by decide⟩
  rintro ⟨a, b, e⟩
  have : (58 : Byte) ∈ lit "execute?" ++ lit "a=15&b=%27x&y%27&a=on" := by rw [← e]; simp [lit]
  revert this
  decide

/-- The parameter `tmout` sets the timeout of the command (10 seconds if it is no number), it is no field. -/
theorem C117_tmout (C : Conv) (c : Cmd) (q t : List Byte) (ht : OptText (lit "tmout=" ++ t)) (h0 : t ≠ []) (h37 : 37 ∉ t)
    (hh : t.head? ≠ some 39 ∧ t.head? ≠ some 34) (hq : decode code q = lit "tmout=" ++ t) (hw : Without (lit "://") (lit "execute?" ++ q)) :
    create C c q = some { c with timeout := some (C.dbl t) } := by
  unfold create
  rw [execute_url hw, Option.bind_some]
  simp only [if_true]
  have hlen : (decode code q).length = 6 + t.length := by rw [hq, List.length_append]; rfl
  have hj : (⟨true, [], lit "execute", 0, [], decode code q⟩ : Url.Url).options = joined [lit "tmout=" ++ t] := hq
  have htt : ∀ x ∈ [lit "tmout=" ++ t], OptText x := by intro x hx; rw [List.mem_singleton] at hx; rw [hx]; exact ht
  have hfind : find [61] (lit "tmout=" ++ t) = some 5 := find_single (b := 61) (a := lit "tmout") (by decide)
  have hpos := List.length_pos_iff.mpr h0
  rw [show (decode code q).length + 1 = (5 + t.length) + 1 + 1 by omega, loop, C17_number hj htt]
  have hne : (lit "tmout=" ++ t) ≠ [] := by intro e; have := congrArg List.length e; simp [lit] at this
  have hlt : (lit "tmout=" ++ t).length = 6 + t.length := by rw [List.length_append]; rfl
  show (if lit "tmout=" ++ t = [] then some c else match find [61] (lit "tmout=" ++ t) with
    | none => some c
    | some p => if p = 0 ∨ p = (lit "tmout=" ++ t).length - 1 then some c
      else (param C c ((lit "tmout=" ++ t).take p) ((lit "tmout=" ++ t).drop (p + 1))).bind
        (loop C ⟨true, [], lit "execute", 0, [], decode code q⟩ (5 + t.length + 1) (0 + 1))) = _
  rw [if_neg hne, hfind]
  dsimp only
  rw [if_neg (by omega)]
  have e1 : (lit "tmout=" ++ t).take 5 = lit "tmout" := rfl
  have e2 : (lit "tmout=" ++ t).drop (5 + 1) = t := rfl
  rw [e1, e2]
  have hp : param C c (lit "tmout") t = some { c with timeout := some (C.dbl t) } := by
    unfold param
    rw [replace_none h37]
    dsimp only
    rw [quoted_false hh]
    simp
  rw [hp, Option.bind_some, loop, C17_number hj htt]
  simp

example : OptText (lit "tmout=" ++ lit "5") :=
  .plain (by decide) (by decide) (by decide) (.plain (by decide) (by decide) (by decide) (.plain (by decide) (by decide) (by decide)
    (.plain (by decide) (by decide) (by decide) (.plain (by decide) (by decide) (by decide) (.plain (by decide) (by decide) (by decide)
      (.plain (by decide) (by decide) (by decide) .nil))))))

/-! ### Where the code does otherwise -/

/-- The first option without name or without value ends the parameters: whatever follows is lost. -/
theorem C117_stop_counterexample (C : Conv) (c : Cmd) (q : List Byte) (ps : List Par) (x : List Byte) (rest : List (List Byte))
    (hok : ∀ p ∈ ps, p.Ok C) (hq : decode code q = joined (ps.map Par.opt ++ x :: rest)) (hw : Without (lit "://") (lit "execute?" ++ q))
    (ht : ∀ y ∈ x :: rest, OptText y) (hx : 61 ∉ x ∨ ∃ n, 61 ∉ n ∧ x = n ++ [61]) :
    ∃ c', create C c q = some c' ∧ ∀ n, c'.get n = (last ps n).or (c.get n) := by
  refine ⟨apply c ps, ?_, fun n => (apply_get ps c n).1⟩
  unfold create
  rw [execute_url hw, Option.bind_some]
  simp only [if_true]
  have ht' : ∀ y ∈ ps.map Par.opt ++ x :: rest, OptText y := by
    intro y hy
    rcases List.mem_append.1 hy with h | h
    · obtain ⟨p, hp, rfl⟩ := List.mem_map.1 h
      exact (hok p hp).opt
    · exact ht y h
  have hlen : ps.length ≤ (decode code q).length := by
    rw [hq]
    have key : ∀ (l m : List (List Byte)), (joined l).length ≤ (joined (l ++ m)).length := by
      intro l m
      induction l with
      | nil => exact Nat.zero_le _
      | cons a l ih =>
        cases l with
        | nil =>
          cases m with
          | nil => simp
          | cons b m => simp only [joined, List.cons_append, List.nil_append, List.length_append]; omega
        | cons b l =>
          simp only [joined, List.cons_append, List.length_append] at *
          omega
    have h1 := key (ps.map Par.opt) (x :: rest)
    have h2 := joined_len (ps.map Par.opt) (by
      intro x hx
      obtain ⟨p, hp, rfl⟩ := List.mem_map.1 hx
      unfold Par.opt; simp)
    simp only [List.length_map] at h2
    omega
  obtain ⟨fuel', h1, h2⟩ := loop_pars C ⟨true, [], lit "execute", 0, [], decode code q⟩ (ps.map Par.opt ++ x :: rest) hq ht' ps (x :: rest) 0
    ((decode code q).length + 1) c (by simp) hok (by omega)
  rw [h2]
  cases fuel' with
  | zero => omega
  | succ n =>
    rw [loop]
    rw [C17_number hq ht']
    have hk : (ps.map Par.opt ++ x :: rest).getD (0 + ps.length) [] = x := by simp
    rw [hk]
    split
    · rfl
    · rcases hx with h | ⟨m, h, rfl⟩
      · rw [find_single_none h]
      · rw [find_single h]
        dsimp only
        rw [if_pos (Or.inr (by simp))]

example : 61 ∉ lit "verbose" ∧ OptText (lit "verbose") := by
  refine ⟨by decide, ?_⟩
  exact .plain (by decide) (by decide) (by decide) (.plain (by decide) (by decide) (by decide) (.plain (by decide) (by decide) (by decide)
    (.plain (by decide) (by decide) (by decide) (.plain (by decide) (by decide) (by decide) (.plain (by decide) (by decide) (by decide)
      (.plain (by decide) (by decide) (by decide) .nil))))))

/-- With `://` in any value all parameters are lost, as what is before it is taken for a protocol. -/
theorem C117_protocol_counterexample (C : Conv) (c : Cmd) : create C c (lit "a=1&f='http://h'&b=2") = some c := by
  have : setUrl (lit "execute?" ++ lit "a=1&f='http://h'&b=2") =
      some ⟨true, lit "execute?a=1&f='http", lit "h'&b=2", 0, [], []⟩ := by decide
  unfold create
  rw [this, Option.bind_some]
  simp only [if_true, List.length_nil, loop, getOption]
  simp

/-- Whole numbers outside of 32 bits are cut. -/
theorem C117_large_counterexample (C : Conv) (c : Cmd) (name t : List Byte) (hn : name ≠ lit "tmout") (h : Digits t) (hv : natVal t < 2 ^ 63) :
    ∃ c', param C c name t = some c' ∧ c'.get name = some (.int (BitVec.ofNat 32 (natVal t)).toInt) := by
  refine ⟨c.set name (.int (toInt32 (natVal t))), ?_, ?_⟩
  · unfold param
    rw [replace_none (digit_ne h (by decide))]
    dsimp only
    rw [quoted_false (digits_head h), strToInt_digits h hv]
    simp only [Bool.false_eq_true, if_false, if_neg hn]
  · rw [get_set, if_pos rfl]
    rfl

example : Digits (lit "4294967297") ∧ natVal (lit "4294967297") < 2 ^ 63 ∧ (BitVec.ofNat 32 (natVal (lit "4294967297"))).toInt = 1 :=
  ⟨⟨by decide, by unfold isDigit; decide⟩, by decide, by decide⟩

/-- A word which begins with digits becomes a number. -/
theorem C117_prefix_counterexample (C : Conv) (c : Cmd) : ∃ c', param C c (lit "file") (lit "12abc") = some c' ∧
    c'.get (lit "file") = some (.int 12) := by
  refine ⟨c.set (lit "file") (.int 12), ?_, by rw [get_set, if_pos rfl]⟩
  unfold param
  rw [replace_none (by decide)]
  dsimp only
  have h1 : quoted (lit "12abc") = false := by decide
  have h2 : strToInt 64 (lit "12abc") = .val 12 := by decide
  have h3 : lit "file" ≠ lit "tmout" := by decide
  have h4 : toInt32 12 = 12 := by decide
  rw [h1, h2]
  simp only [Bool.false_eq_true, if_false, if_neg h3, h4]

/-- Numbers in a list go through a double, so they have only its precision. -/
theorem C117_vector_counterexample (C : Conv) (c : Cmd) (name x : List Byte) (d : BitVec 64) (h : Digits x) (hv : natVal x < 2 ^ 63)
    (hd : C.dbl x = some d) : ∃ c', param C c name (39 :: (91 :: (x ++ [93]) ++ [39])) = some c' ∧ c'.get name = some (.ints [C.toInt d]) := by
  refine ⟨c.set name (.ints [C.toInt d]), ?_, by rw [get_set, if_pos rfl]⟩
  have h37 : (37 : Byte) ∉ 39 :: (91 :: (x ++ [93]) ++ [39]) := by
    simp only [List.cons_append, List.mem_cons, List.mem_append, List.not_mem_nil, or_false, not_or]
    exact ⟨by decide, by decide, ⟨digit_ne h (by decide), by decide⟩, by decide⟩
  have hb : TextForm.Spec.Body x [x] := by
    have he : TextForm.Spec.Elem x x := by
      refine .bare x h.1 ?_ ?_ ?_
      · intro b hb
        refine ⟨?_, ?_⟩
        · rintro rfl; exact digit_ne h (by decide) hb
        · rintro rfl; exact digit_ne h (by decide) hb
      · intro b hb
        have hm := List.mem_of_mem_head? hb
        refine ⟨?_, ?_, ?_⟩ <;> (rintro rfl; exact digit_ne h (by decide) hm)
      · intro e
        exact digit_ne h (b := 32) (by decide) (List.mem_of_getLast? e)
    have := TextForm.Spec.Body.one [] x x [] (by intro b hb; cases hb) (by intro b hb; cases hb) he
    simpa using this
  unfold param
  rw [replace_none h37]
  dsimp only
  rw [quoted_true (Or.inl rfl), if_pos rfl, List.tail_cons, List.dropLast_concat]
  have : vector C (91 :: (x ++ [93])) = some (.ints [C.toInt d]) := by
    unfold vector
    rw [TextForm.parse_body hb]
    have hs : strToInt 64 x = .val (natVal x) := strToInt_digits h hv
    simp only [ints, hs, hd]
    rfl
  rw [this]
  rfl

example : ∃ (C : Conv) (d : BitVec 64), Digits (lit "9007199254740993") ∧ natVal (lit "9007199254740993") < 2 ^ 63 ∧
    C.dbl (lit "9007199254740993") = some d ∧ C.toInt d = 9007199254740992 :=
  ⟨⟨fun _ => some 0, fun _ => 9007199254740992⟩, 0, ⟨by decide, by unfold isDigit; decide⟩, by decide, rfl, rfl⟩

end Verif.ExeCmd
