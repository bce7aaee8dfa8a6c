import Verif.Spec.TextForm

namespace Verif.TextForm
open Verif.Bytes Verif.Json Verif.Record Verif.Text Spec

theorem drop_spaces {a : List Byte} (ha : Spaces a) (c : Byte) (hc : c ≠ 32) (t : List Byte) :
    (a ++ c :: t).dropWhile (· = 32) = c :: t := by
  induction a with
  | nil => rw [List.nil_append, List.dropWhile_cons_of_neg (by rw [decide_eq_true_eq]; exact hc)]
  | cons x l ih =>
    have : x = 32 := ha x List.mem_cons_self
    subst this
    simp only [List.cons_append, List.dropWhile_cons, decide_true, if_true]
    exact ih fun b hb => ha b (List.mem_cons_of_mem _ hb)

theorem takeWhile_ne {q : Byte} {v rest : List Byte} (h : q ∉ v) :
    (v ++ q :: rest).takeWhile (· ≠ q) = v ∧ (v ++ q :: rest).dropWhile (· ≠ q) = q :: rest := by
  induction v with
  | nil => simp
  | cons x l ih =>
    have hx : x ≠ q := fun h' => h (by rw [h']; exact List.mem_cons_self)
    obtain ⟨h1, h2⟩ := ih fun h' => h (List.mem_cons_of_mem _ h')
    refine ⟨?_, ?_⟩
    · rw [List.cons_append, List.takeWhile_cons_of_pos (by simpa using hx), h1]
    · rw [List.cons_append, List.dropWhile_cons_of_pos (by simpa using hx), h2]

theorem takeWhile_stop {v rest : List Byte} {c : Byte} (h : ∀ b ∈ v, b ≠ 44 ∧ b ≠ 93) (hc : stop c = true) :
    (v ++ c :: rest).takeWhile (fun b => !stop b) = v ∧ (v ++ c :: rest).dropWhile (fun b => !stop b) = c :: rest := by
  induction v with
  | nil => simp [hc]
  | cons x l ih =>
    have hx : (!stop x) = true := by
      have := h x List.mem_cons_self
      unfold stop
      rw [Bool.not_eq_true', Bool.or_eq_false_iff, decide_eq_false_iff_not, decide_eq_false_iff_not]
      exact this
    obtain ⟨h1, h2⟩ := ih fun b hb => h b (List.mem_cons_of_mem _ hb)
    refine ⟨?_, ?_⟩
    · rw [List.cons_append, List.takeWhile_cons_of_pos (p := fun b => !stop b) hx, h1]
    · rw [List.cons_append, List.dropWhile_cons_of_pos (p := fun b => !stop b) hx, h2]

theorem trim_spaces {c : Byte} {r b : List Byte} (hb : Spaces b) (hl : (c :: r).getLast? ≠ some 32) :
    trim c (r ++ b) = c :: r := by
  unfold trim
  congr 1
  rw [List.reverse_append]
  have h1 : ∀ (x y : List Byte), Spaces x → (x ++ y).dropWhile (· = 32) = y.dropWhile (· = 32) := by
    intro x y hx
    induction x with
    | nil => rfl
    | cons z l ih =>
      have : z = 32 := hx z List.mem_cons_self
      subst this
      rw [List.cons_append, List.dropWhile_cons_of_pos (by simp)]
      exact ih fun b hb => hx b (List.mem_cons_of_mem _ hb)
  rw [h1 _ _ (fun x hx => hb x (List.mem_reverse.1 hx))]
  rcases List.eq_nil_or_concat r with h | ⟨l, x, h⟩
  · subst h; rfl
  · rw [List.concat_eq_append] at h
    subst h
    have hx : x ≠ 32 := by
      intro h'
      subst h'
      apply hl
      rw [← List.cons_append, List.getLast?_concat]
    rw [List.reverse_append, List.reverse_singleton, List.singleton_append, List.dropWhile_cons_of_neg (by simpa using hx)]
    simp

theorem elem_step {a t v b : List Byte} (ha : Spaces a) (hb : Spaces b) (h : Elem t v) {c : Byte} (hc : c = 44 ∨ c = 93)
    (rest : List Byte) (n : Nat) (acc : List (List Byte)) :
    loop (n + 1) (a ++ t ++ b ++ c :: rest) acc = if c = 93 then .yes (acc ++ [v]) else loop n rest (acc ++ [v]) := by
  have hc32 : c ≠ 32 := by rcases hc with h | h <;> subst h <;> decide
  have hnext : ∀ acc, next (loop n) (b ++ c :: rest) acc = if c = 93 then .yes acc else loop n rest acc := by
    intro acc
    unfold next
    rw [drop_spaces hb c hc32]
    dsimp only
    rcases hc with h | h
    · subst h; simp
    · subst h; simp
  -- the first character of the element
  have key : ∀ x r, t = x :: r → x ≠ 32 →
      loop (n + 1) (a ++ t ++ b ++ c :: rest) acc =
        (if x = 39 ∨ x = 34 then
          if x ∈ r ++ b ++ c :: rest then
            next (loop n) (((r ++ b ++ c :: rest).dropWhile (· ≠ x)).drop 1) (acc ++ [(r ++ b ++ c :: rest).takeWhile (· ≠ x)])
          else .no
        else if (r ++ b ++ c :: rest).any stop then
          next (loop n) ((r ++ b ++ c :: rest).dropWhile fun b => !stop b)
            (acc ++ [trim x ((r ++ b ++ c :: rest).takeWhile fun b => !stop b)])
        else .no) := by
    intro x r ht hx
    have hd : (a ++ t ++ b ++ c :: rest).dropWhile (· = 32) = x :: (r ++ b ++ c :: rest) := by
      have : a ++ t ++ b ++ c :: rest = a ++ x :: (r ++ b ++ c :: rest) := by rw [ht]; simp
      rw [this, drop_spaces ha x hx]
    cases hs : a ++ t ++ b ++ c :: rest with
    | nil => simp at hs
    | cons y s =>
      rw [hs] at hd
      unfold loop
      rw [hd]
  cases h with
  | quoted q _ hq hv =>
    have hq32 : q ≠ 32 := by rcases hq with h | h <;> subst h <;> decide
    rw [key q (v ++ [q]) rfl hq32, if_pos hq.symm]
    have e : v ++ [q] ++ b ++ c :: rest = v ++ q :: (b ++ c :: rest) := by simp
    rw [e]
    obtain ⟨h1, h2⟩ := takeWhile_ne (rest := b ++ c :: rest) hv
    rw [if_pos (by simp), h1, h2, List.drop_succ_cons, List.drop_zero, hnext]
  | bare _ h0 hcs h1 h2 =>
    cases t with
    | nil => exact absurd rfl h0
    | cons x r =>
      obtain ⟨hx1, hx2, hx3⟩ := h1 x rfl
      rw [key x r rfl hx1, if_neg (fun h => h.elim hx3 hx2)]
      have hcs' : stop c = true := by rcases hc with h | h <;> subst h <;> decide
      have e : r ++ b ++ c :: rest = (r ++ b) ++ c :: rest := rfl
      have hr : ∀ y ∈ r ++ b, y ≠ 44 ∧ y ≠ 93 := by
        intro y hy
        rcases List.mem_append.1 hy with h | h
        · exact hcs y (List.mem_cons_of_mem _ h)
        · rw [hb y h]; decide
      obtain ⟨h3, h4⟩ := takeWhile_stop (rest := rest) hr hcs'
      have hany : (r ++ b ++ c :: rest).any stop = true := by
        rw [List.any_append, List.any_cons, hcs']
        simp
      rw [if_pos hany, h3, h4, trim_spaces hb h2]
      have : next (loop n) (c :: rest) (acc ++ [x :: r]) = if c = 93 then .yes (acc ++ [x :: r]) else loop n rest (acc ++ [x :: r]) := by
        unfold next
        rw [List.dropWhile_cons_of_neg (by simpa using hc32)]
        dsimp only
        rcases hc with h | h
        · subst h; simp
        · subst h; simp
      exact this

theorem body_loop {t : List Byte} {l : List (List Byte)} (h : Body t l) :
    ∀ (n : Nat) (acc : List (List Byte)), t.length < n → loop n (t ++ [93]) acc = .yes (acc ++ l) := by
  induction h with
  | one a t v b ha hb he =>
    intro n acc hn
    cases n with
    | zero => omega
    | succ n =>
      rw [elem_step ha hb he (Or.inr rfl), if_pos rfl]
  | more a t v b rest l ha hb he hr ih =>
    intro n acc hn
    cases n with
    | zero => omega
    | succ n =>
      have e : a ++ t ++ b ++ 44 :: rest ++ [93] = a ++ t ++ b ++ 44 :: (rest ++ [93]) := by simp
      rw [e, elem_step ha hb he (Or.inl rfl), if_neg (by decide), ih n _ (by
        simp only [List.length_append, List.length_cons] at hn
        omega)]
      simp

theorem parse_body {t : List Byte} {l : List (List Byte)} (h : Body t l) : strToStrVect (91 :: (t ++ [93])) = .yes l := by
  unfold strToStrVect
  have h1 : ¬((91 :: (t ++ [93])).length < 2 ∨ (91 :: (t ++ [93])).head? ≠ some 91 ∨ (91 :: (t ++ [93])).getLast? ≠ some 93) := by
    have : (91 :: (t ++ [93]) : List Byte).getLast? = some 93 := by
      rw [← List.cons_append, List.getLast?_concat]
    rw [this]
    simp
  rw [if_neg h1, List.drop_succ_cons, List.drop_zero, body_loop h _ _ (by simp; omega)]
  simp

theorem plain_noneed {s : List Byte} (h : Plain s) : needReformat s = false := by
  unfold needReformat
  rw [List.any_eq_false]
  intro b hb
  obtain ⟨h1, h2, h3, h4, h5⟩ := h b hb
  have hi : b.toInt = b.toNat := by
    rw [BitVec.toInt_eq_toNat_cond]
    rw [if_pos (by omega)]
  have ne : ∀ k : Nat, k < 32 → b ≠ BitVec.ofNat 8 k := by
    intro k hk hb
    rw [hb, BitVec.toNat_ofNat] at h1
    omega
  have e10 := ne 10 (by omega)
  have e9 := ne 9 (by omega)
  have e8 := ne 8 (by omega)
  have e12 := ne 12 (by omega)
  have e13 := ne 13 (by omega)
  have l1 : ¬ b.toInt < 32 := by omega
  have l2 : ¬ b.toInt > 126 := by omega
  intro hh
  simp only [Bool.or_eq_true, decide_eq_true_eq] at hh
  rcases hh with ((((((((hh | hh) | hh) | hh) | hh) | hh) | hh) | hh) | hh) | hh
  · exact e10 hh
  · exact e9 hh
  · exact h3 hh
  · exact h4 hh
  · exact e8 hh
  · exact e12 hh
  · exact e13 hh
  · exact h5 hh
  · exact l1 hh
  · exact l2 hh

theorem quoted_elem {s : List Byte} (h : Plain s) : Elem (quoted s) s := by
  unfold quoted
  rw [if_neg (by rw [plain_noneed h]; simp)]
  exact Elem.quoted 34 s (Or.inl rfl) fun hm => (h 34 hm).2.2.1 rfl

theorem commas_body {l : List (List Byte)} (h0 : l ≠ []) (h : ∀ s ∈ l, Plain s) : Body (commas (l.map quoted)) l := by
  induction l with
  | nil => exact absurd rfl h0
  | cons s l ih =>
    have hs := quoted_elem (h s List.mem_cons_self)
    have nosp : Spaces [] := fun b hb => by simp at hb
    cases l with
    | nil =>
      have := Body.one [] (quoted s) s [] nosp nosp hs
      simpa [commas] using this
    | cons s2 l =>
      have hr := ih (by simp) fun x hx => h x (List.mem_cons_of_mem _ hx)
      have := Body.more [] (quoted s) s [] _ _ nosp nosp hs hr
      simpa [commas] using this

theorem bracket_parse {l : List (List Byte)} (h0 : l ≠ []) (h : ∀ s ∈ l, Plain s) :
    strToStrVect (bracket (l.map quoted)) = .yes l := by
  have := parse_body (commas_body h0 h)
  unfold bracket
  simpa using this

/-! ## Numbers -/

def DecText (t : List Byte) : Prop := t ≠ [] ∧ ∀ b ∈ t, 48 ≤ b.toNat ∧ b.toNat ≤ 57

theorem decNat_text (n : Nat) : DecText (decNat n) ∧ decVal (decNat n) = n := by
  induction n using Nat.strongRecOn with
  | ind n ih =>
    have dig : ∀ d, d < 10 → (BitVec.ofNat 8 (48 + d)).toNat = 48 + d := by
      intro d hd
      rw [BitVec.toNat_ofNat]
      omega
    unfold decNat
    by_cases h : n < 10
    · rw [if_pos h]
      refine ⟨⟨by simp, ?_⟩, ?_⟩
      · intro b hb
        rw [List.mem_singleton.1 hb, dig n h]
        omega
      · unfold decVal
        simp only [List.foldl_cons, List.foldl_nil, dig n h]
        omega
    · rw [if_neg h]
      obtain ⟨⟨h1, h2⟩, h3⟩ := ih (n / 10) (by omega)
      refine ⟨⟨by simp, ?_⟩, ?_⟩
      · intro b hb
        rcases List.mem_append.1 hb with hb | hb
        · exact h2 b hb
        · rw [List.mem_singleton.1 hb, dig _ (by omega)]
          omega
      · unfold decVal at h3 ⊢
        rw [List.foldl_append, h3]
        simp only [List.foldl_cons, List.foldl_nil, dig (n % 10) (by omega)]
        omega

theorem dec_isDec {b : Byte} (h : 48 ≤ b.toNat ∧ b.toNat ≤ 57) : isDec b = true := by
  unfold isDec
  simp [h.1, h.2]

theorem takeWhile_all {p : Byte → Bool} {l : List Byte} (h : ∀ b ∈ l, p b = true) : l.takeWhile p = l := by
  induction l with
  | nil => rfl
  | cons x l ih =>
    rw [List.takeWhile_cons_of_pos (h x List.mem_cons_self), ih fun b hb => h b (List.mem_cons_of_mem _ hb)]

theorem byte_ne {b : Byte} {k : Nat} (hk : k < 256) (h : b.toNat ≠ k) : b ≠ BitVec.ofNat 8 k := by
  intro h'
  rw [h', BitVec.toNat_ofNat] at h
  omega

/-- The text of a number: it is looked at as a whole, has no exponent and is not hexadecimal. -/
theorem number_start {t : List Byte} (h : DecText t) (m : List Byte) (hm : m = [] ∨ m = [45]) :
    start (m ++ t) = m ++ t ∧ hexPrefix (m ++ t) = false ∧ (m ++ t).any floatChar = false ∧ m ++ t ≠ [] ∧
      scanDec (m ++ t) = some (decide (m ≠ []), decVal t) := by
  obtain ⟨h0, h1⟩ := h
  cases ht : t with
  | nil => exact absurd ht h0
  | cons x r =>
  rw [ht] at h1
  have hx := h1 x List.mem_cons_self
  have hmem : ∀ b ∈ m ++ x :: r, b.toNat = 45 ∨ (48 ≤ b.toNat ∧ b.toNat ≤ 57) := by
    intro b hb
    rcases List.mem_append.1 hb with hb | hb
    · rcases hm with hm | hm
      · rw [hm] at hb; simp at hb
      · rw [hm] at hb
        rw [List.mem_singleton.1 hb]
        exact Or.inl rfl
    · exact Or.inr (h1 b hb)
  have hcs : cstr (m ++ x :: r) = m ++ x :: r := by
    unfold cstr
    refine takeWhile_all fun b hb => ?_
    have h2 : b.toNat ≠ 0 := by have := hmem b hb; omega
    simpa using byte_ne (by omega) h2
  have hfirst : ∀ y s, m ++ x :: r = y :: s → y.toNat = 45 ∨ (48 ≤ y.toNat ∧ y.toNat ≤ 57) := by
    intro y s hs
    exact hmem y (by rw [hs]; exact List.mem_cons_self)
  have hst : start (m ++ x :: r) = m ++ x :: r := by
    unfold start
    rw [hcs]
    cases hs : m ++ x :: r with
    | nil => rfl
    | cons y s =>
      have h2 : y ≠ 32 := byte_ne (k := 32) (by omega) (by have := hfirst y s hs; omega)
      rw [List.dropWhile_cons_of_neg (by simpa using h2)]
  refine ⟨hst, ?_, ?_, by simp, ?_⟩
  · cases hh : hexPrefix (m ++ x :: r) with
    | false => rfl
    | true =>
      unfold hexPrefix at hh
      split at hh
      · rename_i y z w heq
        have hy : y ∈ m ++ x :: r := by rw [heq]; simp
        have := hmem y hy
        simp only [Bool.or_eq_true, decide_eq_true_eq] at hh
        rcases hh with hh | hh
        · rw [hh] at this; simp at this
        · rw [hh] at this; simp at this
      · exact hh.symm
  · rw [List.any_eq_false]
    intro b hb
    have hb' := hmem b hb
    unfold floatChar
    have e1 : b ≠ 46 := byte_ne (k := 46) (by omega) (by omega)
    have e2 : b ≠ 44 := byte_ne (k := 44) (by omega) (by omega)
    have e3 : b ≠ 101 := byte_ne (k := 101) (by omega) (by omega)
    have e4 : b ≠ 69 := byte_ne (k := 69) (by omega) (by omega)
    rw [Bool.not_eq_true]
    simp only [Bool.or_eq_false_iff, decide_eq_false_iff_not]
    exact ⟨⟨⟨e1, e2⟩, e3⟩, e4⟩
  · have hdw : (m ++ x :: r).dropWhile isSpace = m ++ x :: r := by
      cases hs : m ++ x :: r with
      | nil => rfl
      | cons y s =>
        have h2 := hfirst y s hs
        have h3 : y ≠ 32 := byte_ne (k := 32) (by omega) (by omega)
        rw [List.dropWhile_cons_of_neg]
        unfold isSpace
        simp only [Bool.or_eq_true, decide_eq_true_eq, Bool.and_eq_true]
        rintro (h4 | h4)
        · exact h3 h4
        · omega
    have htw : (x :: r).takeWhile isDec = x :: r := takeWhile_all fun b hb => dec_isDec (h1 b hb)
    unfold scanDec
    rw [hdw]
    rcases hm with hm | hm
    · subst hm
      have e1 : x ≠ 45 := byte_ne (k := 45) (by omega) (by omega)
      have e2 : x ≠ 43 := byte_ne (k := 43) (by omega) (by omega)
      have hsg : sign ([] ++ x :: r) = (false, x :: r) := by
        show (if x = 45 then _ else _) = _
        rw [if_neg e1, if_neg e2]
      rw [hsg]
      dsimp only
      rw [htw, if_neg (by simp)]
      simp
    · subst hm
      have hsg : sign ([45] ++ x :: r) = (true, x :: r) := by
        rfl
      rw [hsg]
      dsimp only
      rw [htw, if_neg (by simp)]
      simp

theorem strToInt_dec (v : Word) : strToInt 64 (decInt v.toInt) = .val v.toInt := by
  have hr : -(2 ^ 63 : Int) ≤ v.toInt ∧ v.toInt < 2 ^ 63 := ⟨BitVec.le_toInt v, BitVec.toInt_lt⟩
  obtain ⟨h1, h2⟩ := decNat_text v.toInt.natAbs
  have key : ∀ m : List Byte, (m = [] ∨ m = [45]) → decInt v.toInt = m ++ decNat v.toInt.natAbs →
      (if m ≠ [] then -(v.toInt.natAbs : Int) else v.toInt.natAbs) = v.toInt → strToInt 64 (decInt v.toInt) = .val v.toInt := by
    intro m hm he hv
    obtain ⟨a1, a2, a3, a4, a5⟩ := number_start h1 m hm
    unfold strToInt
    rw [he]
    simp only [a1]
    rw [if_neg a4, a2, a3]
    simp only [Bool.false_eq_true, if_false]
    unfold scanInt
    rw [a5, h2]
    simp only [decide_eq_true_eq]
    rw [hv]
    rw [if_pos (by simpa using hr)]
  unfold decInt at key ⊢
  by_cases hneg : v.toInt < 0
  · rw [if_pos hneg] at key ⊢
    exact key [45] (Or.inr rfl) rfl (by simp; omega)
  · rw [if_neg hneg] at key ⊢
    exact key [] (Or.inl rfl) rfl (by simp; omega)

theorem strToUint_dec (v : Word) : strToUint 64 (decNat v.toNat) = .val v.toNat := by
  obtain ⟨h1, h2⟩ := decNat_text v.toNat
  obtain ⟨a1, a2, a3, a4, a5⟩ := number_start h1 [] (Or.inl rfl)
  simp only [List.nil_append] at a1 a2 a3 a4 a5
  unfold strToUint
  simp only [a1]
  rw [if_neg a4, a2, a3]
  simp only [Bool.false_eq_true, if_false]
  unfold scanUint
  rw [a5, h2]
  have := v.isLt
  simp only [ne_eq, not_true_eq_false, decide_false, Bool.false_eq_true, if_false]
  rw [if_pos this]

theorem decNat_plain (n : Nat) : Plain (decNat n) := by
  intro b hb
  have h := (decNat_text n).1.2 b hb
  refine ⟨by omega, by omega, ?_, ?_, ?_⟩
  · exact byte_ne (k := 34) (by omega) (by omega)
  · exact byte_ne (k := 92) (by omega) (by omega)
  · exact byte_ne (k := 47) (by omega) (by omega)

theorem decInt_plain (v : Int) : Plain (decInt v) := by
  unfold decInt
  split
  · intro b hb
    rcases List.mem_cons.1 hb with h | h
    · rw [h]; decide
    · exact decNat_plain _ b h
  · exact decNat_plain _

theorem scanAll_map {f : List Byte → Scan} {g : Word → List Byte} {k : Word → Int} (h : ∀ v, f (g v) = .val (k v))
    (hk : ∀ v, BitVec.ofInt 64 (k v) = v) (l : List Word) : scanAll f (l.map g) = some l := by
  induction l with
  | nil => rfl
  | cons v l ih =>
    show (match f (g v), scanAll f (l.map g) with
      | .undef, _ => none
      | _, none => none
      | .fail, some r => some r
      | .val v, some r => some (BitVec.ofInt 64 v :: r)) = _
    rw [h, ih, ]
    dsimp only
    rw [hk]

/-! ## Nothing is read behind the string -/

theorem dropWhile_nil {s : List Byte} (h : s.dropWhile (· = 32) = []) : ∀ y ∈ s, y = 32 := by
  induction s with
  | nil => intro y hy; cases hy
  | cons x l ih =>
    by_cases hx : x = 32
    · rw [List.dropWhile_cons_of_pos (by rw [decide_eq_true_eq]; exact hx)] at h
      intro y hy
      rcases List.mem_cons.1 hy with h' | h'
      · rw [h', hx]
      · exact ih h y h'
    · rw [List.dropWhile_cons_of_neg (by rw [decide_eq_true_eq]; exact hx)] at h
      cases h

theorem loop_next_safe {n : Nat} {q : List Byte} {acc : List (List Byte)}
    (h : ∀ t acc, (∃ u, q = u ++ 44 :: t) → loop n t acc ≠ .outside) : next (loop n) q acc ≠ .outside := by
  unfold next
  split
  · simp
  · rename_i c t heq
    split
    · simp
    · split
      · rename_i hc
        subst hc
        refine h t acc ⟨q.takeWhile (· = 32), ?_⟩
        rw [← heq]
        exact (List.takeWhile_append_dropWhile).symm
      · simp

theorem loop_safe : ∀ (n : Nat) (s : List Byte) (acc : List (List Byte)), s.length < n → (s = [] ∨ s.getLast? = some 93) →
    loop n s acc ≠ .outside
  | 0, s, acc, hn, _ => by omega
  | n + 1, s, acc, hn, hl => by
    cases s with
    | nil => simp [loop]
    | cons b s =>
      have hl : (b :: s).getLast? = some 93 := hl.resolve_left (by simp)
      have sub : ∀ t u v, (b :: s) = v ++ u → ∀ w, u = w ++ 44 :: t → ∀ acc, loop n t acc ≠ .outside := by
        intro t u v h1 w h2 acc
        have hlen : (b :: s).length = v.length + (w.length + (t.length + 1)) := by rw [h1, h2]; simp
        refine loop_safe n t acc (by omega) ?_
        cases ht : t with
        | nil => exact Or.inl rfl
        | cons y t' =>
          right
          have : (b :: s) = (v ++ w ++ [44]) ++ t := by rw [h1, h2]; simp
          rw [this, List.getLast?_append, ht] at hl
          cases hx : (y :: t').getLast? with
          | none => simp at hx
          | some z =>
            rw [hx] at hl
            simpa using hl
      unfold loop
      split
      · rename_i heq
        have hall : ∀ y ∈ b :: s, y = 32 := by
          intro y hy
          exact dropWhile_nil heq y hy
        have := hall 93 (List.mem_of_getLast? hl)
        exact absurd this (by decide)
      · rename_i c r heq
        have hpre : b :: s = (b :: s).takeWhile (· = 32) ++ c :: r := by
          rw [← heq]
          exact (List.takeWhile_append_dropWhile).symm
        split
        · split
          · refine loop_next_safe fun t acc hu => ?_
            obtain ⟨u, hu⟩ := hu
            have h2 : r = r.takeWhile (· ≠ c) ++ r.dropWhile (· ≠ c) := (List.takeWhile_append_dropWhile).symm
            have h3 : r.dropWhile (· ≠ c) = (r.dropWhile (· ≠ c)).take 1 ++ (r.dropWhile (· ≠ c)).drop 1 :=
              (List.take_append_drop ..).symm
            refine sub t ((r.dropWhile (· ≠ c)).drop 1)
              ((b :: s).takeWhile (· = 32) ++ c :: (r.takeWhile (· ≠ c) ++ (r.dropWhile (· ≠ c)).take 1)) ?_ u hu acc
            conv => lhs; rw [hpre]
            rw [List.append_assoc, List.cons_append, List.append_assoc, ← h3, ← h2]
          · simp
        · split
          · refine loop_next_safe fun t acc hu => ?_
            obtain ⟨u, hu⟩ := hu
            have h2 : r = r.takeWhile (fun b => !stop b) ++ r.dropWhile (fun b => !stop b) :=
              (List.takeWhile_append_dropWhile).symm
            refine sub t (r.dropWhile fun b => !stop b)
              ((b :: s).takeWhile (· = 32) ++ c :: r.takeWhile fun b => !stop b) ?_ u hu acc
            conv => lhs; rw [hpre]
            rw [List.append_assoc, List.cons_append, ← h2]
          · simp

end Verif.TextForm
