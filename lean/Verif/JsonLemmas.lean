import Verif.Spec.Json

/-! # Lemmas about JSON output -/

namespace Verif.Json
open Verif.Bytes Verif.Record

/-! ## Characters -/

/-- Simple escape. -/
def simple (e : Byte) : Option Nat :=
  if e = 34 then some 34 else if e = 92 then some 92 else if e = 47 then some 47 else if e = 98 then some 8 else if e = 102 then some 12
      else if e = 110 then some 10 else if e = 114 then some 13 else if e = 116 then some 9 else none

theorem decode_plain {b : Byte} {rest : List Byte} (h : 32 ≤ b.toNat ∧ b.toNat < 128 ∧ b ≠ 34 ∧ b ≠ 92) :
    decodeChars (b :: rest) = (decodeChars rest).map (b.toNat :: ·) := by
  rw [decodeChars.eq_4]
  · rw [if_pos h]
  · intro _ _ _ _ _ hb; exact absurd hb h.2.2.2
  · intro _ _ hb; exact absurd hb h.2.2.2

theorem decode_simple {e : Byte} {x : Nat} {rest : List Byte} (h : simple e = some x) : decodeChars (92 :: e :: rest) = (decodeChars rest).map (x :: ·) := by
  have hne : e ≠ 117 := by
    intro he; subst he; simp [simple] at h
  show decodeChars (92#8 :: e :: rest) = _
  rw [decodeChars.eq_3]
  · unfold simple at h
    simp only [h]
    cases decodeChars rest <;> rfl
  · intro _ _ _ _ _ he; exact absurd he hne

theorem decode_u {a b c d : Byte} {x1 x2 x3 x4 : Nat} {rest : List Byte} (h1 : hexVal a = some x1) (h2 : hexVal b = some x2) (h3 : hexVal c = some x3)
    (h4 : hexVal d = some x4) :
    decodeChars (92 :: 117 :: a :: b :: c :: d :: rest) = (decodeChars rest).map ((x1 * 4096 + x2 * 256 + x3 * 16 + x4) :: ·) := by
  show decodeChars (92#8 :: 117#8 :: a :: b :: c :: d :: rest) = _
  rw [decodeChars.eq_2, h1, h2, h3, h4]
  cases decodeChars rest <;> rfl

/-- The three forms of an escaped character. -/
def escOK (x : Byte) : Bool :=
  match esc x with
  | [b] => b = x && 32 ≤ b.toNat && b.toNat < 128 && b ≠ 34 && b ≠ 92
  | [92, e] => simple e = some x.toNat
  | [92, 117, a, b, c, d] => match hexVal a, hexVal b, hexVal c, hexVal d with
    | some a, some b, some c, some d => a * 4096 + b * 256 + c * 16 + d = x.toNat
    | _, _, _, _ => false
  | _ => false

set_option maxRecDepth 10000 in
theorem escOK_all : ∀ x : Fin 128, escOK (BitVec.ofNat 8 x.val) = true := by decide

theorem decode_esc {x : Byte} (hx : x.toNat < 128) (rest : List Byte) : decodeChars (esc x ++ rest) = (decodeChars rest).map (x.toNat :: ·) := by
  have h := escOK_all ⟨x.toNat, hx⟩
  simp only [BitVec.ofNat_toNat, BitVec.setWidth_eq] at h
  unfold escOK at h
  split at h
  · rename_i b he
    rw [he]
    simp only [Bool.and_eq_true, decide_eq_true_eq] at h
    obtain ⟨⟨⟨⟨h1, h2⟩, h3⟩, h4⟩, h5⟩ := h
    subst h1
    exact decode_plain ⟨h2, h3, h4, h5⟩
  · rename_i e he
    rw [he]
    exact decode_simple (by simpa using h)
  · rename_i a b c d he
    rw [he]
    split at h
    · rename_i x1 x2 x3 x4 h1 h2 h3 h4
      rw [← (by simpa using h : x1 * 4096 + x2 * 256 + x3 * 16 + x4 = x.toNat)]
      exact decode_u h1 h2 h3 h4
    · cases h
  · cases h

theorem decode_reformat {s : List Byte} (h : Ascii s) : decodeChars (reformat s) = some (chars s) := by
  induction s with
  | nil => rfl
  | cons x s ih =>
    have : reformat (x :: s) = esc x ++ reformat s := rfl
    rw [this, decode_esc (h x (by simp)), ih (fun b hb => h b (by simp [hb]))]
    rfl

theorem decode_printable {s : List Byte} (h : Printable s) : decodeChars s = some (chars s) := by
  induction s with
  | nil => rfl
  | cons x s ih =>
    rw [decode_plain (h x (by simp)), ih (fun b hb => h b (by simp [hb]))]
    rfl

set_option maxRecDepth 10000 in
theorem needs_all : ∀ x : Fin 256, let b := BitVec.ofNat 8 x.val;
    needReformat [b] = false → 32 ≤ b.toNat ∧ b.toNat < 128 ∧ b ≠ 34 ∧ b ≠ 92 := by decide

theorem not_need {s : List Byte} (h : needReformat s = false) : Printable s := by
  intro b hb
  have h2 := needs_all ⟨b.toNat, b.isLt⟩
  simp only [BitVec.ofNat_toNat, BitVec.setWidth_eq] at h2
  apply h2
  have := List.any_eq_false.mp h b hb
  unfold needReformat
  simpa using this

/-- A string in quotes is a JSON string. -/
theorem quoted_json {s : List Byte} (h : Ascii s) : IsJson (quoted s) (.str (chars s)) := by
  unfold quoted
  cases hn : needReformat s with
  | true => exact .str (decode_reformat h)
  | false => exact .str (decode_printable (not_need hn))

/-! ## Numbers -/

theorem ofNat_digit {d : Nat} (h : d < 10) : (BitVec.ofNat 8 (48 + d)).toNat = 48 + d := by
  rw [BitVec.toNat_ofNat]; omega

theorem decNat_spec (n : Nat) : Digits (decNat n) ∧ natVal (decNat n) = n ∧ (decNat n = [48] ∨ (decNat n).head? ≠ some 48) ∧ (0 < n → (decNat n).head? ≠ some 48) := by
  induction n using Nat.strongRecOn with
  | ind n ih =>
    rw [decNat]
    by_cases h : n < 10
    · rw [if_pos h]
      have hd := ofNat_digit h
      refine ⟨⟨by simp, ?_⟩, ?_, ?_, ?_⟩
      · intro b hb
        simp only [List.mem_singleton] at hb
        subst hb
        unfold isDigit
        omega
      · simp only [natVal, List.foldl_cons, List.foldl_nil, hd]; omega
      · by_cases h0 : n = 0
        · left; subst h0; rfl
        · right
          simp only [List.head?_cons, ne_eq, Option.some.injEq]
          intro e
          have := congrArg BitVec.toNat e
          rw [hd] at this
          have h48 : (48 : Byte).toNat = 48 := rfl
          omega
      · intro h0
        simp only [List.head?_cons, ne_eq, Option.some.injEq]
        intro e
        have := congrArg BitVec.toNat e
        rw [hd] at this
        have h48 : (48 : Byte).toNat = 48 := rfl
        omega
    · rw [if_neg h]
      obtain ⟨⟨a1, a2⟩, b, c, d⟩ := ih (n / 10) (by omega)
      have hd := ofNat_digit (d := n % 10) (by omega)
      have hh : (decNat (n / 10) ++ [BitVec.ofNat 8 (48 + n % 10)]).head? = (decNat (n / 10)).head? := by
        cases hq : decNat (n / 10) with
        | nil => exact absurd hq a1
        | cons x l => rfl
      refine ⟨⟨by simp, ?_⟩, ?_, ?_, ?_⟩
      · intro x hx
        rw [List.mem_append, List.mem_singleton] at hx
        rcases hx with hx | rfl
        · exact a2 x hx
        · unfold isDigit; omega
      · unfold natVal at b ⊢
        rw [List.foldl_append, b]
        simp only [List.foldl_cons, List.foldl_nil, hd]
        omega
      · right; rw [hh]; exact d (by omega)
      · intro _; rw [hh]; exact d (by omega)

theorem digits_head {t : List Byte} (h : Digits t) : t.head? ≠ some 45 := by
  cases t with
  | nil => simp
  | cons x l =>
    simp only [List.head?_cons, ne_eq, Option.some.injEq]
    intro e
    have := h.2 x (by simp)
    rw [e] at this
    have h45 : (45 : Byte).toNat = 45 := rfl
    unfold isDigit at this
    omega

theorem intVal_digits {t : List Byte} (h : Digits t) : intVal t = natVal t := by
  unfold intVal
  split
  · rename_i l
    exact absurd rfl (digits_head h)
  · rfl

theorem decNat_num (n : Nat) : JNum (decNat n) ∧ intVal (decNat n) = n := by
  obtain ⟨h1, h2, h3, _⟩ := decNat_spec n
  exact ⟨⟨[], decNat n, [], [], by simp, Or.inl rfl, h1, h3, Or.inl rfl, Or.inl rfl⟩, by rw [intVal_digits h1, h2]⟩

theorem decInt_num (v : Int) : JNum (decInt v) ∧ intVal (decInt v) = v := by
  unfold decInt
  by_cases h : v < 0
  · rw [if_pos h]
    obtain ⟨h1, h2, h3, _⟩ := decNat_spec v.natAbs
    refine ⟨⟨[45], decNat v.natAbs, [], [], by simp, Or.inr rfl, h1, h3, Or.inl rfl, Or.inl rfl⟩, ?_⟩
    show -((natVal (decNat v.natAbs) : Nat) : Int) = v
    rw [h2]; omega
  · rw [if_neg h]
    obtain ⟨h1, h2⟩ := decNat_num v.natAbs
    exact ⟨h1, by rw [h2]; omega⟩

/-! ## Arrays -/

theorem ws_nil : Ws [] := by intro b hb; cases hb

theorem bracket_json {α : Type} {f : α → List Byte} {g : α → JV} {l : List α} (h : ∀ x ∈ l, IsJson (f x) (g x)) :
    IsJson (bracket (l.map f)) (.arr (l.map g)) := by
  unfold bracket
  cases l with
  | nil => exact .arr0 ws_nil
  | cons x l =>
    refine .arr ?_
    induction l generalizing x with
    | nil =>
      have := IsElems.one ws_nil (h x (by simp)) ws_nil
      simpa [commas] using this
    | cons y l ih =>
      have := IsElems.cons ws_nil (h x (by simp)) ws_nil (ih y (fun z hz => h z (List.mem_cons_of_mem _ hz)))
      simpa [commas] using this

theorem asJson_means {F : Fmt} {v : Val} (h : Writable F v) : ∃ j, Means F v j ∧ IsJson (asJson F v) j := by
  cases v with
  | none => exact ⟨_, rfl, .null⟩
  | bool w =>
    refine ⟨_, rfl, ?_⟩
    rw [asJson]
    by_cases hw : w = 0
    · subst hw; exact .false
    · rw [if_pos hw]
      have : (w != 0) = true := by simpa using hw
      rw [this]; exact .true
  | int w => exact ⟨.num _, ⟨_, rfl, (decInt_num w.toInt).2⟩, .num (decInt_num w.toInt).1⟩
  | datime w =>
    refine ⟨_, rfl, ?_⟩
    unfold asJson
    by_cases hw : F.date w = []
    · simp only [hw, if_true, ne_eq, not_true, if_false]; exact .null
    · simp only [hw, if_false, ne_eq, not_false_eq_true, if_true]
      exact .str (decode_printable h)
  | uint w => exact ⟨.num _, ⟨_, rfl, (decNat_num w.toNat).2⟩, .num (decNat_num w.toNat).1⟩
  | double w => exact ⟨_, rfl, .num h⟩
  | arrint l =>
    refine ⟨_, ⟨l.map fun v => decInt v.toInt, rfl, ?_⟩, ?_⟩
    · rw [List.map_map]
      apply List.map_congr_left
      intro w _
      exact (decInt_num w.toInt).2
    · rw [List.map_map]
      exact bracket_json (fun w _ => .num (decInt_num w.toInt).1)
  | arruint l =>
    refine ⟨_, ⟨l.map fun v => decNat v.toNat, rfl, ?_⟩, ?_⟩
    · rw [List.map_map]
      apply List.map_congr_left
      intro w _
      exact (decNat_num w.toNat).2
    · rw [List.map_map]
      exact bracket_json (fun w _ => .num (decNat_num w.toNat).1)
  | arrdouble l => exact ⟨_, rfl, bracket_json (fun w hw => .num (h w hw))⟩
  | str s => exact ⟨_, rfl, quoted_json h⟩
  | arrstr l => exact ⟨_, rfl, bracket_json (fun s hs => quoted_json (h s hs))⟩
  | buffer b => exact absurd h (by simp [Writable])
  | reference n =>
    refine ⟨_, rfl, ?_⟩
    cases n with
    | true => exact .null
    | false => exact IsJson.str (t := lit "<Refernce>") (decode_printable (by unfold Printable; decide))
  | other k => exact ⟨_, rfl, .null⟩

end Verif.Json
