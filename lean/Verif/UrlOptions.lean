import Verif.UrlParse

/-! # Lemmas on the options -/

namespace Verif.Url
open Verif.Bytes Verif.Json Verif.Text

theorem partLen_q1 : ∀ {c t : List Byte} (sp : Bool), 39 ∉ c → partLen true false sp (c ++ 39 :: t) = c.length + 1 + partLen false false false t
  | [], t, sp, _ => by
    simp [partLen]
  | b :: c, t, sp, h => by
    simp only [List.mem_cons, not_or] at h
    have hb : b ≠ 39 := fun e => h.1 e.symm
    rw [List.cons_append, partLen]
    by_cases h92 : b = 92
    · subst h92
      simp only [Bool.true_or, decide_true, Bool.and_self, if_true]
      rw [partLen_q1 _ h.2, List.length_cons]; omega
    · have e1 : decide (b = (92 : Byte)) = false := decide_eq_false h92
      have e2 : decide (b = (39 : Byte)) = false := decide_eq_false hb
      simp only [e1, e2, Bool.and_false, Bool.true_or, if_true, Bool.false_eq_true, if_false, Bool.not_true, Bool.false_and, Bool.and_false]
      rw [partLen_q1 _ h.2, List.length_cons]; omega

theorem partLen_q2 : ∀ {c t : List Byte} (sp : Bool), 34 ∉ c → partLen false true sp (c ++ 34 :: t) = c.length + 1 + partLen false false false t
  | [], t, sp, _ => by
    simp [partLen]
  | b :: c, t, sp, h => by
    simp only [List.mem_cons, not_or] at h
    have hb : b ≠ 34 := fun e => h.1 e.symm
    rw [List.cons_append, partLen]
    by_cases h92 : b = 92
    · subst h92
      simp only [Bool.or_true, decide_true, Bool.and_self, if_true]
      rw [partLen_q2 _ h.2, List.length_cons]; omega
    · have e1 : decide (b = (92 : Byte)) = false := decide_eq_false h92
      have e2 : decide (b = (34 : Byte)) = false := decide_eq_false hb
      simp only [e1, e2, Bool.and_false, Bool.or_true, if_true, Bool.false_eq_true, if_false, Bool.not_true, Bool.false_and, Bool.and_false]
      rw [partLen_q2 _ h.2, List.length_cons]; omega

theorem partLen_part {p r : List Byte} (h : OptText p) (hr : r = [] ∨ ∃ r', r = 38 :: r') : partLen false false false (p ++ r) = p.length := by
  induction h with
  | nil =>
    rcases hr with rfl | ⟨r', rfl⟩
    · rfl
    · simp [partLen]
  | @plain b t h1 h2 h3 _ ih =>
    rw [List.cons_append, partLen]
    have e1 : decide (b = (39 : Byte)) = false := decide_eq_false h1
    have e2 : decide (b = (34 : Byte)) = false := decide_eq_false h2
    have e3 : decide (b = (38 : Byte)) = false := decide_eq_false h3
    simp only [e1, e2, e3, Bool.or_self, Bool.false_and, Bool.and_false, Bool.false_eq_true, if_false, ih, List.length_cons]
    omega
  | @quoted q c t hq hc _ ih =>
    rw [List.cons_append, List.append_assoc, List.cons_append, partLen]
    rcases hq with rfl | rfl
    · have e := partLen_q1 (t := t ++ r) false hc
      rw [ih] at e
      simp
      refine Eq.trans (congrArg (1 + ·) e) ?_
      omega
    · have e := partLen_q2 (t := t ++ r) false hc
      rw [ih] at e
      simp
      refine Eq.trans (congrArg (1 + ·) e) ?_
      omega

/-- Value of one option if it has the name. -/
def optVal (name p : List Byte) : Option (List Byte) :=
  if name.isPrefixOf p then
    match p.drop name.length with
    | [] => some []
    | b :: v => if b = 61 then some (unquote v) else none
  else none

theorem optLoop_nil (name : List Byte) (num : Int) (cnt : Nat) : optLoop name num cnt [] = none := by
  rw [optLoop]; simp

theorem optLoop_name {name p r : List Byte} {num : Int} {cnt : Nat} (h : OptText p) (hr : r = [] ∨ ∃ r', r = 38 :: r') (hn : num < 0) (hne : p ++ r ≠ []) :
    optLoop name num cnt (p ++ r) = (optVal name p).or (optLoop name num cnt (r.drop 1)) := by
  rw [optLoop, dif_neg hne]
  dsimp only
  rw [partLen_part h hr, if_neg (by omega)]
  have ed : List.drop (p.length + 1) (p ++ r) = r.drop 1 := by
    rw [List.drop_append]; simp
  have et : List.take p.length (p ++ r) = p := List.take_left
  rw [ed, et]
  unfold optVal
  by_cases hp : name.isPrefixOf p = true
  · have hp' := List.isPrefixOf_iff_prefix.mp hp
    have hl := hp'.length_le
    obtain ⟨t, rfl⟩ := hp'
    have e1 : List.take name.length (name ++ t ++ r) = name := by rw [List.append_assoc]; exact List.take_left
    rw [if_pos ⟨hl, e1⟩, hp, if_pos rfl, List.drop_left]
    cases t with
    | nil => rfl
    | cons b v =>
      dsimp only
      by_cases hb : b = 61
      · rw [if_pos hb, if_pos hb]; rfl
      · rw [if_neg hb, if_neg hb]; rfl
  · rw [if_neg hp, if_neg]
    · rfl
    · rintro ⟨hl, he⟩
      apply hp
      rw [List.isPrefixOf_iff_prefix]
      rw [List.take_append_of_le_length hl] at he
      exact ⟨p.drop name.length, (congrArg (· ++ List.drop name.length p) he.symm).trans (List.take_append_drop name.length p)⟩

theorem optVal_nil {name : List Byte} (h : name ≠ []) : optVal name [] = none := by
  unfold optVal
  cases name with
  | nil => exact absurd rfl h
  | cons a l => rfl

theorem optLoop_find {name : List Byte} {num : Int} (hn : num < 0) (hname : name ≠ []) (cnt : Nat) : ∀ {ps : List (List Byte)}, (∀ p ∈ ps, OptText p) →
    optLoop name num cnt (joined ps) = ps.findSome? (optVal name)
  | [], _ => optLoop_nil _ _ _
  | [p], h => by
    by_cases hp : p = []
    · subst hp
      simp only [joined, optLoop_nil, List.findSome?_cons, List.findSome?_nil, optVal_nil hname]
    · have := optLoop_name (name := name) (r := []) (cnt := cnt) (h p (by simp)) (Or.inl rfl) hn (by simpa using hp)
      simp only [List.append_nil, List.drop_nil, optLoop_nil] at this
      simp only [joined, this, List.findSome?_cons, List.findSome?_nil]
      cases optVal name p <;> rfl
  | p :: q :: l, h => by
    have ih := optLoop_find hn hname cnt (ps := q :: l) (fun x hx => h x (by simp [hx]))
    have := optLoop_name (name := name) (r := 38 :: joined (q :: l)) (cnt := cnt) (h p (by simp)) (Or.inr ⟨_, rfl⟩) hn (by simp)
    have e : joined (p :: q :: l) = p ++ 38 :: joined (q :: l) := by simp [joined]
    rw [e, this, List.findSome?_cons, List.drop_succ_cons, List.drop_zero, ih]
    cases optVal name p <;> rfl

theorem optLoop_number {name : List Byte} (k : Nat) : ∀ {ps : List (List Byte)} (cnt : Nat), cnt ≤ k → (∀ p ∈ ps, OptText p) →
    (optLoop name k cnt (joined ps)).getD [] = ps.getD (k - cnt) []
  | [], cnt, _, _ => by rw [joined, optLoop_nil]; rfl
  | [p], cnt, hc, h => by
    by_cases hp : p = []
    · subst hp
      rw [joined, optLoop_nil]
      cases k - cnt <;> rfl
    · have hl := partLen_part (r := []) (h p (by simp)) (Or.inl rfl)
      rw [List.append_nil] at hl
      rw [joined, optLoop, dif_neg hp]
      dsimp only
      rw [hl, if_pos (by omega)]
      by_cases e : cnt = k
      · subst e
        rw [if_pos rfl]; simp
      · rw [if_neg (by omega), List.drop_eq_nil_of_le (by omega), optLoop_nil]
        have : k - cnt = (k - cnt - 1) + 1 := by omega
        rw [this]; rfl
  | p :: q :: l, cnt, hc, h => by
    have hl := partLen_part (r := 38 :: joined (q :: l)) (h p (by simp)) (Or.inr ⟨_, rfl⟩)
    have e : joined (p :: q :: l) = p ++ 38 :: joined (q :: l) := by simp [joined]
    rw [e, optLoop, dif_neg (by simp)]
    dsimp only
    rw [hl, if_pos (by omega), List.take_left, drop_past]
    by_cases ek : cnt = k
    · subst ek
      rw [if_pos rfl]; simp
    · rw [if_neg (by omega), optLoop_number k (cnt + 1) (by omega) (fun x hx => h x (by simp [hx]))]
      have : k - cnt = (k - (cnt + 1)) + 1 := by omega
      rw [this]; rfl

theorem unquote_denotes {t v : List Byte} (h : Denotes t v) : unquote t = v := by
  unfold unquote
  rcases h with ⟨q, hq, rfl⟩ | ⟨rfl, h⟩
  · have e1 : ([q] ++ v ++ [q]).head? = some q := by simp
    have e2 : ([q] ++ v ++ [q]).getLast? = some q := by rw [List.getLast?_append]; rfl
    rw [if_pos ⟨by simp, by rw [e1]; rcases hq with rfl | rfl <;> simp, by rw [e1, e2]⟩]
    simp
  · rw [if_neg]
    rintro ⟨h1, h2, h3⟩
    match t, h1, h2, h3, h with
    | a :: b :: l, _, h2, h3, h =>
      have hl : (a :: b :: l) = [a] ++ (b :: l).dropLast ++ [(b :: l).getLast (by simp)] := by
        rw [List.append_assoc, List.dropLast_concat_getLast]; rfl
      have hg : (a :: b :: l).getLast? = some ((b :: l).getLast (by simp)) := by
        rw [List.getLast?_eq_some_getLast (by simp)]; rfl
      rw [hg] at h3
      simp only [List.head?_cons, Option.some.injEq] at h2 h3
      rw [← h3] at hl
      exact h a _ h2 hl

theorem optVal_says {name p v : List Byte} (h : Says name p v) : optVal name p = some v := by
  unfold optVal
  rcases h with ⟨rfl, rfl⟩ | ⟨t, rfl, ht⟩
  · rw [if_pos (List.isPrefixOf_iff_prefix.mpr (List.prefix_refl _)), List.drop_length]
  · rw [if_pos (List.isPrefixOf_iff_prefix.mpr ⟨[61] ++ t, by simp⟩), List.append_assoc, List.drop_left]
    show (if (61 : Byte) = 61 then some (unquote t) else none) = some v
    rw [if_pos rfl, unquote_denotes ht]

theorem optVal_other {name p : List Byte} (h : ¬ Named name p) : optVal name p = none := by
  unfold optVal
  by_cases hp : name.isPrefixOf p = true
  · obtain ⟨t, rfl⟩ := List.isPrefixOf_iff_prefix.mp hp
    rw [if_pos hp, List.drop_left]
    cases t with
    | nil => exact absurd (Or.inl (by simp)) h
    | cons b v =>
      dsimp only
      rw [if_neg]
      rintro rfl
      exact h (Or.inr ⟨v, by simp⟩)
  · rw [if_neg hp]

end Verif.Url
