import Verif.Spec.Xml

/-!
# Lemmas about the XML engine
-/

namespace Verif.Xml

open Spec

/-! ## Blanks -/

theorem blank_white {c : Nat} (h : c = 32 ∨ c = 9 ∨ c = 10 ∨ c = 13) : blank c = true := by
  rcases h with rfl | rfl | rfl | rfl <;> rfl

theorem blank_false {c : Nat} (h1 : 26 < c) (h2 : c < 128) (h3 : c ≠ 32) : blank c = false := by
  simp [blank, h1, h2, h3]

theorem skip_white (w s : Str) (hw : White w) : skip (w ++ s) = skip s := by
  induction w with
  | nil => rfl
  | cons c w ih =>
    have hb := blank_white (hw c List.mem_cons_self)
    show (c :: (w ++ s)).dropWhile blank = _
    rw [List.dropWhile_cons, if_pos hb]
    exact ih fun x hx => hw x (List.mem_cons_of_mem _ hx)

theorem skip_white_nil (w : Str) (hw : White w) : skip w = [] := by
  have := skip_white w [] hw
  rwa [List.append_nil] at this

theorem skip_cons (c : Nat) (s : Str) (h : blank c = false) : skip (c :: s) = c :: s := by
  show (c :: s).dropWhile blank = _
  rw [List.dropWhile_cons, if_neg (by rw [h]; simp)]

/-- Nothing to skip. -/
def Solid (s : Str) : Prop := s = [] ∨ ∃ c r, s = c :: r ∧ blank c = false

theorem solid_cons (c : Nat) (r : Str) (h : blank c = false) : Solid (c :: r) := Or.inr ⟨c, r, rfl, h⟩

theorem skip_solid (s : Str) (h : Solid s) : skip s = s := by
  rcases h with rfl | ⟨c, r, rfl, h⟩
  · rfl
  · exact skip_cons c r h

theorem skipLine_solid (s : Str) (h : Solid s) : skipLine s = s := by
  rcases h with rfl | ⟨c, r, rfl, h⟩
  · rfl
  · simp [skipLine, h]

theorem skipLine_white (w s : Str) (hw : White w) (hs : Solid s) :
    ∃ w', White w' ∧ w'.length ≤ w.length ∧ skipLine (w ++ s) = w' ++ s := by
  induction w with
  | nil => exact ⟨[], hw, Nat.le_refl _, skipLine_solid s hs⟩
  | cons c w ih =>
    have hb := blank_white (hw c List.mem_cons_self)
    have hw' : White w := fun x hx => hw x (List.mem_cons_of_mem _ hx)
    show ∃ w', _ ∧ _ ∧ skipLine (c :: (w ++ s)) = _
    unfold skipLine
    rw [if_pos hb]
    split
    · exact ⟨w, hw', by simp, rfl⟩
    · obtain ⟨w1, h1, h2, h3⟩ := ih hw'
      exact ⟨w1, h1, by simp; omega, h3⟩

theorem white_append (a b : Str) (ha : White a) (hb : White b) : White (a ++ b) := by
  intro c hc
  rcases List.mem_append.1 hc with h | h
  · exact ha c h
  · exact hb c h

theorem white_nil : White [] := by intro c hc; cases hc

/-! ## Names -/

theorem identFirst_iff (c : Nat) : identFirst c = true ↔ Letter c := by
  simp [identFirst, Letter, or_assoc]

theorem identNext_iff (c : Nat) : identNext c = true ↔ NameChar c := by
  simp only [identNext, NameChar, Bool.or_eq_true, identFirst_iff, Bool.and_eq_true, decide_eq_true_eq, or_assoc]

theorem letter_range {c : Nat} (h : Letter c) : 65 ≤ c ∧ c ≤ 122 := by
  unfold Letter at h; omega

theorem letter_solid {c : Nat} (h : Letter c) : blank c = false := by
  have := letter_range h
  exact blank_false (by omega) (by omega) (by omega)

theorem takeWhile_all {α : Type} (p : α → Bool) (l : List α) (d : α) (r : List α) (h : ∀ x ∈ l, p x = true)
    (hd : p d = false) : (l ++ d :: r).takeWhile p = l ∧ (l ++ d :: r).dropWhile p = d :: r := by
  induction l with
  | nil => simp [hd]
  | cons a l ih =>
    obtain ⟨h1, h2⟩ := ih fun x hx => h x (List.mem_cons_of_mem _ hx)
    have ha := h a List.mem_cons_self
    rw [List.cons_append, List.takeWhile_cons, List.dropWhile_cons, if_pos ha, if_pos ha, h1]
    exact ⟨rfl, h2⟩

theorem ident_name (n : Str) (d : Nat) (r : Str) (hn : Name n) (hd : identNext d = false) :
    ident (n ++ d :: r) = some (n, d :: r) := by
  cases n with
  | nil => exact hn.elim
  | cons c n =>
    obtain ⟨h1, h2⟩ := hn
    have h3 := takeWhile_all identNext n d r (fun x hx => (identNext_iff x).2 (h2 x hx)) hd
    show ident (c :: (n ++ d :: r)) = _
    unfold ident
    dsimp only
    rw [if_pos ((identFirst_iff c).2 h1), h3.2, h3.1]

theorem name_cons (n : Str) (hn : Name n) : ∃ c r, n = c :: r ∧ Letter c := by
  cases n with
  | nil => exact hn.elim
  | cons c r => exact ⟨c, r, rfl, hn.1⟩

theorem name_solid (n s : Str) (hn : Name n) : skip (n ++ s) = n ++ s := by
  obtain ⟨c, r, rfl, h⟩ := name_cons n hn
  exact skip_cons c _ (letter_solid h)

theorem mem_takeWhile {α : Type} (p : α → Bool) (l : List α) (x : α) (h : x ∈ l.takeWhile p) : p x = true := by
  induction l with
  | nil => cases h
  | cons a l ih =>
    rw [List.takeWhile_cons] at h
    split at h
    · rcases List.mem_cons.1 h with rfl | h
      · assumption
      · exact ih h
    · cases h

theorem ident_some (s w r : Str) (h : ident s = some (w, r)) : Name w ∧ s = w ++ r ∧ r ≠ [] := by
  cases s with
  | nil => cases h
  | cons c s =>
    unfold ident at h
    dsimp only at h
    split at h
    · next hc =>
      split at h
      · cases h
      · next d r' hd =>
        simp only [Option.some.injEq, Prod.mk.injEq] at h
        obtain ⟨rfl, rfl⟩ := h
        refine ⟨⟨(identFirst_iff c).1 hc, ?_⟩, ?_, by simp⟩
        · intro x hx
          exact (identNext_iff x).1 (mem_takeWhile _ _ _ hx)
        · rw [← hd, List.cons_append, List.takeWhile_append_dropWhile]
    · cases h

/-! ## Values -/

theorem coded_unpack (q : Bool) (v t : Str) (h : Coded q v t) : unpack t = v := by
  induction h with
  | nil => rfl
  | plain c h1 h2 _ _ _ ih =>
    show unpackFrom 0 (c :: _) = _
    unfold unpackFrom
    rw [if_neg h2]
    exact congrArg _ ih
  | lt _ ih => exact congrArg _ ih
  | gt _ ih => exact congrArg _ ih
  | amp _ ih => exact congrArg _ ih
  | quot _ ih => exact congrArg _ ih
  | apos _ ih => exact congrArg _ ih

theorem coded_lt (q : Bool) (v t : Str) (h : Coded q v t) : 60 ∉ t := by
  induction h with
  | nil => simp
  | plain c h1 _ _ _ _ ih => simp [ih, Ne.symm h1]
  | lt _ ih => simp [ih]
  | gt _ ih => simp [ih]
  | amp _ ih => simp [ih]
  | quot _ ih => simp [ih]
  | apos _ ih => simp [ih]

theorem coded_quot (v t : Str) (h : Coded true v t) : 34 ∉ t := by
  generalize hq : true = q at h
  induction h with
  | nil => simp
  | plain c _ _ _ h1 _ ih => simp [ih, Ne.symm (h1 hq.symm)]
  | lt _ ih => simp [ih]
  | gt _ ih => simp [ih]
  | amp _ ih => simp [ih]
  | quot _ ih => simp [ih]
  | apos _ ih => simp [ih]

theorem outputValue_coded (v : Str) (h : 0 ∉ v) : Coded true v (outputValue v) := by
  induction v with
  | nil => exact .nil
  | cons c v ih =>
    have hc : c ≠ 0 := fun h0 => h (by simp [h0])
    have ih := ih fun h0 => h (List.mem_cons_of_mem _ h0)
    show Coded true (c :: v) (esc c ++ outputValue v)
    unfold esc
    split
    · next h => subst h; exact .lt ih
    · split
      · next h => subst h; exact .gt ih
      · split
        · next h => subst h; exact .amp ih
        · split
          · next h => subst h; exact .apos ih
          · split
            · next h => subst h; exact .quot ih
            · exact .plain c (by assumption) (by assumption) hc (fun _ => by assumption) ih

theorem attrValue_ok (t r : Str) (h : 34 ∉ t) : attrValue ([61, 34] ++ t ++ [34] ++ r) = some (t, r) := by
  have := takeWhile_all (· != 34) t 34 r (fun x hx => by
    simp only [bne_iff_ne, ne_eq]; intro h0; exact h (h0 ▸ hx)) (by decide)
  have he : [61, 34] ++ t ++ [34] ++ r = 61 :: 34 :: (t ++ 34 :: r) := by simp
  rw [he]
  show (match (t ++ 34 :: r).dropWhile (· != 34) with
    | [] => none
    | _ :: r' => some ((t ++ 34 :: r).takeWhile (· != 34), r')) = _
  rw [this.2, this.1]

theorem attrValue_some (s v r : Str) (h : attrValue s = some (v, r)) : s = [61, 34] ++ v ++ [34] ++ r := by
  unfold attrValue at h
  split at h
  · next r0 =>
    split at h
    · cases h
    · next d r' hd =>
      simp only [Option.some.injEq, Prod.mk.injEq] at h
      obtain ⟨rfl, rfl⟩ := h
      have h1 : d = 34 := by
        have := List.head?_dropWhile_not (· != 34) r0
        rw [hd] at this
        simpa using this
      subst h1
      have : r0 = r0.takeWhile (· != 34) ++ 34 :: r' := by rw [← hd, List.takeWhile_append_dropWhile]
      simp only [List.cons_append, List.nil_append, List.append_assoc]
      rw [← this]
  · cases h

theorem isNs_iff (n : Str) : isNs n = false ↔ NoNs n := by
  unfold isNs NoNs
  constructor
  · intro h r hr he
    subst he
    cases r with
    | nil => exact hr rfl
    | cons a r => simp at h
  · intro h
    cases hp : [120, 109, 108, 110, 115, 58].isPrefixOf n with
    | false => simp
    | true =>
      obtain ⟨r, rfl⟩ := List.isPrefixOf_iff_prefix.1 hp
      cases r with
      | nil => rfl
      | cons a r => exact absurd rfl (h (a :: r) (by simp))

theorem content_ok (t r : Str) (d : Nat) (h : 60 ∉ t) (hd : d = 60) : content (t ++ d :: r) = some (t, d :: r) := by
  subst hd
  have := takeWhile_all (· != 60) t 60 r (fun x hx => by
    simp only [bne_iff_ne, ne_eq]; intro h0; exact h (h0 ▸ hx)) (by decide)
  unfold content
  rw [this.2, this.1]

theorem content_some (s t r : Str) (h : content s = some (t, r)) : s = t ++ r ∧ ∃ r', r = 60 :: r' := by
  unfold content at h
  split at h
  · cases h
  · next d r' hd =>
    simp only [Option.some.injEq, Prod.mk.injEq] at h
    obtain ⟨rfl, rfl⟩ := h
    have h1 : d = 60 := by
      have := List.head?_dropWhile_not (· != 60) s
      rw [hd] at this
      simpa using this
    exact ⟨by rw [← hd, List.takeWhile_append_dropWhile], r', by rw [h1]⟩

/-! ## Comments -/

theorem search_ok (t r : Str) (h : ¬ [45, 45, 62] <:+: t) : search (t ++ [45, 45, 62] ++ r) = some (t, r) := by
  induction t with
  | nil => rfl
  | cons c t ih =>
    have ih := ih fun h0 => h (h0.trans (List.suffix_cons c t).isInfix)
    show search (c :: (t ++ [45, 45, 62] ++ r)) = _
    unfold search
    rw [if_neg, ih]; rfl
    intro hp
    obtain ⟨u, hu⟩ := List.isPrefixOf_iff_prefix.1 hp
    simp only [List.cons_append, List.nil_append, List.cons.injEq] at hu
    obtain ⟨rfl, hu⟩ := hu
    cases t with
    | nil =>
      simp only [List.nil_append, List.cons_append, List.cons.injEq] at hu
      omega
    | cons c2 t =>
      simp only [List.cons_append, List.cons.injEq] at hu
      obtain ⟨rfl, hu⟩ := hu
      cases t with
      | nil =>
        simp only [List.nil_append, List.cons_append, List.cons.injEq] at hu
        omega
      | cons c3 t =>
        simp only [List.cons_append, List.cons.injEq] at hu
        obtain ⟨rfl, _⟩ := hu
        exact h ⟨[], t, rfl⟩

theorem search_some (s : Str) : ∀ t r, search s = some (t, r) → s = t ++ [45, 45, 62] ++ r ∧ ¬ [45, 45, 62] <:+: t := by
  induction s with
  | nil => intro t r h; cases h
  | cons c s ih =>
    intro t r h
    unfold search at h
    split at h
    · next hp =>
      simp only [Option.some.injEq, Prod.mk.injEq] at h
      obtain ⟨rfl, rfl⟩ := h
      obtain ⟨u, hu⟩ := List.isPrefixOf_iff_prefix.1 hp
      simp only [List.cons_append, List.nil_append, List.cons.injEq] at hu
      obtain ⟨rfl, rfl⟩ := hu
      refine ⟨rfl, ?_⟩
      intro h0
      have := h0.length_le
      simp at this
    · next hp =>
      cases hs : search s with
      | none => rw [hs] at h; cases h
      | some p =>
        obtain ⟨t', r'⟩ := p
        rw [hs] at h
        simp only [Option.map_some, Option.some.injEq, Prod.mk.injEq] at h
        obtain ⟨rfl, rfl⟩ := h
        obtain ⟨h1, h2⟩ := ih t' r' hs
        refine ⟨by rw [h1]; rfl, ?_⟩
        intro h0
        rcases List.infix_cons_iff.1 h0 with h0 | h0
        · apply hp
          rw [List.isPrefixOf_iff_prefix, h1]
          exact h0.trans (by
            refine ⟨[45, 45, 62] ++ r', ?_⟩
            simp)
        · exact h2 h0

/-! ## Attributes -/

theorem readAttrs_attrs (pi : Bool) (name : Str) (as : List (Str × Str)) (a : Str) (h : Attrs as a) :
    ∀ n s acc, readAttrs pi name (as.length + n) (a ++ s) acc = readAttrs pi name n s (acc ++ as) := by
  induction h with
  | nil => intro n s acc; simp
  | @cons w nm v t as b hw _ hn hns hc _ ih =>
    intro n s acc
    have hlen : ((nm, v) :: as).length + n = (as.length + n) + 1 := by simp; omega
    rw [hlen]
    obtain ⟨c, r, hcr, hl⟩ := name_cons nm hn
    have hskip : skip (w ++ nm ++ [61, 34] ++ t ++ [34] ++ b ++ s)
        = nm ++ 61 :: ([34] ++ t ++ [34] ++ (b ++ s)) := by
      have : w ++ nm ++ [61, 34] ++ t ++ [34] ++ b ++ s = w ++ (nm ++ 61 :: ([34] ++ t ++ [34] ++ (b ++ s))) := by simp
      rw [this, skip_white w _ hw, name_solid _ _ hn]
    have hid := ident_name nm 61 ([34] ++ t ++ [34] ++ (b ++ s)) hn (by decide)
    have hval : attrValue (61 :: ([34] ++ t ++ [34] ++ (b ++ s))) = some (t, b ++ s) := by
      have := attrValue_ok t (b ++ s) (coded_quot v t hc)
      simpa using this
    have hlr := letter_range hl
    conv => lhs; unfold readAttrs
    rw [hskip]
    subst hcr
    rw [List.cons_append]
    dsimp only
    rw [List.cons_append] at hid
    rw [if_neg (show ¬ (c = endSymbol pi) by cases pi <;> simp [endSymbol] <;> omega),
      if_neg (show ¬ c = 62 by omega), hid]
    dsimp only
    rw [hval]
    dsimp only
    rw [if_neg (by rw [(isNs_iff _).2 hns]; simp), ih, coded_unpack true v t hc]
    simp

theorem readAttrs_short (name : Str) (n : Nat) (w s : Str) (acc : List (Str × Str)) (hw : White w) :
    readAttrs false name (n + 1) (w ++ [47, 62] ++ s) acc = .leaf (.short false name acc) (skipLine s) := by
  have : w ++ [47, 62] ++ s = w ++ (47 :: 62 :: s) := by simp
  rw [this]
  unfold readAttrs
  rw [skip_white w _ hw, skip_cons 47 _ (by decide)]
  rfl

theorem readAttrs_pi (name : Str) (n : Nat) (w s : Str) (acc : List (Str × Str)) (hw : White w) :
    readAttrs true name (n + 1) (w ++ [63, 62] ++ s) acc = .leaf (.short true name acc) (skipLine s) := by
  have : w ++ [63, 62] ++ s = w ++ (63 :: 62 :: s) := by simp
  rw [this]
  unfold readAttrs
  rw [skip_white w _ hw, skip_cons 63 _ (by decide)]
  rfl

theorem readAttrs_long (name : Str) (n : Nat) (w s : Str) (acc : List (Str × Str)) (hw : White w) :
    readAttrs false name (n + 1) (w ++ [62] ++ s) acc = .opened name acc s := by
  have : w ++ [62] ++ s = w ++ (62 :: s) := by simp
  rw [this]
  unfold readAttrs
  rw [skip_white w _ hw, skip_cons 62 _ (by decide)]
  rfl

theorem attrs_length (as : List (Str × Str)) (a : Str) (h : Attrs as a) : as.length ≤ a.length := by
  induction h with
  | nil => simp
  | cons _ _ _ _ _ _ ih => simp; omega

/-- Behind a name there is a blank, or one of `/`, `?`, `>`. -/
theorem attrs_sep (as : List (Str × Str)) (a w : Str) (c : Nat) (r : Str) (h : Attrs as a) (hw : White w)
    (hc : identNext c = false) : ∃ d s, a ++ w ++ c :: r = d :: s ∧ identNext d = false := by
  have key : ∀ w' : Str, White w' → ∀ c' r', identNext c' = false → ∃ d s, w' ++ c' :: r' = d :: s ∧ identNext d = false := by
    intro w' hw' c' r' hc'
    cases w' with
    | nil => exact ⟨c', r', rfl, hc'⟩
    | cons x w' =>
      refine ⟨x, _, rfl, ?_⟩
      rcases hw' x List.mem_cons_self with rfl | rfl | rfl | rfl <;> decide
  cases h with
  | nil => exact key w hw c r hc
  | @cons w1 nm v t as b hw1 hne _ _ _ _ =>
    cases w1 with
    | nil => exact absurd rfl hne
    | cons x w1 =>
      refine ⟨x, _, rfl, ?_⟩
      rcases hw1 x List.mem_cons_self with rfl | rfl | rfl | rfl <;> decide

/-- The start of an element up to its attributes. -/
theorem readStart_ok (pi : Bool) (n : Str) (as : List (Str × Str)) (a w : Str) (c : Nat) (r : Str) (hn : Name n)
    (ha : Attrs as a) (hw : White w) (hc : identNext c = false) :
    ∃ m, readStart pi (n ++ (a ++ (w ++ c :: r))) = readAttrs pi n (m + 1) (w ++ c :: r) as := by
  obtain ⟨d, s, hds, hd⟩ := attrs_sep as a w c r ha hw hc
  rw [List.append_assoc] at hds
  unfold readStart
  rw [name_solid n _ hn]
  have hid : ident (n ++ (a ++ (w ++ c :: r))) = some (n, a ++ (w ++ c :: r)) := by
    rw [hds]; exact ident_name n d s hn hd
  rw [hid]
  dsimp only
  have hl := attrs_length as a ha
  refine ⟨(a ++ (w ++ c :: r)).length - as.length, ?_⟩
  have hlen : as.length ≤ (a ++ (w ++ c :: r)).length := by rw [List.length_append]; omega
  have : (a ++ (w ++ c :: r)).length + 1 = as.length + ((a ++ (w ++ c :: r)).length - as.length + 1) := by omega
  rw [this, readAttrs_attrs pi n as a ha]
  simp

/-! ## The first node of a text -/

theorem head_lt (p : Option Str) (h : Bool) (w : Str) (c1 : Nat) (r1 : Str) (hw : White w) (h1 : c1 ≠ 33) :
    head p h (w ++ 60 :: c1 :: r1) =
      if c1 = 47 then readClose p r1 else if c1 = 63 then readStart true r1 else readStart false (c1 :: r1) := by
  unfold head
  rw [skip_white w _ hw, skip_cons 60 _ (by decide)]
  dsimp only
  rw [if_neg (show ¬ List.isPrefixOf [60, 33, 45, 45] (60 :: c1 :: r1) = true by
    intro hp
    obtain ⟨u, hu⟩ := List.isPrefixOf_iff_prefix.1 hp
    simp only [List.cons_append, List.cons.injEq] at hu
    exact h1 hu.2.1.symm)]
  simp

theorem head_comment (p : Option Str) (h : Bool) (w t s : Str) (hw : White w) (ht : Remark t) :
    head p h (w ++ ([60, 33, 45, 45] ++ t ++ [45, 45, 62] ++ s)) = .leaf (.comment t) (skip s) := by
  have : [60, 33, 45, 45] ++ t ++ [45, 45, 62] ++ s = 60 :: 33 :: 45 :: 45 :: (t ++ [45, 45, 62] ++ s) := by simp
  rw [this]
  unfold head
  rw [skip_white w _ hw, skip_cons 60 _ (by decide)]
  dsimp only
  rw [if_pos (by rfl)]
  show (match search (t ++ [45, 45, 62] ++ s) with
    | none => Head.err (-10)
    | some (t, r') => .leaf (.comment t) (skip r')) = _
  rw [search_ok t s ht.2.1]

theorem head_name (p : Option Str) (h : Bool) (w n s : Str) (hw : White w) (hn : Name n) :
    head p h (w ++ ([60] ++ n ++ s)) = readStart false (n ++ s) := by
  obtain ⟨c, r, rfl, hl⟩ := name_cons n hn
  have := letter_range hl
  have he : [60] ++ (c :: r) ++ s = 60 :: c :: (r ++ s) := by simp
  rw [he, head_lt p h w c (r ++ s) hw (by omega), if_neg (by omega), if_neg (by omega)]
  rfl

theorem head_short (p : Option Str) (h : Bool) (w0 n : Str) (as : List (Str × Str)) (a w s : Str) (hw0 : White w0)
    (hn : Name n) (ha : Attrs as a) (hw : White w) :
    head p h (w0 ++ ([60] ++ n ++ a ++ w ++ [47, 62] ++ s)) = .leaf (.short false n as) (skipLine s) := by
  have he : [60] ++ n ++ a ++ w ++ [47, 62] ++ s = [60] ++ n ++ (a ++ (w ++ 47 :: (62 :: s))) := by simp
  rw [he, head_name p h w0 n _ hw0 hn]
  obtain ⟨m, hm⟩ := readStart_ok false n as a w 47 (62 :: s) hn ha hw (by decide)
  rw [hm]
  have := readAttrs_short n m w s as hw
  simpa using this

theorem head_pi (p : Option Str) (h : Bool) (w0 n : Str) (as : List (Str × Str)) (a w s : Str) (hw0 : White w0)
    (hn : Name n) (ha : Attrs as a) (hw : White w) :
    head p h (w0 ++ ([60, 63] ++ n ++ a ++ w ++ [63, 62] ++ s)) = .leaf (.short true n as) (skipLine s) := by
  have he : [60, 63] ++ n ++ a ++ w ++ [63, 62] ++ s = 60 :: 63 :: (n ++ (a ++ (w ++ 63 :: (62 :: s)))) := by simp
  rw [he, head_lt p h w0 63 _ hw0 (by omega), if_neg (by omega), if_pos rfl]
  obtain ⟨m, hm⟩ := readStart_ok true n as a w 63 (62 :: s) hn ha hw (by decide)
  rw [hm]
  have := readAttrs_pi n m w s as hw
  simpa using this

theorem head_long (p : Option Str) (h : Bool) (w0 n : Str) (as : List (Str × Str)) (a w s : Str) (hw0 : White w0)
    (hn : Name n) (ha : Attrs as a) (hw : White w) :
    head p h (w0 ++ ([60] ++ n ++ a ++ w ++ [62] ++ s)) = .opened n as s := by
  have he : [60] ++ n ++ a ++ w ++ [62] ++ s = [60] ++ n ++ (a ++ (w ++ 62 :: s)) := by simp
  rw [he, head_name p h w0 n _ hw0 hn]
  obtain ⟨m, hm⟩ := readStart_ok false n as a w 62 s hn ha hw (by decide)
  rw [hm]
  have := readAttrs_long n m w s as hw
  simpa using this

theorem head_close (p : Str) (h : Bool) (w wc s : Str) (hp : Name p) (hw : White w) (hwc : White wc) :
    head (some p) h (w ++ ([60, 47] ++ p ++ wc ++ [62] ++ s)) = .close (skipLine s) := by
  have he : [60, 47] ++ p ++ wc ++ [62] ++ s = 60 :: 47 :: (p ++ (wc ++ 62 :: s)) := by simp
  rw [he, head_lt _ h w 47 _ hw (by omega), if_pos rfl]
  unfold readClose
  rw [name_solid p _ hp]
  obtain ⟨d, r, hds, hd⟩ := attrs_sep [] [] wc 62 s .nil hwc (by decide)
  simp only [List.nil_append] at hds
  have hid : ident (p ++ (wc ++ 62 :: s)) = some (p, wc ++ 62 :: s) := by rw [hds]; exact ident_name p d r hp hd
  rw [hid, if_neg (by simp)]
  dsimp only
  rw [if_pos (List.isPrefixOf_iff_prefix.2 (List.prefix_refl p)), skip_white wc _ hwc, skip_cons 62 _ (by decide)]
  rfl

theorem head_text (p : Str) (w t s : Str) (v : Str) (hw : White w) (hc : Coded false v t) (hv : Visible t) :
    head (some p) false (w ++ (t ++ 60 :: s)) = .leaf (.text v) (60 :: s) := by
  have hct := content_ok t s 60 (coded_lt false v t hc) rfl
  have hlt := coded_lt false v t hc
  obtain ⟨c, r, rfl, h1, h2⟩ := hv
  have hc60 : c ≠ 60 := fun h => hlt (by simp [h])
  unfold head
  rw [skip_white w _ hw, List.cons_append, skip_cons c _ (blank_false (by omega) h2 (by omega))]
  rw [List.cons_append] at hct
  dsimp only
  rw [if_neg (show ¬ List.isPrefixOf [60, 33, 45, 45] (c :: (r ++ 60 :: s)) = true by
    intro hp
    obtain ⟨u, hu⟩ := List.isPrefixOf_iff_prefix.1 hp
    simp only [List.cons_append, List.cons.injEq] at hu
    exact hc60 hu.1.symm), if_pos hc60]
  simp only [reduceCtorEq, decide_false, Bool.or_self, Bool.false_eq_true, if_false]
  rw [hct]
  dsimp only
  rw [coded_unpack false v _ hc]

/-! ## Texts are parsed to their documents -/

theorem nodes_lt (f : Forest) (b : Str) (h : Nodes f b) : b = [] ∨ ∃ r, b = 60 :: r := by
  cases h with
  | nil => exact Or.inl rfl
  | comment => exact Or.inr ⟨_, rfl⟩
  | short => exact Or.inr ⟨_, rfl⟩
  | pi => exact Or.inr ⟨_, rfl⟩
  | long => exact Or.inr ⟨_, rfl⟩
  | data => exact Or.inr ⟨_, rfl⟩

theorem nodes_solid (f : Forest) (b s : Str) (h : Nodes f b) (hs : Solid s) : Solid (b ++ s) := by
  rcases nodes_lt f b h with rfl | ⟨r, rfl⟩
  · exact hs
  · exact solid_cons 60 _ (by decide)

theorem close_solid (p wc s : Str) : Solid ([60, 47] ++ p ++ wc ++ [62] ++ s) := solid_cons 60 _ (by decide)

theorem kids_nodes (f : Forest) (b : Str) (hf : Nodes f b) : ∀ (p : Str) (h : Bool) (w wc s : Str) (n : Nat),
    Name p → White w → White wc → (w ++ (b ++ ([60, 47] ++ p ++ wc ++ [62] ++ s))).length < n →
    readKids n p h (w ++ (b ++ ([60, 47] ++ p ++ wc ++ [62] ++ s))) = .ok f (skipLine s) := by
  induction hf with
  | nil =>
    intro p h w wc s n hp hw hwc hn
    cases n with
    | zero => omega
    | succ n =>
      unfold readKids
      rw [List.nil_append, head_close p h w wc s hp hw hwc]
  | @comment t w1 f b ht hw1 hf ih =>
    intro p h w wc s n hp hw hwc hn
    cases n with
    | zero => omega
    | succ n =>
      generalize hcl : [60, 47] ++ p ++ wc ++ [62] ++ s = cl at *
      have hsol : Solid cl := hcl ▸ close_solid p wc s
      have he : [60, 33, 45, 45] ++ t ++ [45, 45, 62] ++ w1 ++ b ++ cl
          = [60, 33, 45, 45] ++ t ++ [45, 45, 62] ++ (w1 ++ (b ++ cl)) := by simp
      rw [he] at hn ⊢
      unfold readKids
      rw [head_comment (some p) h w t _ hw ht, skip_white w1 _ hw1, skip_solid _ (nodes_solid f b cl hf hsol)]
      dsimp only
      have := ih p true [] wc s n hp white_nil hwc (by
        rw [hcl]; simp only [List.length_append, List.length_cons, List.length_nil] at hn ⊢; omega)
      rw [hcl, List.nil_append] at this
      rw [this]; rfl
  | @short nm as a w1 w2 f b hnm ha hw1 hw2 hf ih =>
    intro p h w wc s n hp hw hwc hn
    cases n with
    | zero => omega
    | succ n =>
      generalize hcl : [60, 47] ++ p ++ wc ++ [62] ++ s = cl at *
      have hsol : Solid cl := hcl ▸ close_solid p wc s
      have he : [60] ++ nm ++ a ++ w1 ++ [47, 62] ++ w2 ++ b ++ cl
          = [60] ++ nm ++ a ++ w1 ++ [47, 62] ++ (w2 ++ (b ++ cl)) := by simp
      rw [he] at hn ⊢
      unfold readKids
      rw [head_short (some p) h w nm as a w1 _ hw hnm ha hw1]
      obtain ⟨w', h1, h2, h3⟩ := skipLine_white w2 (b ++ cl) hw2 (nodes_solid f b cl hf hsol)
      dsimp only
      rw [h3]
      have := ih p true w' wc s n hp h1 hwc (by
        rw [hcl]; simp only [List.length_append, List.length_cons, List.length_nil] at hn ⊢; omega)
      rw [hcl] at this
      rw [this]; rfl
  | @pi nm as a w1 w2 f b hnm ha hw1 hw2 hf ih =>
    intro p h w wc s n hp hw hwc hn
    cases n with
    | zero => omega
    | succ n =>
      generalize hcl : [60, 47] ++ p ++ wc ++ [62] ++ s = cl at *
      have hsol : Solid cl := hcl ▸ close_solid p wc s
      have he : [60, 63] ++ nm ++ a ++ w1 ++ [63, 62] ++ w2 ++ b ++ cl
          = [60, 63] ++ nm ++ a ++ w1 ++ [63, 62] ++ (w2 ++ (b ++ cl)) := by simp
      rw [he] at hn ⊢
      unfold readKids
      rw [head_pi (some p) h w nm as a w1 _ hw hnm ha hw1]
      obtain ⟨w', h1, h2, h3⟩ := skipLine_white w2 (b ++ cl) hw2 (nodes_solid f b cl hf hsol)
      dsimp only
      rw [h3]
      have := ih p true w' wc s n hp h1 hwc (by
        rw [hcl]; simp only [List.length_append, List.length_cons, List.length_nil] at hn ⊢; omega)
      rw [hcl] at this
      rw [this]; rfl
  | @long nm as a w1 wi k bi wc1 w2 f b hnm ha hw1 hwi hk hwc1 hw2 hf ihk ih =>
    intro p h w wc s n hp hw hwc hn
    cases n with
    | zero => omega
    | succ n =>
      generalize hcl : [60, 47] ++ p ++ wc ++ [62] ++ s = cl at *
      have hsol : Solid cl := hcl ▸ close_solid p wc s
      have he : [60] ++ nm ++ a ++ w1 ++ [62] ++ (wi ++ bi) ++ ([60, 47] ++ nm ++ wc1 ++ [62]) ++ w2 ++ b ++ cl
          = [60] ++ nm ++ a ++ w1 ++ [62] ++ (wi ++ (bi ++ ([60, 47] ++ nm ++ wc1 ++ [62] ++ (w2 ++ (b ++ cl))))) := by
        simp
      rw [he] at hn ⊢
      unfold readKids
      rw [head_long (some p) h w nm as a w1 _ hw hnm ha hw1]
      dsimp only
      rw [ihk nm false wi wc1 (w2 ++ (b ++ cl)) n hnm hwi hwc1 (by
        simp only [List.length_append, List.length_cons, List.length_nil] at hn ⊢; omega)]
      dsimp only
      obtain ⟨w', h1, h2, h3⟩ := skipLine_white w2 (b ++ cl) hw2 (nodes_solid f b cl hf hsol)
      rw [h3]
      have := ih p true w' wc s n hp h1 hwc (by
        rw [hcl]; simp only [List.length_append, List.length_cons, List.length_nil] at hn ⊢; omega)
      rw [hcl] at this
      rw [this]; rfl
  | @data nm as a w1 wi v t k bi wc1 w2 f b hnm ha hw1 hwi hc hv hk hwc1 hw2 hf ihk ih =>
    intro p h w wc s n hp hw hwc hn
    cases n with
    | zero => omega
    | succ n =>
      generalize hcl : [60, 47] ++ p ++ wc ++ [62] ++ s = cl at *
      have hsol : Solid cl := hcl ▸ close_solid p wc s
      have he : [60] ++ nm ++ a ++ w1 ++ [62] ++ (wi ++ t ++ bi) ++ ([60, 47] ++ nm ++ wc1 ++ [62]) ++ w2 ++ b ++ cl
          = [60] ++ nm ++ a ++ w1 ++ [62] ++
            (wi ++ (t ++ (bi ++ ([60, 47] ++ nm ++ wc1 ++ [62] ++ (w2 ++ (b ++ cl)))))) := by
        simp
      rw [he] at hn ⊢
      unfold readKids
      rw [head_long (some p) h w nm as a w1 _ hw hnm ha hw1]
      dsimp only
      have hin : readKids n nm false (wi ++ (t ++ (bi ++ ([60, 47] ++ nm ++ wc1 ++ [62] ++ (w2 ++ (b ++ cl))))))
          = .ok (.text v k) (skipLine (w2 ++ (b ++ cl))) := by
        cases n with
        | zero => simp only [List.length_append, List.length_cons, List.length_nil] at hn; omega
        | succ n =>
          obtain ⟨r, hr⟩ : ∃ r, bi ++ ([60, 47] ++ nm ++ wc1 ++ [62] ++ (w2 ++ (b ++ cl))) = 60 :: r := by
            rcases nodes_lt k bi hk with rfl | ⟨r, rfl⟩
            · exact ⟨_, rfl⟩
            · exact ⟨_, rfl⟩
          have := ihk nm true [] wc1 (w2 ++ (b ++ cl)) n hnm white_nil hwc1 (by
            simp only [List.length_append, List.length_cons, List.length_nil] at hn ⊢; omega)
          rw [List.nil_append, hr] at this
          rw [hr]
          unfold readKids
          rw [head_text nm wi t r v hwi hc hv]
          dsimp only
          rw [this]; rfl
      rw [hin]
      dsimp only
      obtain ⟨w', h1, h2, h3⟩ := skipLine_white w2 (b ++ cl) hw2 (nodes_solid f b cl hf hsol)
      rw [h3]
      have := ih p true w' wc s n hp h1 hwc (by
        rw [hcl]; simp only [List.length_append, List.length_cons, List.length_nil] at hn ⊢; omega)
      rw [hcl] at this
      rw [this]; rfl

/-- What is left after a node at the top. -/
theorem top_rest (f : Forest) (b w : Str) (hf : Nodes f b) (hw : White w) :
    (skip (w ++ b) = [] ↔ f = .nil) ∧ skip (w ++ b) = b := by
  have h1 : skip (w ++ b) = b := by
    rw [skip_white w _ hw]
    rcases nodes_lt f b hf with rfl | ⟨r, rfl⟩
    · rfl
    · exact skip_cons 60 _ (by decide)
  refine ⟨?_, h1⟩
  rw [h1]
  cases hf <;> simp


theorem top_nodes (f : Forest) (b : Str) (hf : Nodes f b) : ∀ (h : Bool) (w : Str) (n : Nat), f ≠ .nil → White w →
    (w ++ b).length < n → readTop n h (w ++ b) = .ok f [] := by
  induction hf with
  | nil => intro h w n hne; exact absurd rfl hne
  | @comment t w1 f b ht hw1 hf ih =>
    intro h w n _ hw hn
    cases n with
    | zero => omega
    | succ n =>
      have he : [60, 33, 45, 45] ++ t ++ [45, 45, 62] ++ w1 ++ b
          = [60, 33, 45, 45] ++ t ++ [45, 45, 62] ++ (w1 ++ b) := by simp
      rw [he] at hn ⊢
      unfold readTop
      rw [head_comment (some dummy) h w t _ hw ht, (top_rest f b w1 hf hw1).2]
      obtain ⟨h1, h2⟩ := top_rest f b [] hf white_nil
      rw [List.nil_append] at h1 h2
      dsimp only
      by_cases hfn : f = .nil
      · rw [if_pos (h1.2 hfn), hfn]; rfl
      · rw [if_neg (fun h => hfn (h1.1 h)), h2]
        have := ih true [] n hfn white_nil (by
          simp only [List.length_append, List.length_cons, List.length_nil] at hn ⊢; omega)
        rw [List.nil_append] at this
        rw [this]; rfl
  | @short nm as a w1 w2 f b hnm ha hw1 hw2 hf ih =>
    intro h w n _ hw hn
    cases n with
    | zero => omega
    | succ n =>
      have he : [60] ++ nm ++ a ++ w1 ++ [47, 62] ++ w2 ++ b
          = [60] ++ nm ++ a ++ w1 ++ [47, 62] ++ (w2 ++ b) := by simp
      rw [he] at hn ⊢
      unfold readTop
      rw [head_short (some dummy) h w nm as a w1 _ hw hnm ha hw1]
      obtain ⟨w', h1, h2, h3⟩ := skipLine_white w2 b hw2 (by
        have := nodes_solid f b [] hf (Or.inl rfl); rwa [List.append_nil] at this)
      dsimp only
      rw [h3]
      obtain ⟨h4, h5⟩ := top_rest f b w' hf h1
      by_cases hfn : f = .nil
      · rw [if_pos (h4.2 hfn), hfn]; rfl
      · rw [if_neg (fun h => hfn (h4.1 h)), h5]
        have := ih true [] n hfn white_nil (by
          simp only [List.length_append, List.length_cons, List.length_nil] at hn ⊢; omega)
        rw [List.nil_append] at this
        rw [this]; rfl
  | @pi nm as a w1 w2 f b hnm ha hw1 hw2 hf ih =>
    intro h w n _ hw hn
    cases n with
    | zero => omega
    | succ n =>
      have he : [60, 63] ++ nm ++ a ++ w1 ++ [63, 62] ++ w2 ++ b
          = [60, 63] ++ nm ++ a ++ w1 ++ [63, 62] ++ (w2 ++ b) := by simp
      rw [he] at hn ⊢
      unfold readTop
      rw [head_pi (some dummy) h w nm as a w1 _ hw hnm ha hw1]
      obtain ⟨w', h1, h2, h3⟩ := skipLine_white w2 b hw2 (by
        have := nodes_solid f b [] hf (Or.inl rfl); rwa [List.append_nil] at this)
      dsimp only
      rw [h3]
      obtain ⟨h4, h5⟩ := top_rest f b w' hf h1
      by_cases hfn : f = .nil
      · rw [if_pos (h4.2 hfn), hfn]; rfl
      · rw [if_neg (fun h => hfn (h4.1 h)), h5]
        have := ih true [] n hfn white_nil (by
          simp only [List.length_append, List.length_cons, List.length_nil] at hn ⊢; omega)
        rw [List.nil_append] at this
        rw [this]; rfl
  | @long nm as a w1 wi k bi wc1 w2 f b hnm ha hw1 hwi hk hwc1 hw2 hf _ ih =>
    intro h w n _ hw hn
    cases n with
    | zero => omega
    | succ n =>
      have he : [60] ++ nm ++ a ++ w1 ++ [62] ++ (wi ++ bi) ++ ([60, 47] ++ nm ++ wc1 ++ [62]) ++ w2 ++ b
          = [60] ++ nm ++ a ++ w1 ++ [62] ++ (wi ++ (bi ++ ([60, 47] ++ nm ++ wc1 ++ [62] ++ (w2 ++ b)))) := by
        simp
      rw [he] at hn ⊢
      unfold readTop
      rw [head_long (some dummy) h w nm as a w1 _ hw hnm ha hw1]
      dsimp only
      rw [kids_nodes k bi hk nm false wi wc1 (w2 ++ b) n hnm hwi hwc1 (by
        simp only [List.length_append, List.length_cons, List.length_nil] at hn ⊢; omega)]
      dsimp only
      obtain ⟨w', h1, h2, h3⟩ := skipLine_white w2 b hw2 (by
        have := nodes_solid f b [] hf (Or.inl rfl); rwa [List.append_nil] at this)
      rw [h3]
      obtain ⟨h4, h5⟩ := top_rest f b w' hf h1
      by_cases hfn : f = .nil
      · rw [if_pos (h4.2 hfn), hfn]
      · rw [if_neg (fun h => hfn (h4.1 h)), h5]
        have := ih true [] n hfn white_nil (by
          simp only [List.length_append, List.length_cons, List.length_nil] at hn ⊢; omega)
        rw [List.nil_append] at this
        rw [this]; rfl
  | @data nm as a w1 wi v t k bi wc1 w2 f b hnm ha hw1 hwi hc hv hk hwc1 hw2 hf _ ih =>
    intro h w n _ hw hn
    cases n with
    | zero => omega
    | succ n =>
      have he : [60] ++ nm ++ a ++ w1 ++ [62] ++ (wi ++ t ++ bi) ++ ([60, 47] ++ nm ++ wc1 ++ [62]) ++ w2 ++ b
          = [60] ++ nm ++ a ++ w1 ++ [62] ++ (wi ++ (t ++ (bi ++ ([60, 47] ++ nm ++ wc1 ++ [62] ++ (w2 ++ b))))) := by
        simp
      rw [he] at hn ⊢
      unfold readTop
      rw [head_long (some dummy) h w nm as a w1 _ hw hnm ha hw1]
      dsimp only
      have hin : readKids n nm false (wi ++ (t ++ (bi ++ ([60, 47] ++ nm ++ wc1 ++ [62] ++ (w2 ++ b)))))
          = .ok (.text v k) (skipLine (w2 ++ b)) := by
        cases n with
        | zero => simp only [List.length_append, List.length_cons, List.length_nil] at hn; omega
        | succ n =>
          obtain ⟨r, hr⟩ : ∃ r, bi ++ ([60, 47] ++ nm ++ wc1 ++ [62] ++ (w2 ++ b)) = 60 :: r := by
            rcases nodes_lt k bi hk with rfl | ⟨r, rfl⟩
            · exact ⟨_, rfl⟩
            · exact ⟨_, rfl⟩
          have := kids_nodes k bi hk nm true [] wc1 (w2 ++ b) n hnm white_nil hwc1 (by
            simp only [List.length_append, List.length_cons, List.length_nil] at hn ⊢; omega)
          rw [List.nil_append, hr] at this
          rw [hr]
          unfold readKids
          rw [head_text nm wi t r v hwi hc hv]
          dsimp only
          rw [this]; rfl
      rw [hin]
      dsimp only
      obtain ⟨w', h1, h2, h3⟩ := skipLine_white w2 b hw2 (by
        have := nodes_solid f b [] hf (Or.inl rfl); rwa [List.append_nil] at this)
      rw [h3]
      obtain ⟨h4, h5⟩ := top_rest f b w' hf h1
      by_cases hfn : f = .nil
      · rw [if_pos (h4.2 hfn), hfn]
      · rw [if_neg (fun h => hfn (h4.1 h)), h5]
        have := ih true [] n hfn white_nil (by
          simp only [List.length_append, List.length_cons, List.length_nil] at hn ⊢; omega)
        rw [List.nil_append] at this
        rw [this]; rfl

/-! ## Saved documents -/

theorem norm_savable (layout : Bool) (g : Str) (f : Forest) : ∀ first, Savable layout first f → norm g f = f := by
  induction f with
  | nil => intro _ _; rfl
  | text t n ih => intro first h; simp only [norm, ih _ h.2.2.2]
  | comment t n ih =>
    intro first h
    simp only [norm, if_neg h.1.1, ih _ h.2]
  | elem pi name as k n ihk ih =>
    intro first h
    have hne : name ≠ [] := by
      intro h0; have := h.1; rw [h0] at this; exact this
    simp only [norm, if_neg hne, ihk _ h.2.2.2.1, ih _ h.2.2.2.2]

theorem put_white (layout : Bool) (c n : Nat) (hc : c = 32 ∨ c = 10) : White (put layout c n) := by
  intro x hx
  unfold put at hx
  split at hx
  · have := List.eq_of_mem_replicate hx
    omega
  · cases hx

theorem saveAttrs_ok (as : List (Str × Str)) (h : ∀ a ∈ as, GoodAttr a) : Attrs as (saveAttrs as) := by
  induction as with
  | nil => exact .nil
  | cons a as ih =>
    obtain ⟨n, v⟩ := a
    obtain ⟨h1, h2, h3⟩ := h (n, v) List.mem_cons_self
    exact .cons (w := [32]) (by intro c hc; simp at hc; exact Or.inl hc) (by simp) h1 h2 (outputValue_coded v h3)
      (ih fun x hx => h x (List.mem_cons_of_mem _ hx))

theorem plain_coded (t : Str) (h1 : 60 ∉ t) (h2 : 38 ∉ t) (h3 : 0 ∉ t) : Coded false t t := by
  induction t with
  | nil => exact .nil
  | cons c t ih =>
    simp only [List.mem_cons, not_or] at h1 h2 h3
    exact .plain c (Ne.symm h1.1) (Ne.symm h2.1) (Ne.symm h3.1) (by simp) (ih h1.2 h2.2 h3.2)

/-- Blanks behind the last node. -/
theorem nodes_white (f : Forest) (b : Str) (hf : Nodes f b) : ∀ w, f ≠ .nil → White w → Nodes f (b ++ w) := by
  induction hf with
  | nil => intro w h; exact absurd rfl h
  | @comment t w1 f b ht hw1 hf ih =>
    intro w _ hw
    by_cases hfn : f = .nil
    · subst hfn
      cases hf
      have := Nodes.comment ht (white_append w1 w hw1 hw) .nil
      simpa using this
    · have := Nodes.comment ht hw1 (ih w hfn hw)
      simpa using this
  | @short nm as a w1 w2 f b hnm ha hw1 hw2 hf ih =>
    intro w _ hw
    by_cases hfn : f = .nil
    · subst hfn
      cases hf
      have := Nodes.short hnm ha hw1 (white_append w2 w hw2 hw) .nil
      simpa using this
    · have := Nodes.short hnm ha hw1 hw2 (ih w hfn hw)
      simpa using this
  | @pi nm as a w1 w2 f b hnm ha hw1 hw2 hf ih =>
    intro w _ hw
    by_cases hfn : f = .nil
    · subst hfn
      cases hf
      have := Nodes.pi hnm ha hw1 (white_append w2 w hw2 hw) .nil
      simpa using this
    · have := Nodes.pi hnm ha hw1 hw2 (ih w hfn hw)
      simpa using this
  | @long nm as a w1 wi k bi wc1 w2 f b hnm ha hw1 hwi hk hwc1 hw2 hf _ ih =>
    intro w _ hw
    by_cases hfn : f = .nil
    · subst hfn
      cases hf
      have := Nodes.long hnm ha hw1 hwi hk hwc1 (white_append w2 w hw2 hw) .nil
      simpa using this
    · have := Nodes.long hnm ha hw1 hwi hk hwc1 hw2 (ih w hfn hw)
      simpa using this
  | @data nm as a w1 wi v t k bi wc1 w2 f b hnm ha hw1 hwi hc hv hk hwc1 hw2 hf _ ih =>
    intro w _ hw
    by_cases hfn : f = .nil
    · subst hfn
      cases hf
      have := Nodes.data hnm ha hw1 hwi hc hv hk hwc1 (white_append w2 w hw2 hw) .nil
      simpa using this
    · have := Nodes.data hnm ha hw1 hwi hc hv hk hwc1 hw2 (ih w hfn hw)
      simpa using this

theorem saveNodes_kids (layout : Bool) (lv : Nat) (pi : Bool) (name : Str) (as : List (Str × Str)) (k n : Forest)
    (h1 : k ≠ .nil) (h2 : ∀ t k', k ≠ .text t k') :
    saveNodes layout lv (.elem pi name as k n) =
      put layout 32 lv ++ [60] ++ (if pi then [63] else []) ++ name ++ saveAttrs as ++
      ([62] ++ put layout 10 1 ++ saveNodes layout (lv + 2) k ++ put layout 32 lv ++ [60, 47] ++ name ++ [62]) ++
      put layout 10 1 ++ saveNodes layout lv n := by
  cases k with
  | nil => exact absurd rfl h1
  | text t k' => exact absurd rfl (h2 t k')
  | comment t k' => rfl
  | elem a b c d e => rfl

theorem saveNodes_text (layout : Bool) (lv : Nat) (pi : Bool) (name : Str) (as : List (Str × Str)) (t : Str)
    (k n : Forest) (h1 : k ≠ .nil) :
    saveNodes layout lv (.elem pi name as (.text t k) n) =
      put layout 32 lv ++ [60] ++ (if pi then [63] else []) ++ name ++ saveAttrs as ++
      ([62] ++ t ++ put layout 10 1 ++ saveNodes layout (lv + 2) k ++ put layout 32 lv ++ [60, 47] ++ name ++ [62]) ++
      put layout 10 1 ++ saveNodes layout lv n := by
  cases k with
  | nil => exact absurd rfl h1
  | text t k' => rfl
  | comment t k' => rfl
  | elem a b c d e => rfl

/-- The saved nodes are, behind some blanks, a text of them. -/
def Saves (layout : Bool) (lv : Nat) (f : Forest) : Prop :=
  ∃ w b, White w ∧ (layout = false → w = []) ∧ Nodes f b ∧ saveNodes layout lv f = w ++ b

theorem saves_long (layout : Bool) (lv : Nat) (name : Str) (as : List (Str × Str)) (k n : Forest) (hn : Name name)
    (hat : Attrs as (saveAttrs as)) (h1 : k ≠ .nil) (h2 : ∀ t k', k ≠ .text t k') (hk : Saves layout (lv + 2) k)
    (hnx : Saves layout lv n) : Saves layout lv (.elem false name as k n) := by
  obtain ⟨w1, b1, hw1, _, hb1, he⟩ := hnx
  obtain ⟨w2, b2, hw2, _, hb2, he2⟩ := hk
  have hnl := put_white layout 10 1 (Or.inr rfl)
  have hind := put_white layout 32 lv (Or.inl rfl)
  refine ⟨put layout 32 lv, _, hind, ?_, Nodes.long hn hat white_nil (white_append _ _ hnl hw2)
    (nodes_white k b2 hb2 _ h1 hind) white_nil (white_append _ _ hnl hw1) hb1, ?_⟩
  · intro h; rw [h]; rfl
  · rw [saveNodes_kids layout lv false name as k n h1 h2, he, he2]
    simp

theorem save_nodes (layout : Bool) (f : Forest) :
    (∀ lv, Savable layout false f → Saves layout lv f) ∧
    (∀ t k, f = .text t k → ∀ lv, Savable layout false k → Saves layout lv k) := by
  induction f with
  | nil => exact ⟨fun lv _ => ⟨[], [], white_nil, fun _ => rfl, .nil, rfl⟩, fun t k h => by cases h⟩
  | text t n ih =>
    refine ⟨fun lv h => absurd h.1 (by simp), ?_⟩
    intro t' k' h
    cases h
    exact ih.1
  | comment t n ih =>
    refine ⟨?_, fun t k h => by cases h⟩
    intro lv h
    obtain ⟨w1, b1, hw1, _, hb1, he⟩ := ih.1 lv h.2
    refine ⟨put layout 32 lv, _, put_white _ _ _ (Or.inl rfl), fun h => by rw [h]; rfl,
      Nodes.comment h.1 (white_append _ _ (put_white layout 10 1 (Or.inr rfl)) hw1) hb1, ?_⟩
    simp only [saveNodes, he]
    simp
  | elem pi name as k n ihk ih =>
    refine ⟨?_, fun t k h => by cases h⟩
    intro lv h
    obtain ⟨hn, has, hpi, hk, hnx⟩ := h
    have hsn := ih.1 lv hnx
    have hat := saveAttrs_ok as has
    have hpf : k ≠ .nil → pi = false := by
      intro hkn
      cases pi with
      | false => rfl
      | true => exact absurd (hpi rfl) hkn
    cases k with
    | nil =>
      obtain ⟨w1, b1, hw1, _, hb1, he⟩ := hsn
      have hw2 := white_append _ _ (put_white layout 10 1 (Or.inr rfl)) hw1
      have hind := put_white layout 32 lv (Or.inl rfl)
      cases pi with
      | true =>
        refine ⟨put layout 32 lv, _, hind, fun h => by rw [h]; rfl, Nodes.pi hn hat white_nil hw2 hb1, ?_⟩
        simp only [saveNodes, he]
        simp
      | false =>
        refine ⟨put layout 32 lv, _, hind, fun h => by rw [h]; rfl, Nodes.short hn hat white_nil hw2 hb1, ?_⟩
        simp only [saveNodes, he]
        simp
    | text t k =>
      have := hpf (by simp)
      subst this
      obtain ⟨w1, b1, hw1, _, hb1, he⟩ := hsn
      have hw2 := white_append _ _ (put_white layout 10 1 (Or.inr rfl)) hw1
      have hind := put_white layout 32 lv (Or.inl rfl)
      obtain ⟨_, ⟨hv, h60, h38, h0⟩, hlay, hk'⟩ := hk
      have hcod := plain_coded t h60 h38 h0
      by_cases hkn : k = .nil
      · subst hkn
        refine ⟨put layout 32 lv, _, hind, fun h => by rw [h]; rfl,
          Nodes.data hn hat white_nil white_nil hcod hv .nil white_nil hw2 hb1, ?_⟩
        simp only [saveNodes, he]
        simp
      · cases layout with
        | true => exact absurd (hlay rfl) hkn
        | false =>
          obtain ⟨w3, b3, _, hw3, hb3, he3⟩ := ihk.2 t k rfl (lv + 2) hk'
          have := hw3 rfl
          subst this
          refine ⟨put false 32 lv, _, hind, fun h => by rfl,
            Nodes.data hn hat white_nil white_nil hcod hv hb3 white_nil hw2 hb1, ?_⟩
          rw [saveNodes_text false lv false name as t k n hkn, he, he3]
          simp [put]
    | comment t k =>
      have := hpf (by simp)
      subst this
      exact saves_long layout lv name as _ n hn hat (by simp) (by simp) (ihk.1 (lv + 2) hk) hsn
    | elem a b c d e =>
      have := hpf (by simp)
      subst this
      exact saves_long layout lv name as _ n hn hat (by simp) (by simp) (ihk.1 (lv + 2) hk) hsn

/-! ## The parser comes to an end -/

theorem skip_length (s : Str) : (skip s).length ≤ s.length := (List.dropWhile_suffix _).length_le

theorem skipLine_length (s : Str) : (skipLine s).length ≤ s.length := by
  induction s with
  | nil => exact Nat.le_refl _
  | cons c s ih =>
    unfold skipLine
    split
    · split
      · simp
      · simp; omega
    · exact Nat.le_refl _

/-- What is left behind the first node is less than before. -/
def Shorter (s : Str) : Head → Prop
  | .err _ => True
  | .ns => True
  | .fuel => False
  | .close r => r.length < s.length
  | .leaf _ r => r.length < s.length
  | .opened _ _ r => r.length < s.length

theorem shorter_mono (s s' : Str) (h : s.length ≤ s'.length) (x : Head) (hx : Shorter s x) : Shorter s' x := by
  cases x <;> simp only [Shorter] at hx ⊢ <;> omega

theorem readAttrs_shorter (pi : Bool) (name : Str) : ∀ (n : Nat) (s : Str) (acc : List (Str × Str)), s.length < n →
    Shorter s (readAttrs pi name n s acc) := by
  intro n
  induction n with
  | zero => intro s acc h; omega
  | succ n ih =>
    intro s acc hlt
    have hsk := skip_length s
    unfold readAttrs
    split
    · trivial
    · next c r hs =>
      rw [hs] at hsk
      simp only [List.length_cons] at hsk
      split
      · split
        · next r' =>
          have := skipLine_length r'
          simp only [List.length_cons] at hsk
          show (skipLine r').length < s.length
          omega
        · trivial
      · split
        · split
          · trivial
          · show r.length < s.length
            omega
        · split
          · trivial
          · next nm r1 hid =>
            obtain ⟨_, h1, _⟩ := ident_some _ _ _ hid
            have h1 := congrArg List.length h1
            split
            · trivial
            · next v r2 hv =>
              have h2 := congrArg List.length (attrValue_some _ _ _ hv)
              simp only [List.length_append, List.length_cons, List.length_nil] at h1 h2
              split
              · trivial
              · exact shorter_mono r2 s (by omega) _ (ih r2 _ (by omega))

theorem readClose_shorter (p : Option Str) (s : Str) : Shorter s (readClose p s) := by
  unfold readClose
  split
  · trivial
  · split
    · trivial
    · next w r hid =>
      obtain ⟨_, h1, _⟩ := ident_some _ _ _ hid
      have h1 := congrArg List.length h1
      have h2 := skip_length s
      split
      · trivial
      · split
        · have h3 := skip_length r
          split
          · next r' hr =>
            rw [hr] at h3
            have := skipLine_length r'
            simp only [List.length_append, List.length_cons] at h1 h3
            show (skipLine r').length < s.length
            omega
          · trivial
        · trivial

theorem readStart_shorter (pi : Bool) (s : Str) : Shorter s (readStart pi s) := by
  unfold readStart
  split
  · trivial
  · next w r hid =>
    obtain ⟨_, h1, _⟩ := ident_some _ _ _ hid
    have h1 := congrArg List.length h1
    have h2 := skip_length s
    rw [List.length_append] at h1
    exact shorter_mono r s (by omega) _ (readAttrs_shorter pi w _ r [] (by omega))

theorem head_shorter (p : Option Str) (h : Bool) (s : Str) : Shorter s (head p h s) := by
  have hsk := skip_length s
  unfold head
  split
  · trivial
  · next c r hs =>
    rw [hs] at hsk
    simp only [List.length_cons] at hsk
    split
    · split
      · trivial
      · next t r' hse =>
        have h1 := congrArg List.length (search_some _ _ _ hse).1
        have h2 := skip_length r'
        simp only [List.length_append, List.length_cons, List.length_nil, List.length_drop] at h1
        show (skip r').length < s.length
        omega
    · split
      · next hc =>
        split
        · trivial
        · split
          · trivial
          · next t r' hco =>
            obtain ⟨h1, r'', h2⟩ := content_some _ _ _ hco
            have ht : t ≠ [] := by
              intro h0
              rw [h0, h2, List.nil_append, List.cons.injEq] at h1
              exact hc h1.1
            have h1 := congrArg List.length h1
            have ht := List.length_pos_iff.2 ht
            simp only [List.length_append, List.length_cons] at h1
            show r'.length < s.length
            omega
      · split
        · trivial
        · next c1 r1 _ =>
          simp only [List.length_cons] at hsk
          split
          · exact shorter_mono r1 s (by omega) _ (readClose_shorter p r1)
          · split
            · exact shorter_mono r1 s (by omega) _ (readStart_shorter true r1)
            · exact shorter_mono (c1 :: r1) s (by simp only [List.length_cons]; omega) _ (readStart_shorter false _)

/-- The result is one, and less is left than before. -/
def Done (s : Str) : Res → Prop
  | .ok _ r => r.length ≤ s.length
  | .err _ => True
  | .ns => True
  | .fuel => False

theorem done_map (s s' : Str) (g : Forest → Forest) (x : Res) (h : Done s x) (hl : s.length ≤ s'.length) :
    Done s' (x.map g) := by
  cases x <;> simp only [Done, Res.map] at h ⊢; omega

theorem readKids_done : ∀ (n : Nat) (p : Str) (h : Bool) (s : Str), s.length < n → Done s (readKids n p h s) := by
  intro n
  induction n with
  | zero => intro p h s hn; omega
  | succ n ih =>
    intro p h s hn
    have hh := head_shorter (some p) h s
    unfold readKids
    split
    · trivial
    · trivial
    · next he => rw [he] at hh; exact hh
    · next r he =>
      rw [he] at hh
      exact Nat.le_of_lt hh
    · next i r he =>
      rw [he] at hh
      have hh : r.length < s.length := hh
      exact done_map r s _ _ (ih p true r (by omega)) (by omega)
    · next name as r he =>
      rw [he] at hh
      have hh : r.length < s.length := hh
      have h1 := ih name false r (by omega)
      split
      · next k r' hk =>
        rw [hk] at h1
        have h1 : r'.length ≤ r.length := h1
        exact done_map r' s _ _ (ih p true r' (by omega)) (by omega)
      · trivial
      · trivial
      · next hk => rw [hk] at h1; exact h1

theorem readTop_done : ∀ (n : Nat) (h : Bool) (s : Str), s.length < n → Done s (readTop n h s) := by
  intro n
  induction n with
  | zero => intro h s hn; omega
  | succ n ih =>
    intro h s hn
    have hh := head_shorter (some dummy) h s
    unfold readTop
    split
    · trivial
    · trivial
    · next he => rw [he] at hh; exact hh
    · trivial
    · next i r he =>
      rw [he] at hh
      have hh : r.length < s.length := hh
      have hs := skip_length r
      split
      · exact Nat.zero_le _
      · exact done_map (skip r) s _ _ (ih true (skip r) (by omega)) (by omega)
    · next name as r he =>
      rw [he] at hh
      have hh : r.length < s.length := hh
      have h1 := readKids_done n name false r (by omega)
      split
      · next k r' hk =>
        rw [hk] at h1
        have h1 : r'.length ≤ r.length := h1
        have hs := skip_length r'
        split
        · exact Nat.zero_le _
        · exact done_map (skip r') s _ _ (ih true (skip r') (by omega)) (by omega)
      · trivial
      · trivial
      · next hk => rw [hk] at h1; exact h1

/-! ## The shape of parsed documents -/

def GoodNames (as : List (Str × Str)) : Prop := ∀ a ∈ as, Name a.1 ∧ NoNs a.1

/-- What the first node may be. -/
def HeadShape (h : Bool) : Head → Prop
  | .leaf (.text t) _ => h = false ∧ t ≠ []
  | .leaf (.comment t) _ => ¬ [45, 45, 62] <:+: t
  | .leaf (.short _ name as) _ => Name name ∧ GoodNames as
  | .opened name as _ => Name name ∧ GoodNames as
  | _ => True

theorem unpack_ne (t : Str) (h : t ≠ []) : unpack t ≠ [] := by
  cases t with
  | nil => exact absurd rfl h
  | cons c r =>
    unfold unpack unpackFrom
    split
    · split <;> simp
    · simp

theorem readAttrs_shape (h : Bool) (pi : Bool) (name : Str) (hn : Name name) : ∀ (n : Nat) (s : Str)
    (acc : List (Str × Str)), GoodNames acc → HeadShape h (readAttrs pi name n s acc) := by
  intro n
  induction n with
  | zero => intro s acc _; trivial
  | succ n ih =>
    intro s acc hacc
    unfold readAttrs
    split
    · trivial
    · split
      · split
        · exact ⟨hn, hacc⟩
        · trivial
      · split
        · split
          · trivial
          · exact ⟨hn, hacc⟩
        · split
          · trivial
          · next nm r1 hid =>
            split
            · trivial
            · split
              · trivial
              · next hns =>
                apply ih
                intro a ha
                rcases List.mem_append.1 ha with ha | ha
                · exact hacc a ha
                · simp only [List.mem_singleton] at ha
                  subst ha
                  exact ⟨(ident_some _ _ _ hid).1, (isNs_iff nm).1 (by simpa using hns)⟩

theorem readClose_shape (h : Bool) (p : Option Str) (s : Str) : HeadShape h (readClose p s) := by
  unfold readClose
  split
  · trivial
  · split
    · trivial
    · split
      · trivial
      · split
        · split <;> trivial
        · trivial

theorem readStart_shape (h pi : Bool) (s : Str) : HeadShape h (readStart pi s) := by
  unfold readStart
  split
  · trivial
  · next hid => exact readAttrs_shape h pi _ (ident_some _ _ _ hid).1 _ _ _ (by intro a ha; cases ha)

theorem head_shape (p : Option Str) (h : Bool) (s : Str) : HeadShape h (head p h s) := by
  unfold head
  split
  · trivial
  · split
    · split
      · trivial
      · next hse => exact (search_some _ _ _ hse).2
    · split
      · next hc =>
        split
        · trivial
        · next hp =>
          split
          · trivial
          · next t r' hco =>
            refine ⟨by simp at hp; exact hp.2, unpack_ne _ ?_⟩
            intro h0
            obtain ⟨h1, r'', h2⟩ := content_some _ _ _ hco
            rw [h0, h2, List.nil_append, List.cons.injEq] at h1
            exact hc h1.1
      · split
        · trivial
        · split
          · exact readClose_shape h p _
          · split
            · exact readStart_shape h true _
            · exact readStart_shape h false _

theorem shape_link (h : Bool) (i : Item) (r : Str) (n : Forest) (hi : HeadShape h (.leaf i r)) (hn : Shape false n) :
    Shape (!h) (i.link n) := by
  cases i with
  | text t => exact ⟨by rw [hi.1]; rfl, hi.2, hn⟩
  | comment t => exact ⟨hi, hn⟩
  | short pi name as => exact ⟨hi.1, hi.2, fun _ => rfl, trivial, hn⟩

theorem map_ok (g : Forest → Forest) (x : Res) (f : Forest) (r : Str) (h : x.map g = .ok f r) :
    ∃ f', x = .ok f' r ∧ f = g f' := by
  cases x with
  | ok f' r' =>
    simp only [Res.map, Res.ok.injEq] at h
    exact ⟨f', by rw [h.2], h.1.symm⟩
  | err c => cases h
  | ns => cases h
  | fuel => cases h

theorem readKids_shape : ∀ (n : Nat) (p : Str) (h : Bool) (s : Str) (f : Forest) (r : Str),
    readKids n p h s = .ok f r → Shape (!h) f := by
  intro n
  induction n with
  | zero => intro p h s f r he; cases he
  | succ n ih =>
    intro p h s f r he
    have hh := head_shape (some p) h s
    unfold readKids at he
    split at he
    · cases he
    · cases he
    · cases he
    · cases he; trivial
    · next i r0 hx =>
      rw [hx] at hh
      obtain ⟨f', h1, rfl⟩ := map_ok _ _ _ _ he
      exact shape_link h i r0 f' hh (ih _ _ _ _ _ h1)
    · next name as r0 hx =>
      rw [hx] at hh
      split at he
      · next k r' hk =>
        obtain ⟨f', h1, rfl⟩ := map_ok _ _ _ _ he
        exact ⟨hh.1, hh.2, fun h => absurd h Bool.false_ne_true, ih _ _ _ _ _ hk, ih _ _ _ _ _ h1⟩
      · cases he
      · cases he
      · cases he

theorem readTop_shape : ∀ (n : Nat) (h : Bool) (s : Str) (f : Forest) (r : Str),
    readTop n h s = .ok f r → Shape (!h) f ∧ f ≠ .nil := by
  intro n
  induction n with
  | zero => intro h s f r he; cases he
  | succ n ih =>
    intro h s f r he
    have hh := head_shape (some dummy) h s
    unfold readTop at he
    split at he
    · cases he
    · cases he
    · cases he
    · cases he
    · next i r0 hx =>
      rw [hx] at hh
      have hne : ∀ n, i.link n ≠ .nil := by intro n; cases i <;> simp [Item.link]
      split at he
      · simp only [Res.ok.injEq] at he
        rw [← he.1]
        exact ⟨shape_link h i r0 .nil hh trivial, hne _⟩
      · obtain ⟨f', h1, rfl⟩ := map_ok _ _ _ _ he
        exact ⟨shape_link h i r0 f' hh (ih _ _ _ _ h1).1, hne _⟩
    · next name as r0 hx =>
      rw [hx] at hh
      split at he
      · next k r' hk =>
        have hks := readKids_shape _ _ _ _ _ _ hk
        split at he
        · simp only [Res.ok.injEq] at he
          rw [← he.1]
          exact ⟨⟨hh.1, hh.2, fun h => absurd h Bool.false_ne_true, hks, trivial⟩, by simp⟩
        · obtain ⟨f', h1, rfl⟩ := map_ok _ _ _ _ he
          exact ⟨⟨hh.1, hh.2, fun h => absurd h Bool.false_ne_true, hks, (ih _ _ _ _ h1).1⟩, by simp⟩
      · cases he
      · cases he
      · cases he

theorem savable_clean (f : Forest) : ∀ first, Shape first f → Clean f → Savable false first f := by
  induction f with
  | nil => intro _ _ _; trivial
  | text t n ih => intro first h hc; exact ⟨h.1, hc.1, by simp, ih _ h.2.2 hc.2⟩
  | comment t n ih => intro first h hc; exact ⟨⟨hc.1, h.1, hc.2.1⟩, ih _ h.2 hc.2.2⟩
  | elem pi name as k n ihk ih =>
    intro first h hc
    exact ⟨h.1, fun a ha => ⟨(h.2.1 a ha).1, (h.2.1 a ha).2, hc.1 a ha⟩, h.2.2.1, ihk _ h.2.2.2.1 hc.2.1,
      ih _ h.2.2.2.2 hc.2.2⟩

end Verif.Xml
