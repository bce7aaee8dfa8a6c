import Verif.NameMatch
import Verif.Spec.NameMatch

/-!
# C41: name masks
-/

namespace Verif.NameMatch
open Verif.Bytes Verif.Text

theorem takeWhile_self (f : Byte → Bool) : ∀ (l : List Byte), (∀ x ∈ l, f x = true) → l.takeWhile f = l
  | [], _ => rfl
  | a :: l, h => by
    rw [List.takeWhile_cons, if_pos (h a (by simp)), takeWhile_self f l fun x hx => h x (by simp [hx])]

theorem mem_takeWhile (f : Byte → Bool) (x : Byte) : ∀ (l : List Byte), x ∈ l.takeWhile f → f x = true
  | [], h => by simp at h
  | a :: l, h => by
    rw [List.takeWhile_cons] at h
    split at h
    · rename_i ha
      rcases List.mem_cons.1 h with rfl | h
      · exact ha
      · exact mem_takeWhile f x l h
    · simp at h

theorem matches_nil (name : List Byte) : Matches [] name ↔ name = [] := by
  constructor
  · rintro ⟨ps, h, e⟩
    cases h
    exact e.symm
  · rintro rfl
    exact ⟨[], .nil, rfl⟩

theorem matches_cons (b : Byte) (m name : List Byte) :
    Matches (b :: m) name ↔ ∃ p n, name = p ++ n ∧ Piece b p ∧ Matches m n := by
  constructor
  · rintro ⟨ps, h, e⟩
    cases h with
    | cons hp ht => exact ⟨_, _, by rw [← e]; rfl, hp, _, ht, rfl⟩
  · rintro ⟨p, n, rfl, hp, ps, ht, rfl⟩
    exact ⟨p :: ps, .cons hp ht, rfl⟩

/-- The library function as modelled decides the language of the pattern. -/
theorem glob_iff : ∀ (m n : List Byte), glob m n = true ↔ Matches m n
  | [], n => by rw [matches_nil, glob]; simp
  | b :: m, [] => by
    rw [matches_cons, glob]
    have ih := glob_iff m []
    constructor
    · intro h
      simp only [Bool.and_eq_true, decide_eq_true_eq] at h
      exact ⟨[], [], rfl, by simp [Piece, h.1], ih.1 h.2⟩
    · rintro ⟨p, n, e, hp, hm⟩
      have e' := List.append_eq_nil_iff.1 e.symm
      obtain ⟨rfl, rfl⟩ := e'
      unfold Piece at hp
      split at hp
      · rename_i hb
        simp [hb, ih.2 hm]
      · split at hp <;> simp at hp
  | b :: m, c :: n => by
    rw [matches_cons, glob]
    have ih1 := glob_iff m (c :: n)
    have ih2 := glob_iff (b :: m) n
    have ih3 := glob_iff m n
    by_cases hb : b = 42
    · subst hb
      simp only [if_true, Bool.or_eq_true]
      rw [ih1, ih2]
      constructor
      · rintro (h | h)
        · exact ⟨[], c :: n, rfl, by simp [Piece], h⟩
        · obtain ⟨p, q, rfl, _, hm⟩ := (matches_cons _ _ _).1 h
          exact ⟨c :: p, q, rfl, by simp [Piece], hm⟩
      · rintro ⟨p, q, e, _, hm⟩
        cases p with
        | nil => left; rw [List.nil_append] at e; rw [e]; exact hm
        | cons x p =>
          right
          rw [List.cons_append, List.cons.injEq] at e
          exact (matches_cons _ _ _).2 ⟨p, q, e.2, by simp [Piece], hm⟩
    · rw [if_neg hb]
      by_cases hq : b = 63
      · rw [if_pos hq, ih3]
        constructor
        · intro h
          exact ⟨[c], n, rfl, by simp [Piece, hb, hq], h⟩
        · rintro ⟨p, q, e, hp, hm⟩
          simp only [Piece, hb, hq, if_false, if_true] at hp
          obtain ⟨x, rfl⟩ := List.length_eq_one_iff.1 hp
          simp only [List.cons_append, List.nil_append, List.cons.injEq] at e
          rw [e.2]; exact hm
      · rw [if_neg hq, Bool.and_eq_true, decide_eq_true_eq, ih3]
        constructor
        · rintro ⟨rfl, h⟩
          exact ⟨[b], n, rfl, by simp [Piece, hb, hq], h⟩
        · rintro ⟨p, q, e, hp, hm⟩
          simp only [Piece, hb, hq, if_false] at hp
          subst hp
          simp only [List.cons_append, List.nil_append, List.cons.injEq] at e
          exact ⟨e.1.symm, by rw [e.2]; exact hm⟩
termination_by m n => m.length + n.length

theorem matches_plain : ∀ (m n : List Byte), 42 ∉ m → 63 ∉ m → (Matches m n ↔ n = m)
  | [], n, _, _ => matches_nil n
  | b :: m, n, h1, h2 => by
    rw [matches_cons]
    simp only [List.mem_cons, not_or] at h1 h2
    have hb : ¬ b = 42 := fun h => h1.1 h.symm
    have hq : ¬ b = 63 := fun h => h2.1 h.symm
    constructor
    · rintro ⟨p, q, rfl, hp, hm⟩
      simp only [Piece, hb, hq, if_false] at hp
      rw [hp, (matches_plain m q h1.2 h2.2).1 hm]
      rfl
    · rintro rfl
      exact ⟨[b], m, rfl, by simp [Piece, hb, hq], (matches_plain m m h1.2 h2.2).2 rfl⟩

theorem cstr_id (s : List Byte) (h : 0 ∉ s) : cstr s = s := by
  unfold cstr
  refine takeWhile_self _ _ fun x hx => ?_
  have : x ≠ 0 := fun e => h (e ▸ hx)
  simpa using this

/-- A mask with `*` and `?` fits exactly the names it describes.
Missing in comparison with the full statement: the empty name (`C41_empty_counterexample`) and masks with `;`
(`C41_hang_counterexample`); masks with a bracket `[` next to a wildcard have no documented meaning here. -/
theorem C41_match_partial (br : List Byte → List Byte → Bool) (name mask : List Byte)
    (hn : name ≠ [] ∨ ∃ b ∈ mask, b ≠ 42) (h0 : 0 ∉ name) (h0' : 0 ∉ mask) (hs : 59 ∉ mask) (hb : 91 ∉ mask) :
    ∃ r, nameMatch br name mask = some r ∧ (r = true ↔ Matches mask name) := by
  unfold nameMatch
  by_cases hm : mask = []
  · subst hm
    refine ⟨_, if_pos (by simp), ?_⟩
    rw [matches_nil]
    simp
  by_cases hn' : name = []
  · subst hn'
    refine ⟨_, if_pos (by simp), ?_⟩
    have hlen : mask.length ≠ 0 := fun h => hm (List.length_eq_zero_iff.1 h)
    have hf : ¬ Matches mask [] := by
      rintro ⟨ps, h, e⟩
      obtain ⟨b, hbm, hb42⟩ : ∃ b ∈ mask, b ≠ 42 := by
        rcases hn with h | h
        · exact absurd rfl h
        · exact h
      have key : ∀ (m : List Byte) (ps : List (List Byte)), List.Forall₂ Piece m ps → ps.flatten = [] → b ∉ m := by
        intro m ps h
        induction h with
        | nil => intro _; simp
        | cons hp _ ih =>
          intro e
          rw [List.flatten_cons, List.append_eq_nil_iff] at e
          rw [e.1] at hp
          intro hmem
          rcases List.mem_cons.1 hmem with rfl | h
          · unfold Piece at hp
            rw [if_neg hb42] at hp
            split at hp <;> simp at hp
          · exact ih e.2 h
      exact key mask ps h e hbm
    simp only [hf, iff_false]
    simp only [List.length_nil, decide_eq_true_eq]
    exact fun h => hlen h.symm
  · have hlen : ¬ (decide (mask.length = 0) || decide (name.length = 0)) = true := by
      simp [hm, hn']
    rw [if_neg hlen, if_neg (by simpa using hs)]
    by_cases hw : 42 ∈ mask ∨ 63 ∈ mask
    · rw [if_neg (by
        have e : (mask.contains 42 || mask.contains 63) = true := by
          rw [Bool.or_eq_true, List.contains_iff_mem, List.contains_iff_mem]; exact hw
        rw [e]; decide)]
      by_cases hst : mask = [42]
      · rw [if_pos hst]
        refine ⟨true, rfl, ?_⟩
        simp only [true_iff]
        rw [hst]
        exact ⟨[name], .cons (by simp [Piece]) .nil, by simp⟩
      · rw [if_neg hst, cstr_id _ h0', cstr_id _ h0]
        refine ⟨_, rfl, ?_⟩
        unfold fnmatch
        rw [if_neg (by simpa using hb)]
        exact glob_iff _ _
    · rw [if_pos (by simpa using hw)]
      refine ⟨_, rfl, ?_⟩
      rw [not_or] at hw
      rw [matches_plain _ _ hw.1 hw.2]
      simp

/-- "ab*c?" fits "abxxcd". -/
example : ∃ name mask : List Byte, (name ≠ [] ∨ ∃ b ∈ mask, b ≠ 42) ∧ 0 ∉ name ∧ 0 ∉ mask ∧ 59 ∉ mask ∧ 91 ∉ mask ∧
    nameMatch (fun _ _ => false) name mask = some true ∧ Matches mask name ∧ ¬ Matches mask [97] := by
  refine ⟨[97, 98, 120, 120, 99, 100], [97, 98, 42, 99, 63], by decide, by decide, by decide, by decide, by decide, ?_, ?_, ?_⟩
  · simp [nameMatch, fnmatch, cstr, glob]
  · rw [← glob_iff]; simp [glob]
  · rw [← glob_iff]; simp [glob]

/-- A mask without wildcards (brackets included) fits exactly itself, for every name. -/
theorem C41_plain (br : List Byte → List Byte → Bool) (name mask : List Byte)
    (h1 : 42 ∉ mask) (h2 : 63 ∉ mask) (hs : 59 ∉ mask) :
    ∃ r, nameMatch br name mask = some r ∧ (r = true ↔ name = mask) := by
  unfold nameMatch
  split
  · rename_i h
    refine ⟨_, rfl, ?_⟩
    simp only [Bool.or_eq_true, decide_eq_true_eq, List.length_eq_zero_iff] at h
    rcases h with rfl | rfl
    · simp
    · simp only [decide_eq_true_eq, List.length_nil]
      constructor
      · intro h; exact (List.length_eq_zero_iff.1 h.symm).symm
      · rintro rfl; rfl
  · rw [if_neg (by simpa using hs), if_pos (by
      have e1 : mask.contains 42 = false := by simpa using h1
      have e2 : mask.contains 63 = false := by simpa using h2
      rw [e1, e2]; rfl)]
    exact ⟨_, rfl, by simp⟩

example : nameMatch (fun _ _ => false) [91, 97, 93] [91, 97, 93] = some true ∧
    (42 : Byte) ∉ ([91, 97, 93] : List Byte) ∧ (63 : Byte) ∉ ([91, 97, 93] : List Byte) ∧
    (59 : Byte) ∉ ([91, 97, 93] : List Byte) := by decide

/-- The full statement fails: a `*` stands for nothing too, but does not fit the empty name. -/
theorem C41_empty_counterexample (br : List Byte → List Byte → Bool) :
    nameMatch br [] [42] = some false ∧ Matches [42] [] := by
  refine ⟨rfl, [[]], .cons (by simp [Piece]) .nil, rfl⟩

/-- The call never returns when the mask contains `;` and neither name nor mask is empty. -/
theorem C41_hang_counterexample (br : List Byte → List Byte → Bool) (name mask : List Byte) (hn : name ≠ [])
    (hs : 59 ∈ mask) : nameMatch br name mask = none := by
  have hm : mask ≠ [] := fun h => by rw [h] at hs; simp at hs
  unfold nameMatch
  rw [if_neg (by simp [hn, hm]), if_pos (by simpa using hs)]

theorem partOf_cases (part mask : List Byte) :
    PartOf part mask ↔ part = mask.takeWhile (· ≠ 58) ∨ ∃ x r, mask.dropWhile (· ≠ 58) = x :: r ∧ PartOf part r := by
  have hsplit := List.takeWhile_append_dropWhile (p := fun x : Byte => decide (x ≠ 58)) (l := mask)
  have hw : 58 ∉ mask.takeWhile (fun x : Byte => decide (x ≠ 58)) := by
    intro h
    have := mem_takeWhile _ _ _ h
    simp at this
  have hd : ∀ x r, mask.dropWhile (fun x : Byte => decide (x ≠ 58)) = x :: r → x = 58 := by
    intro x r h
    have h1 := List.head_dropWhile_not (fun x : Byte => decide (x ≠ 58)) (l := mask) (by rw [h]; simp)
    simp only [h, List.head_cons] at h1
    simpa using h1
  generalize ht : mask.takeWhile (fun x : Byte => decide (x ≠ 58)) = t at *
  generalize hdd : mask.dropWhile (fun x : Byte => decide (x ≠ 58)) = d at *
  have take_unique : ∀ (a : List Byte) (b : List Byte), mask = a ++ b → 58 ∉ a → (b = [] ∨ ∃ p, b = 58 :: p) → a = t := by
    intro a b e ha hb
    rw [← ht, e]
    have hall : ∀ x ∈ a, (fun x : Byte => decide (x ≠ 58)) x = true := by
      intro x hx
      have : x ≠ 58 := fun h => ha (h ▸ hx)
      simpa using this
    rw [List.takeWhile_append_of_pos hall]
    rcases hb with rfl | ⟨p, rfl⟩
    · simp
    · simp
  constructor
  · rintro ⟨pre, post, e, hpart, hpre, hpost⟩
    rcases hpre with rfl | ⟨q, rfl⟩
    · left
      exact take_unique part post (by rw [e, List.nil_append]) hpart hpost
    · right
      -- the first separator lies in `q ++ [58]`
      have hq := List.takeWhile_append_dropWhile (p := fun x : Byte => decide (x ≠ 58)) (l := q)
      have hq1 : 58 ∉ q.takeWhile (fun x : Byte => decide (x ≠ 58)) := by
        intro h
        have := mem_takeWhile _ _ _ h
        simp at this
      cases hq2 : q.dropWhile (fun x : Byte => decide (x ≠ 58)) with
      | nil =>
        rw [hq2, List.append_nil] at hq
        rw [hq] at hq1
        have h1 : mask = q ++ (58 :: (part ++ post)) := by rw [e]; simp
        have h2 := take_unique q _ h1 hq1 (Or.inr ⟨_, rfl⟩)
        rw [h1, h2] at hsplit
        have h3 := List.append_cancel_left hsplit
        refine ⟨58, part ++ post, h3, [], post, by simp, hpart, Or.inl rfl, hpost⟩
      | cons x q' =>
        have hx : x = 58 := by
          have h1 := List.head_dropWhile_not (fun x : Byte => decide (x ≠ 58)) (l := q) (by rw [hq2]; simp)
          simp only [hq2, List.head_cons] at h1
          simpa using h1
        subst hx
        rw [hq2] at hq
        have h1 : mask = q.takeWhile (fun x : Byte => decide (x ≠ 58)) ++ (58 :: (q' ++ [58] ++ part ++ post)) := by
          rw [e]
          conv_lhs => rw [← hq]
          simp
        have h2 := take_unique _ _ h1 hq1 (Or.inr ⟨_, rfl⟩)
        rw [h2] at h1
        rw [h1] at hsplit
        have h3 := List.append_cancel_left hsplit
        exact ⟨58, _, h3, q' ++ [58], post, rfl, hpart, Or.inr ⟨q', rfl⟩, hpost⟩
  · rintro (rfl | ⟨x, r, hxr, pre, post, e, hpart, hpre, hpost⟩)
    · refine ⟨[], d, by rw [List.nil_append]; exact hsplit.symm, hw, Or.inl rfl, ?_⟩
      cases hd' : d with
      | nil => exact Or.inl rfl
      | cons x r => exact Or.inr ⟨r, by rw [hd x r hd']⟩
    · have hx := hd x r hxr
      subst hx
      refine ⟨t ++ 58 :: pre, post, ?_, hpart, Or.inr ?_, hpost⟩
      · rw [← hsplit, hxr, e]; simp
      · rcases hpre with rfl | ⟨p, rfl⟩
        · exact ⟨t, rfl⟩
        · exact ⟨t ++ 58 :: p, by simp⟩

theorem maskLoop_spec (br : List Byte → List Byte → Bool) (name : List Byte) (hn : name ≠ []) (h0 : 0 ∉ name) :
    ∀ (k : Nat) (rest : List Byte), rest.length ≤ k → 0 ∉ rest → 59 ∉ rest → 91 ∉ rest →
      ∃ r, maskLoop br name rest = some r ∧ (r = true ↔ ∃ part, PartOf part rest ∧ part ≠ [] ∧ Matches part name) := by
  intro k
  induction k with
  | zero =>
    intro rest hk _ _ _
    have : rest = [] := List.length_eq_zero_iff.1 (Nat.le_zero.1 hk)
    subst this
    refine ⟨false, by rw [maskLoop]; simp, ?_⟩
    simp only [Bool.false_eq_true, false_iff]
    rintro ⟨part, ⟨pre, post, e, _⟩, hne, _⟩
    have := congrArg List.length e
    simp at this
    exact hne (List.length_eq_zero_iff.1 (by omega))
  | succ k ih =>
    intro rest hk h1 h2 h3
    have hsub : ∀ x, x ∉ rest → x ∉ rest.takeWhile (fun y : Byte => decide (y ≠ 58)) := fun x hx hm =>
      hx ((List.takeWhile_prefix _).subset hm)
    have hnext : ∃ r, (if _h : rest.dropWhile (fun y : Byte => decide (y ≠ 58)) = [] then some false
        else maskLoop br name (rest.dropWhile (fun y : Byte => decide (y ≠ 58))).tail) = some r ∧
        (r = true ↔ ∃ x q, rest.dropWhile (fun y : Byte => decide (y ≠ 58)) = x :: q ∧
          ∃ part, PartOf part q ∧ part ≠ [] ∧ Matches part name) := by
      have hd := List.dropWhile_suffix (fun y : Byte => decide (y ≠ 58)) (l := rest)
      cases h : rest.dropWhile (fun y : Byte => decide (y ≠ 58)) with
      | nil => exact ⟨false, by simp, by simp⟩
      | cons x q =>
        rw [dif_neg (by simp), List.tail_cons]
        rw [h] at hd
        have hsuf : ∀ y, y ∉ rest → y ∉ q := fun y hy hm => hy (hd.subset (List.mem_cons_of_mem _ hm))
        have hlen := hd.length_le
        rw [List.length_cons] at hlen
        obtain ⟨r, e, hr⟩ := ih q (by omega) (hsuf _ h1) (hsuf _ h2) (hsuf _ h3)
        refine ⟨r, e, hr.trans ⟨fun hp => ⟨x, q, rfl, hp⟩, fun ⟨x', q', h', hp⟩ => ?_⟩⟩
        cases h'
        exact hp
    obtain ⟨r, er, hr⟩ := hnext
    rw [maskLoop, er]
    have hparts : (∃ part, PartOf part rest ∧ part ≠ [] ∧ Matches part name) ↔
        (rest.takeWhile (fun y : Byte => decide (y ≠ 58)) ≠ [] ∧
          Matches (rest.takeWhile (fun y : Byte => decide (y ≠ 58))) name) ∨ r = true := by
      rw [hr]
      constructor
      · rintro ⟨part, hp, hne, hm⟩
        rcases (partOf_cases part rest).1 hp with rfl | ⟨x, q, e, hq⟩
        · exact Or.inl ⟨hne, hm⟩
        · exact Or.inr ⟨x, q, e, part, hq, hne, hm⟩
      · rintro (⟨hne, hm⟩ | ⟨x, q, e, part, hq, hne, hm⟩)
        · exact ⟨_, (partOf_cases _ rest).2 (Or.inl rfl), hne, hm⟩
        · exact ⟨part, (partOf_cases _ rest).2 (Or.inr ⟨x, q, e, hq⟩), hne, hm⟩
    rw [hparts]
    generalize rest.takeWhile (fun y : Byte => decide (y ≠ 58)) = t at *
    by_cases ht : t = []
    · subst ht
      rw [if_pos (by simp)]
      exact ⟨r, rfl, by simp⟩
    · rw [if_neg (by simpa using ht)]
      obtain ⟨v, ev, hv⟩ := C41_match_partial br name t (Or.inl hn) h0 (hsub _ h1) (hsub _ h2) (hsub _ h3)
      rw [ev]
      cases v with
      | true => exact ⟨true, rfl, by simp [ht, hv.1 rfl]⟩
      | false =>
        refine ⟨r, rfl, ?_⟩
        have : ¬ Matches t name := fun h => by simpa using hv.2 h
        simp [this]

/-- A list of masks separated by `:` fits exactly the names described by one of them.
Missing in comparison with the full statement: as in `C41_match_partial`. -/
theorem C41_list_partial (br : List Byte → List Byte → Bool) (name mask : List Byte) (hn : name ≠ [])
    (h0 : 0 ∉ name) (h0' : 0 ∉ mask) (hs : 59 ∉ mask) (hb : 91 ∉ mask) :
    ∃ r, nameMatchM br name mask = some r ∧
      (r = true ↔ ∃ part, PartOf part mask ∧ part ≠ [] ∧ Matches part name) := by
  unfold nameMatchM
  split
  · exact maskLoop_spec br name hn h0 _ mask (Nat.le_refl _) h0' hs hb
  · rename_i hc
    have hc' : 58 ∉ mask := by simpa using hc
    obtain ⟨r, e, hr⟩ := C41_match_partial br name mask (Or.inl hn) h0 h0' hs hb
    refine ⟨r, e, hr.trans ?_⟩
    have ht : mask.takeWhile (fun y : Byte => decide (y ≠ 58)) = mask := by
      refine takeWhile_self _ _ fun x hx => ?_
      have : x ≠ 58 := fun e => hc' (e ▸ hx)
      simpa using this
    have hd : mask.dropWhile (fun y : Byte => decide (y ≠ 58)) = [] := by
      have := List.takeWhile_append_dropWhile (p := fun x : Byte => decide (x ≠ 58)) (l := mask)
      rw [ht] at this
      simpa using this
    constructor
    · intro hm
      refine ⟨mask, (partOf_cases _ _).2 (Or.inl ht.symm), ?_, hm⟩
      rintro rfl
      exact hn ((matches_nil _).1 hm)
    · rintro ⟨part, hp, _, hm⟩
      rcases (partOf_cases _ _).1 hp with rfl | ⟨x, q, e, _⟩
      · rwa [ht] at hm
      · rw [hd] at e; cases e

/-- "a*:b" fits "b". -/
example : ∃ name mask : List Byte, name ≠ [] ∧ 0 ∉ name ∧ 0 ∉ mask ∧ 59 ∉ mask ∧ 91 ∉ mask ∧
    PartOf [98] mask ∧ Matches [98] name := by
  refine ⟨[98], [97, 42, 58, 98], by decide, by decide, by decide, by decide, by decide,
    ⟨[97, 42, 58], [], rfl, by decide, Or.inr ⟨[97, 42], rfl⟩, Or.inl rfl⟩, ?_⟩
  rw [← glob_iff]; simp [glob]

end Verif.NameMatch
