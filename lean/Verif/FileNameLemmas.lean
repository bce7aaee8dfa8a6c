import Verif.Spec.FileName
import Verif.Props.NameMatch
import Verif.UrlLemmas
import Verif.JsonLemmas

namespace Verif.FileName
open Verif.Bytes Verif.Json Verif.Text Verif.NameMatch Verif.Url

/-! ## Place of the extension -/

theorem rfind_some {pat : List Byte} : ∀ {s : List Byte} {n : Nat}, rfind pat s = some n → pat <+: s.drop n ∧ n ≤ s.length
  | [], n, h => by
    unfold rfind at h
    split at h
    · cases h; rename_i e; simp [e]
    · cases h
  | c :: s, n, h => by
    unfold rfind at h
    split at h
    · rename_i k hk
      cases h
      obtain ⟨h1, h2⟩ := rfind_some hk
      exact ⟨by simpa using h1, by simpa using h2⟩
    · split at h
      · cases h
        rename_i hp
        exact ⟨by simpa using List.isPrefixOf_iff_prefix.1 hp, by simp⟩
      · cases h

theorem rfind_end {pat : List Byte} : ∀ {s : List Byte}, pat <:+ s → rfind pat s = some (s.length - pat.length)
  | [], h => by
    have : pat = [] := List.suffix_nil.1 h
    subst this
    rfl
  | c :: s, h => by
    unfold rfind
    rcases List.suffix_cons_iff.1 h with h1 | h1
    · subst h1
      cases hr : rfind (c :: s) s with
      | some n =>
        obtain ⟨h2, h3⟩ := rfind_some hr
        have := h2.length_le
        simp at this
        omega
      | none =>
        dsimp only
        rw [if_pos (by simp)]
        simp
    · rw [rfind_end h1]
      dsimp only
      have := h1.length_le
      simp only [List.length_cons, Option.some.injEq]
      omega

/-- The new name is some part, the suffix and the extension. -/
theorem produce_cases (ext name : List Byte) :
    (∃ pre, (pre ++ ext = name ∨ (pre = name ∧ ¬ ext <:+ name)) ∧ ∀ suf, produce ext name suf = some (pre ++ suf ++ ext)) ∨
      (name.length + 1 = ext.length ∧ ∀ suf, produce ext name suf = none) := by
  cases hr : rfind ext name with
  | none =>
    have hn : ¬ ext <:+ name := fun h => by rw [rfind_end h] at hr; cases hr
    by_cases hl : name.length + 1 = ext.length
    · right
      refine ⟨hl, fun suf => ?_⟩
      unfold produce
      rw [hr]
      dsimp only
      rw [if_pos hl]
    · left
      refine ⟨name, .inr ⟨rfl, hn⟩, fun suf => ?_⟩
      unfold produce
      rw [hr]
      dsimp only
      rw [if_neg hl]
  | some pos =>
    left
    obtain ⟨h1, h2⟩ := rfind_some hr
    by_cases hl : pos + ext.length = name.length
    · have he : name.drop pos = ext := by
        refine (h1.eq_of_length ?_).symm
        rw [List.length_drop]
        omega
      refine ⟨name.take pos, .inl ?_, fun suf => ?_⟩
      · rw [← he]
        exact List.take_append_drop ..
      · unfold produce
        rw [hr]
        dsimp only
        rw [if_pos hl, he]
    · refine ⟨name, .inr ⟨rfl, fun h => ?_⟩, fun suf => ?_⟩
      · rw [rfind_end h] at hr
        have := h.length_le
        cases hr
        omega
      · unfold produce
        rw [hr]
        dsimp only
        rw [if_neg hl]

/-! ## Directory and item -/

def Dir (dir : List Byte) : Prop := dir = [] ∨ dir.getLast? = some 47

theorem split_eq {dir item : List Byte} (hd : Dir dir) (hi : 47 ∉ item) : dirOf (dir ++ item) = dir ∧ itemOf (dir ++ item) = item := by
  have key : ∀ (i d : List Byte), 47 ∉ i → (d = [] ∨ d.head? = some 47) →
      (i ++ d).dropWhile (· ≠ (47 : Byte)) = d ∧ (i ++ d).takeWhile (· ≠ (47 : Byte)) = i := by
    intro i d hi hd
    induction i with
    | nil =>
      rcases hd with h | h
      · subst h; exact ⟨rfl, rfl⟩
      · cases d with
        | nil => cases h
        | cons x d =>
          simp only [List.head?_cons, Option.some.injEq] at h
          subst h
          exact ⟨rfl, rfl⟩
    | cons x i ih =>
      have hx : x ≠ 47 := fun h => hi (by rw [h]; exact List.mem_cons_self)
      obtain ⟨h1, h2⟩ := ih fun h => hi (List.mem_cons_of_mem _ h)
      rw [List.cons_append, List.dropWhile_cons_of_pos (by simpa using hx), List.takeWhile_cons_of_pos (by simpa using hx), h1, h2]
      exact ⟨rfl, rfl⟩
  have hk := key item.reverse dir.reverse (by simpa using hi) (by
    rcases hd with h | h
    · left; rw [h]; rfl
    · right; rw [List.head?_reverse, h])
  unfold dirOf itemOf
  rw [List.reverse_append, hk.1, hk.2, List.reverse_reverse, List.reverse_reverse]
  exact ⟨rfl, rfl⟩

/-- Every new name is in the directory of the given one, and is no hidden file. -/
theorem stem {ext name : List Byte} (he : Extension ext) (hu : Usual ext name) {f : List Byte} (suf : List Byte)
    (hf : produce ext name suf = some f) :
    ∃ dir pi, Dir dir ∧ 47 ∉ pi ∧ 91 ∉ pi ∧ 0 ∉ pi ∧ pi.head? ≠ some 46 ∧
      ∀ suf, produce ext name suf = some (dir ++ (pi ++ suf ++ ext)) := by
  obtain ⟨e1, e2, e3, _, _, e4⟩ := he
  obtain ⟨h0, dir, item, hn, hi, hd, hb, hh⟩ := hu
  rcases produce_cases ext name with ⟨pre, hp, hall⟩ | ⟨_, hall⟩
  · rcases hp with hp | ⟨hp, hs⟩
    · -- the extension is the end of the item
      have hsuf : ext <:+ item := by
        have h1 : ext <:+ dir ++ item := ⟨pre, by rw [hp, hn]⟩
        rcases List.suffix_or_suffix_of_suffix h1 (List.suffix_append dir item) with h | ⟨x, hx⟩
        · exact h
        · have hd2 : pre ++ x = dir := by
            have : (pre ++ x) ++ item = dir ++ item := by rw [List.append_assoc, hx, hp, hn]
            exact List.append_cancel_right this
          rcases List.eq_nil_or_concat x with h | ⟨y, z, h⟩
          · rw [h] at hx
            exact ⟨[], hx.symm⟩
          · exfalso
            rw [List.concat_eq_append] at h
            have hl : dir.getLast? = some z := by
              rw [← hd2, h, ← List.append_assoc, List.getLast?_concat]
            rcases hd with hd | hd
            · rw [hd] at hl; cases hl
            · rw [hd] at hl
              cases hl
              exact e2 (by rw [← hx, h]; simp)
      obtain ⟨pi, hpi⟩ := hsuf
      have hpre : pre = dir ++ pi := by
        have : pre ++ ext = (dir ++ pi) ++ ext := by rw [hp, hn, ← hpi, List.append_assoc]
        exact List.append_cancel_right this
      refine ⟨dir, pi, hd, ?_, ?_, ?_, ?_, fun suf => ?_⟩
      · exact fun h => hi (by rw [← hpi]; exact List.mem_append_left _ h)
      · exact fun h => hb (by rw [← hpi]; exact List.mem_append_left _ h)
      · exact fun h => h0 (by rw [hn, ← hpi]; exact List.mem_append_right _ (List.mem_append_left _ h))
      · cases pi with
        | nil => simp
        | cons x pi =>
          rcases hh with hh | hh
          · rw [← hpi] at hh
            simpa using hh
          · rw [← hpi] at hh
            have := congrArg List.length hh
            simp at this
            omega
      · rw [hall, hpre]
        simp
    · refine ⟨dir, item, hd, hi, hb, ?_, ?_, fun suf => ?_⟩
      · exact fun h => h0 (by rw [hn]; exact List.mem_append_right _ h)
      · rcases hh with hh | hh
        · exact hh
        · exact absurd ⟨dir, by rw [hn, hh]⟩ hs
      · rw [hall, hp, hn]
        simp
  · rw [hall] at hf
    cases hf

/-! ## The mask finds the new names -/

theorem matches_self : ∀ m : List Byte, Matches m m
  | [] => (matches_nil []).2 rfl
  | b :: m => (matches_cons b m _).2 ⟨[b], m, rfl, by unfold Piece; split <;> [trivial; (split <;> rfl)], matches_self m⟩

theorem matches_append {m1 n1 m2 n2 : List Byte} (h1 : Matches m1 n1) (h2 : Matches m2 n2) : Matches (m1 ++ m2) (n1 ++ n2) := by
  induction m1 generalizing n1 with
  | nil => rw [(matches_nil n1).1 h1]; exact h2
  | cons b m ih =>
    obtain ⟨p, n, rfl, hp, hm⟩ := (matches_cons b m n1).1 h1
    exact (matches_cons b _ _).2 ⟨p, n ++ n2, by simp, hp, ih hm⟩

theorem matches_split {m1 m2 n : List Byte} (h : Matches (m1 ++ m2) n) : ∃ n1 n2, n = n1 ++ n2 ∧ Matches m1 n1 ∧ Matches m2 n2 := by
  induction m1 generalizing n with
  | nil => exact ⟨[], n, rfl, (matches_nil []).2 rfl, h⟩
  | cons b m ih =>
    obtain ⟨p, n', rfl, hp, hm⟩ := (matches_cons b _ n).1 h
    obtain ⟨n1, n2, rfl, h1, h2⟩ := ih hm
    exact ⟨p ++ n1, n2, by simp, (matches_cons b m _).2 ⟨p, n1, rfl, hp, h1⟩, h2⟩

theorem no_bracket {pi ext : List Byte} (h1 : 91 ∉ pi) (h2 : 91 ∉ ext) : (pi ++ [42] ++ ext).contains 91 = false := by
  rw [Bool.eq_false_iff, ne_eq, List.contains_iff_mem]
  intro h
  rcases List.mem_append.1 h with h | h
  · rcases List.mem_append.1 h with h | h
    · exact h1 h
    · exact absurd (List.mem_singleton.1 h) (by decide)
  · exact h2 h

theorem mask_ends (br : List Byte → List Byte → Bool) {pi ext item : List Byte} (h1 : 91 ∉ pi) (h2 : 91 ∉ ext) (h3 : 42 ∉ ext)
    (h4 : 63 ∉ ext) (h : fnmatch br (pi ++ [42] ++ ext) item = true) : ∃ x, item = x ++ ext := by
  unfold fnmatch at h
  rw [no_bracket h1 h2, if_neg (by simp), glob_iff] at h
  obtain ⟨n1, n2, rfl, _, hm⟩ := matches_split h
  exact ⟨n1, by rw [(matches_plain ext n2 h3 h4).1 hm]⟩

theorem mask_finds (br : List Byte → List Byte → Bool) {pi ext : List Byte} (suf : List Byte) (h1 : 91 ∉ pi) (h2 : 91 ∉ ext) :
    fnmatch br (pi ++ [42] ++ ext) (pi ++ suf ++ ext) = true := by
  unfold fnmatch
  rw [no_bracket h1 h2, if_neg (by simp), glob_iff]
  refine matches_append (matches_append (matches_self pi) ?_) (matches_self ext)
  exact (matches_cons 42 [] suf).2 ⟨suf, [], by simp, by unfold Piece; rw [if_pos rfl]; trivial, (matches_nil []).2 rfl⟩

/-! ## Numbers -/

theorem strip_zeros : ∀ (k : Nat) (t : List Byte), t ≠ [] → strip (List.replicate k 48 ++ t) = strip t
  | 0, t, _ => rfl
  | k + 1, t, ht => by
    obtain ⟨c, l, hl⟩ : ∃ c l, List.replicate k 48 ++ t = c :: l := by
      cases h : List.replicate k 48 ++ t with
      | nil => simp at h; exact absurd h.2 ht
      | cons c l => exact ⟨c, l, rfl⟩
    rw [List.replicate_succ, List.cons_append, hl]
    show (if (48 : Byte) = 48 then strip (c :: l) else _) = _
    rw [if_pos rfl, ← hl, strip_zeros k t ht]

theorem strip_dec (n : Nat) : strip (decNat n) = decNat n := by
  obtain ⟨h1, h2, h3, h4⟩ := decNat_spec n
  cases h : decNat n with
  | nil => rfl
  | cons b l =>
    cases l with
    | nil => rfl
    | cons c l =>
      show (if b = 48 then _ else _) = _
      rw [if_neg]
      intro hb
      rw [h] at h3
      rcases h3 with h3 | h3
      · simp at h3
      · simp [hb] at h3

theorem strip_padded (w n : Nat) : strip (padded w n) = decNat n := by
  unfold padded
  rw [strip_zeros _ _ (decNat_spec n).1.1, strip_dec]

theorem padded_digits (w n : Nat) : Digits (padded w n) := by
  obtain ⟨⟨h1, h2⟩, _⟩ := decNat_spec n
  unfold padded
  refine ⟨by simp [h1], fun b hb => ?_⟩
  rcases List.mem_append.1 hb with h | h
  · rw [(List.mem_replicate.1 h).2]
    unfold isDigit
    decide
  · exact h2 b h

theorem digit_isDec {b : Byte} (h : isDigit b) : isDec b = true := by
  unfold isDigit at h
  unfold isDec
  simp [h.1, h.2]

theorem strToInt_digits' {t : List Byte} (h : Digits t) : strToInt 32 t = .val (natVal t) ∨ strToInt 32 t = .undef := by
  unfold strToInt
  dsimp only
  rw [start_digits h, if_neg h.1, digits_hexPrefix h, digits_float h]
  simp only [Bool.false_eq_true, if_false]
  unfold scanInt
  have := scanDec_digits (r := []) h (by simp)
  rw [List.append_nil] at this
  rw [this]
  dsimp only
  simp only [Bool.false_eq_true, if_false]
  split
  · exact .inl rfl
  · exact .inr rfl

/-- Digits at the end. -/
theorem digits_end {a d : List Byte} {c : Byte} (hc : isDec c = false) (hd : ∀ b ∈ d, isDec b = true) :
    ((a ++ c :: d).reverse.takeWhile isDec).reverse = d := by
  have : (a ++ c :: d).reverse = d.reverse ++ c :: a.reverse := by simp
  rw [this, List.takeWhile_append_of_pos (fun b hb => hd b (List.mem_reverse.1 hb)), List.takeWhile_cons_of_neg (by simp [hc])]
  simp

theorem suffix_shape (n : Int) : ∃ a c w, suffix n = a ++ c :: padded w n.natAbs ∧ isDec c = false := by
  unfold suffix
  split
  · exact ⟨[95], 45, 3, rfl, by decide⟩
  · exact ⟨[], 95, 4, rfl, by decide⟩

theorem number_suffix (ext pre : List Byte) (n : Int) :
    number ext (pre ++ suffix n ++ ext) = some (some (n.natAbs : Int)) ∨ number ext (pre ++ suffix n ++ ext) = none := by
  obtain ⟨a, c, w, hs, hc⟩ := suffix_shape n
  have hbody : (pre ++ suffix n ++ ext).take ((pre ++ suffix n ++ ext).length - ext.length) = (pre ++ a) ++ c :: padded w n.natAbs := by
    have : (pre ++ suffix n ++ ext).length - ext.length = (pre ++ suffix n).length := by
      rw [List.length_append]; omega
    rw [this, List.take_left', hs]
    · simp
    · rfl
  unfold number
  dsimp only
  rw [hbody, digits_end hc fun b hb => digit_isDec ((padded_digits w n.natAbs).2 b hb)]
  rw [if_neg (by simp; omega), if_neg (padded_digits w n.natAbs).1, strip_padded]
  obtain ⟨h1, h2, _⟩ := decNat_spec n.natAbs
  rcases strToInt_digits' h1 with h | h
  · left; rw [h, h2]
  · right; rw [h]

theorem maxNumber_le {ext : List Byte} : ∀ {l : List (List Byte)} {m r : Int}, maxNumber ext l m = some r →
    m ≤ r ∧ ∀ f ∈ l, number ext f ≠ none ∧ ∀ v, number ext f = some (some v) → v ≤ r
  | [], m, r, h => by cases h; exact ⟨Int.le_refl _, by simp⟩
  | f :: l, m, r, h => by
    unfold maxNumber at h
    split at h
    · cases h
    · rename_i hf
      obtain ⟨h1, h2⟩ := maxNumber_le h
      refine ⟨h1, fun g hg => ?_⟩
      rcases List.mem_cons.1 hg with hg | hg
      · rw [hg, hf]; exact ⟨by simp, by simp⟩
      · exact h2 g hg
    · rename_i v hf
      obtain ⟨h1, h2⟩ := maxNumber_le h
      have hv : v ≤ r ∧ m ≤ r := by
        split at h1 <;> omega
      refine ⟨hv.2, fun g hg => ?_⟩
      rcases List.mem_cons.1 hg with hg | hg
      · rw [hg, hf]
        refine ⟨by simp, fun v' hv' => ?_⟩
        cases hv'
        exact hv.1
      · exact h2 g hg

theorem suffix_inj {i j : Int} (h : suffix i = suffix j) : i = j := by
  have hp : ∀ {w w' a b : Nat}, padded w a = padded w' b → a = b := by
    intro w w' a b h
    have h1 := congrArg strip h
    rw [strip_padded, strip_padded] at h1
    have h2 := congrArg natVal h1
    rwa [(decNat_spec a).2.1, (decNat_spec b).2.1] at h2
  have hne : ∀ (w n : Nat) (l : List Byte), (45 : Byte) :: l ≠ padded w n := by
    intro w n l h
    have := (padded_digits w n).2 45 (by rw [← h]; exact List.mem_cons_self)
    unfold isDigit at this
    revert this
    decide
  unfold suffix at h
  split at h <;> split at h
  · simp only [List.cons.injEq, true_and] at h
    have := hp h
    omega
  · simp only [List.cons.injEq, true_and] at h
    exact absurd h (hne _ _ _)
  · simp only [List.cons.injEq, true_and] at h
    exact absurd h.symm (hne _ _ _)
  · simp only [List.cons.injEq, true_and] at h
    have := hp h
    omega

theorem names_mem {ext name : List Byte} : ∀ {k : Nat} {n : Int} {l : List (List Byte)}, names ext name k n = some l →
    l.length = k ∧ ∀ (i : Nat) (f : List Byte), l[i]? = some f → n + i + 1 < 2 ^ 31 ∧ produce ext name (suffix (n + i)) = some f
  | 0, n, l, h => by cases h; exact ⟨rfl, by simp⟩
  | k + 1, n, l, h => by
    unfold names at h
    split at h
    · cases h
    · rename_i f n' hf
      obtain ⟨l', hl', rfl⟩ := Option.map_eq_some_iff.1 h
      obtain ⟨h1, h2⟩ := names_mem hl'
      unfold newName at hf
      split at hf
      · rename_i hlt
        obtain ⟨g, hg, hg2⟩ := Option.map_eq_some_iff.1 hf
        cases hg2
        refine ⟨by simp [h1], fun i f' hi => ?_⟩
        cases i with
        | zero =>
          cases hi
          exact ⟨by simpa using hlt, by simpa using hg⟩
        | succ i =>
          have := h2 i f' (by simpa using hi)
          have e : n + 1 + (i : Int) = n + ((i + 1 : Nat) : Int) := by omega
          rw [e] at this
          exact this
      · cases hf

end Verif.FileName
