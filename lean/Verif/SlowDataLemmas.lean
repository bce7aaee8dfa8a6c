import Verif.SlowData
import Verif.UrlLemmas
/-!
# Lemmas about records with slow control data
-/

namespace Verif.SlowData
open Verif.Bytes Verif.Json Verif.Text

theorem getNum_enc (k v : Nat) (hv : v < 256 ^ k) (l : List Byte) : getNum k (enc k v ++ l) = .ok (v, l) := by
  unfold getNum
  have h1 : ¬ (enc k v ++ l).length < k := by rw [List.length_append, enc_length]; omega
  rw [if_neg h1, List.take_left' (enc_length k v), List.drop_left' (enc_length k v), dec_enc_of_lt hv]

theorem getVals_values (vs : List (BitVec 64)) (l : List Byte) :
    getVals vs.length ((vs.flatMap fun v => enc 8 v.toNat) ++ l) = .ok (vs, l) := by
  induction vs with
  | nil => rfl
  | cons v vs ih =>
    have hv : v.toNat < 256 ^ 8 := v.isLt
    simp only [List.length_cons, getVals, List.flatMap_cons, List.append_assoc]
    rw [getNum_enc 8 v.toNat hv]
    simp only [Rd.bind]
    rw [ih]
    simp

theorem getValues_values (lim : Nat) (vs : List (BitVec 64)) (l : List Byte) (h1 : vs.length ≤ lim) (h2 : vs.length < 2 ^ 32) :
    getValues lim (values vs ++ l) = .ok (vs, l) := by
  unfold getValues values
  rw [List.append_assoc, getNum_enc 8 vs.length (Nat.lt_of_lt_of_le h2 (by decide))]
  simp only [Rd.bind]
  rw [if_neg (by omega)]
  exact getVals_values vs l

theorem takeWhile_nul (n : List Byte) (h : (0 : Byte) ∉ n) (l : List Byte) :
    (n ++ 0 :: l).takeWhile (· ≠ 0) = n ∧ (n ++ 0 :: l).dropWhile (· ≠ 0) = 0 :: l := by
  induction n with
  | nil => simp
  | cons b n ih =>
    have hb : b ≠ 0 := fun e => h (by rw [e]; exact List.mem_cons_self)
    obtain ⟨i1, i2⟩ := ih (fun e => h (List.mem_cons_of_mem _ e))
    constructor
    · rw [List.cons_append, List.takeWhile_cons, if_pos (decide_eq_true hb), i1]
    · rw [List.cons_append, List.dropWhile_cons, if_pos (decide_eq_true hb), i2]

theorem getStr_append (n : List Byte) (h : (0 : Byte) ∉ n) (l : List Byte) : getStr (n ++ 0 :: l) = .ok (n, l) := by
  unfold getStr
  obtain ⟨h1, h2⟩ := takeWhile_nul n h l
  rw [if_pos (by simp), h1, h2]
  rfl

theorem getNames_names (ns : List (List Byte)) (h : ∀ n ∈ ns, (0 : Byte) ∉ n) (l : List Byte) :
    getNames ns.length (ns.flatMap (· ++ [0]) ++ l) = .ok (ns, l) := by
  induction ns with
  | nil => rfl
  | cons n ns ih =>
    simp only [List.length_cons, getNames, List.flatMap_cons, List.append_assoc, List.cons_append, List.nil_append]
    rw [if_neg (by simp)]
    rw [getStr_append n (h n (by simp))]
    simp only [Rd.bind]
    rw [ih (fun x hx => h x (by simp [hx]))]

theorem getBlock_block (ns : List (List Byte)) (h : ∀ n ∈ ns, (0 : Byte) ∉ n) (hl : ns.length < 2 ^ 32) (l : List Byte) :
    getBlock ns.length (block ns ++ l) = .ok (ns, l) := by
  obtain ⟨d1, d2, _⟩ := decNat_spec (ns.length % 2 ^ 32)
  have e : block ns ++ l = (decNat (ns.length % 2 ^ 32) ++ [32]) ++ 0 :: (ns.flatMap (· ++ [0]) ++ l) := by
    unfold block
    simp only [List.append_assoc, List.cons_append, List.nil_append]
  unfold getBlock
  rw [e, getStr_append _ (by
    intro hm
    rw [List.mem_append] at hm
    rcases hm with hm | hm
    · exact digits_nul d1 hm
    · simp at hm)]
  simp only [Rd.bind]
  have hs : scanUint 32 (decNat (ns.length % 2 ^ 32) ++ [32]) = .val ns.length := by
    unfold scanUint
    rw [scanDec_digits d1 (fun b hb => by simp at hb; subst hb; decide)]
    dsimp only
    rw [d2, Nat.mod_eq_of_lt hl, if_pos hl, if_neg (by simp)]
  rw [hs]
  dsimp only
  rw [if_neg (by simp)]
  exact getNames_names ns h l

theorem values_length (vs : List (BitVec 64)) : (values vs).length = 8 + vs.length * 8 := by
  unfold values
  have : (vs.flatMap fun v => enc 8 v.toNat).length = vs.length * 8 := by
    induction vs with
    | nil => rfl
    | cons v vs ih => rw [List.flatMap_cons, List.length_append, enc_length, ih, List.length_cons]; omega
  rw [List.length_append, enc_length, this]

theorem image_length (r : R) :
    (image r).length = 4 + 4 + 8 + r.longs.length * 8 + 8 + r.doubles.length * 8 + (descriptor r).length := by
  unfold image
  simp only [List.length_append, enc_length, values_length]
  omega

theorem descriptor_aligned (r : R) : (descriptor r).length % 4 = 0 := by
  unfold descriptor
  dsimp only
  rw [List.length_append, List.length_replicate]
  omega

/-! Reading -/

theorem bind_ok {α β : Type} {x : Rd α} {f : α → Rd β} {b : β} (h : x.bind f = .ok b) : ∃ a, x = .ok a ∧ f a = .ok b := by
  cases x with
  | ok a => exact ⟨a, rfl, h⟩
  | bad => cases h
  | oob => cases h
  | thrown => cases h
  | undef => cases h

theorem getNum_lt {k v : Nat} {l m : List Byte} (h : getNum k l = .ok (v, m)) : v < 256 ^ k := by
  unfold getNum at h
  split at h
  · cases h
  · cases h
    refine Nat.lt_of_lt_of_le (dec_lt _) (Nat.pow_le_pow_right (by decide) ?_)
    rw [List.length_take]; omega

theorem getStr_nul {l n m : List Byte} (h : getStr l = .ok (n, m)) : (0 : Byte) ∉ n := by
  unfold getStr at h
  split at h
  · cases h
    intro hm
    have : ∀ l : List Byte, (0 : Byte) ∉ l.takeWhile (· ≠ 0) := by
      intro l
      induction l with
      | nil => simp
      | cons b l ih =>
        rw [List.takeWhile_cons]
        split
        · rename_i hb
          simp only [List.mem_cons, not_or]
          refine ⟨?_, ih⟩
          intro e; subst e; simp at hb
        · simp
    exact this _ hm
  · cases h

theorem getNames_ok : ∀ {n : Nat} {l m : List Byte} {ns : List (List Byte)}, getNames n l = .ok (ns, m) →
    ns.length = n ∧ ∀ x ∈ ns, (0 : Byte) ∉ x := by
  intro n
  induction n with
  | zero => intro l m ns h; cases h; simp
  | succ n ih =>
    intro l m ns h
    simp only [getNames] at h
    split at h
    · cases h
    · obtain ⟨⟨a, b⟩, h1, h2⟩ := bind_ok h
      obtain ⟨⟨c, d⟩, h3, h4⟩ := bind_ok h2
      cases h4
      obtain ⟨i1, i2⟩ := ih h3
      refine ⟨by simp [i1], ?_⟩
      intro x hx
      simp only [List.mem_cons] at hx
      rcases hx with rfl | hx
      · exact getStr_nul h1
      · exact i2 x hx

theorem scanUint_lt {s : List Byte} {v : Int} (h : scanUint 32 s = .val v) : v < 2 ^ 32 := by
  unfold scanUint at h
  split at h
  · cases h
  · rename_i neg n _
    split at h
    · rename_i hn
      simp only [Scan.val.injEq] at h
      subst h
      split
      · have : (2 ^ 32 - n) % 2 ^ 32 < 2 ^ 32 := Nat.mod_lt _ (by decide)
        exact_mod_cast this
      · exact_mod_cast hn
    · cases h

theorem getBlock_ok {n : Nat} {l m : List Byte} {ns : List (List Byte)} (h : getBlock n l = .ok (ns, m)) :
    ns.length = n ∧ n < 2 ^ 32 ∧ ∀ x ∈ ns, (0 : Byte) ∉ x := by
  unfold getBlock at h
  obtain ⟨⟨a, b⟩, h1, h2⟩ := bind_ok h
  dsimp only at h2
  split at h2
  · cases h2
  · cases h2
  · rename_i v hv
    split at h2
    · cases h2
    · rename_i he
      obtain ⟨i1, i2⟩ := getNames_ok h2
      refine ⟨i1, ?_, i2⟩
      have := scanUint_lt hv
      simp only [ne_eq, Decidable.not_not] at he
      rw [he] at this
      exact_mod_cast this

end Verif.SlowData
