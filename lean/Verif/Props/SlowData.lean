import Verif.SlowDataLemmas
/-!
# C109: records with slow control data
-/

namespace Verif.SlowData
open Verif.Bytes Verif.Json Verif.Text

/-- As made by `AddLong` and `AddDouble` with names without zero bytes. -/
structure Good (r : R) : Prop where
  id : r.id < 2 ^ 32
  time : r.time < 2 ^ 32
  longs : r.longNames.length = r.longs.length
  doubles : r.doubleNames.length = r.doubles.length
  fewLongs : r.longs.length < 2 ^ 32
  fewDoubles : r.doubles.length < 2 ^ 32
  longText : ∀ n ∈ r.longNames, (0 : Byte) ∉ n
  doubleText : ∀ n ∈ r.doubleNames, (0 : Byte) ∉ n

/-- Bytes needed: 24 and 8 for each value, the names with a zero byte each, and two numbers with a space and a zero byte, filled up
to a multiple of four. -/
def needed (r : R) : Nat :=
  24 + 8 * (r.longs.length + r.doubles.length) +
    ((decNat r.longNames.length).length + (decNat r.doubleNames.length).length + 4 +
      ((r.longNames ++ r.doubleNames).map fun n => n.length + 1).sum + 3) / 4 * 4

theorem names_length (ns : List (List Byte)) : (ns.flatMap (· ++ [0])).length = (ns.map fun n => n.length + 1).sum := by
  induction ns with
  | nil => rfl
  | cons n ns ih => rw [List.flatMap_cons, List.length_append, ih]; simp

theorem image_needed {r : R} (h : Good r) : (image r).length = needed r := by
  rw [image_length]
  unfold needed
  have hd : (descriptor r).length = ((decNat r.longNames.length).length + (decNat r.doubleNames.length).length + 4 +
      ((r.longNames ++ r.doubleNames).map fun n => n.length + 1).sum + 3) / 4 * 4 := by
    unfold descriptor
    dsimp only
    rw [List.length_append, List.length_replicate]
    have : (block r.longNames ++ block r.doubleNames).length =
        (decNat r.longNames.length).length + (decNat r.doubleNames.length).length + 4 +
      ((r.longNames ++ r.doubleNames).map fun n => n.length + 1).sum := by
      unfold block
      simp only [List.length_append, names_length, List.map_append, List.sum_append]
      rw [Nat.mod_eq_of_lt (by rw [h.longs]; exact h.fewLongs), Nat.mod_eq_of_lt (by rw [h.doubles]; exact h.fewDoubles)]
      simp only [List.length_cons, List.length_nil]
      omega
    rw [this]
    omega
  rw [hd]
  omega

/-- `Write` into a buffer which is large enough returns the size, a multiple of four, changes only these bytes, and `Read` of the
buffer — of these bytes or of more — gives the record back.  In a smaller buffer `Write` does nothing and returns 0. -/
theorem C109_roundtrip_partial (r : R) (h : Good r) (hs : needed r < 2 ^ 32) (buf : List Byte) :
    (needed r ≤ buf.length → ∃ mem, write r buf = .ok (needed r) mem ∧ needed r % 4 = 0 ∧ mem.length = buf.length ∧
      mem.drop (needed r) = buf.drop (needed r) ∧
      ∀ lim n, r.longs.length ≤ lim → r.doubles.length ≤ lim → needed r ≤ n → read lim (mem.take n) = .ok r) ∧
    (buf.length < needed r → write r buf = .fail) := by
  have hi := image_needed h
  have hraw : rawSize r = needed r := by
    unfold rawSize
    rw [← image_length, hi, Nat.mod_eq_of_lt hs]
  constructor
  · intro hb
    refine ⟨image r ++ buf.drop (image r).length, ?_, ?_, ?_, ?_, ?_⟩
    · unfold write
      dsimp only
      rw [hraw, if_neg (by omega), if_neg (by omega)]
    · rw [← hi, image_length]
      have := descriptor_aligned r
      omega
    · rw [List.length_append, List.length_drop]; omega
    · rw [List.drop_left' hi, hi]
    · intro lim n hl hd hn
      have e : ∃ j, (image r ++ buf.drop (image r).length).take n = image r ++ j := by
        refine ⟨(buf.drop (image r).length).take (n - (image r).length), ?_⟩
        rw [List.take_append, List.take_of_length_le (by omega)]
      obtain ⟨j, e⟩ := e
      rw [e]
      unfold read
      rw [if_neg (by rw [List.length_append, image_length]; omega)]
      have ej : image r ++ j = enc 4 r.id ++ (enc 4 r.time ++ (values r.longs ++ (values r.doubles ++ (block r.longNames ++
          (block r.doubleNames ++ (List.replicate ((4 - (block r.longNames ++ block r.doubleNames).length % 4) % 4) 0 ++ j)))))) := by
        unfold image descriptor
        simp only [List.append_assoc]
      rw [ej, getNum_enc 4 r.id (Nat.lt_of_lt_of_le h.id (by decide))]
      simp only [Rd.bind]
      rw [getNum_enc 4 r.time (Nat.lt_of_lt_of_le h.time (by decide))]
      simp only []
      rw [getValues_values lim _ _ hl h.fewLongs]
      simp only []
      rw [getValues_values lim _ _ hd h.fewDoubles]
      simp only []
      rw [← h.longs, getBlock_block _ h.longText (by rw [h.longs]; exact h.fewLongs)]
      simp only []
      rw [← h.doubles, getBlock_block _ h.doubleText (by rw [h.doubles]; exact h.fewDoubles)]
  · intro hb
    unfold write
    dsimp only
    rw [hraw, if_pos (by omega)]

def sample : R := { id := 7, time := 9, longNames := [[97, 49]], longs := [5], doubleNames := [[], [98]], doubles := [6, 7] }

example : Good sample ∧ needed sample < 2 ^ 32 ∧ needed sample = 60 := by
  refine ⟨⟨?_, ?_, ?_, ?_, ?_, ?_, ?_, ?_⟩, ?_, ?_⟩
  all_goals simp [sample, needed, decNat]

/-- A name with a zero byte makes the record unreadable, or another one. -/
theorem C109_name_counterexample (lim : Nat) (v : BitVec 64) (hl : 1 ≤ lim) :
    read lim (image { longNames := [[97, 0, 98]], longs := [v] }) = .bad := by
  have e : image { longNames := [[97, 0, 98]], longs := [v] } =
      enc 4 0 ++ (enc 4 0 ++ (values [v] ++ (values [] ++ (block [[97]] ++ ([98] ++ 0 :: ([48, 32] ++ 0 :: [0, 0])))))) := by
    unfold image descriptor block
    simp [decNat]
  unfold read
  rw [if_neg (by rw [image_length]; omega), e, getNum_enc 4 0 (by decide)]
  simp only [Rd.bind]
  rw [getNum_enc 4 0 (by decide)]
  simp only []
  rw [getValues_values lim [v] _ (by simpa using hl) (by simp)]
  simp only []
  rw [getValues_values lim [] _ (by simp) (by simp)]
  simp only []
  rw [show ([v] : List (BitVec 64)).length = [([97] : List Byte)].length from rfl, getBlock_block [[97]] (by decide) (by simp)]
  simp only []
  unfold getBlock
  rw [getStr_append [98] (by decide)]
  simp only [Rd.bind]
  rw [show scanUint 32 [98] = .fail by decide]

/-- `Write` believes that a record fits when its size does not fit into 32 bits, and writes behind the end of the buffer. -/
theorem C109_overrun_counterexample (r : R) (buf : List Byte)
    (h1 : 2 ^ 32 ≤ 24 + 8 * (r.longs.length + r.doubles.length) + (descriptor r).length)
    (h2 : (24 + 8 * (r.longs.length + r.doubles.length) + (descriptor r).length) % 2 ^ 32 ≤ buf.length)
    (h3 : buf.length < 2 ^ 32) : write r buf = .overrun := by
  have hi := image_length r
  have e : (image r).length = 24 + 8 * (r.longs.length + r.doubles.length) + (descriptor r).length := by omega
  unfold write
  have hr : rawSize r = (24 + 8 * (r.longs.length + r.doubles.length) + (descriptor r).length) % 2 ^ 32 := by
    unfold rawSize
    rw [← hi, e]
  dsimp only
  rw [hr, if_neg (by omega), if_pos (by omega)]

example : ∃ (r : R) (buf : List Byte),
    2 ^ 32 ≤ 24 + 8 * (r.longs.length + r.doubles.length) + (descriptor r).length ∧
    (24 + 8 * (r.longs.length + r.doubles.length) + (descriptor r).length) % 2 ^ 32 ≤ buf.length ∧ buf.length < 2 ^ 32 := by
  have hl : ∀ n : Nat, (descriptor { longs := List.replicate n 0 }).length = 8 := by
    intro n
    simp [descriptor, block, decNat]
  have key : ∀ n : Nat, n = 2 ^ 29 → ∃ (r : R) (buf : List Byte),
      2 ^ 32 ≤ 24 + 8 * (r.longs.length + r.doubles.length) + (descriptor r).length ∧
      (24 + 8 * (r.longs.length + r.doubles.length) + (descriptor r).length) % 2 ^ 32 ≤ buf.length ∧ buf.length < 2 ^ 32 := by
    intro n hn
    refine ⟨{ longs := List.replicate n 0 }, List.replicate 100 0, ?_⟩
    rw [hl n]
    simp only [List.length_replicate, List.length_nil]
    omega
  exact key _ rfl

/-! ## Reading of anything -/

/-- What `Read` accepts is a good record. -/
theorem C109_accept (lim : Nat) (buf : List Byte) (r : R) (h : read lim buf = .ok r) : Good r := by
  unfold read at h
  split at h
  · cases h
  · obtain ⟨⟨i, l1⟩, h1, h⟩ := bind_ok h
    obtain ⟨⟨t, l2⟩, h2, h⟩ := bind_ok h
    obtain ⟨⟨lv, l3⟩, _, h⟩ := bind_ok h
    obtain ⟨⟨dv, l4⟩, _, h⟩ := bind_ok h
    obtain ⟨⟨ln, l5⟩, h5, h⟩ := bind_ok h
    obtain ⟨⟨dn, l6⟩, h6, h⟩ := bind_ok h
    cases h
    obtain ⟨a1, a2, a3⟩ := getBlock_ok h5
    obtain ⟨b1, b2, b3⟩ := getBlock_ok h6
    exact ⟨getNum_lt h1, getNum_lt h2, a1, b1, a2, b2, a3, b3⟩

example : read 10 (image sample) = .ok sample := by
  have h : Good sample := by
    refine ⟨?_, ?_, ?_, ?_, ?_, ?_, ?_, ?_⟩ <;> simp [sample]
  have hn : needed sample = 60 := by simp [sample, needed, decNat]
  have hl : (image sample).length = 60 := by rw [image_needed h, hn]
  obtain ⟨mem, h1, _, _, _, h5⟩ := (C109_roundtrip_partial sample h (by rw [hn]; decide) (List.replicate 60 0)).1 (by rw [hn]; simp)
  have := h5 10 60 (by decide) (by decide) (Nat.le_of_eq hn)
  unfold write at h1
  dsimp only at h1
  split at h1
  · cases h1
  · split at h1
    · cases h1
    · simp only [Wr.ok.injEq] at h1
      rw [← h1.2, List.take_left' hl] at this
      exact this

/-- Too short data are refused. -/
theorem C109_short (lim : Nat) (buf : List Byte) (h : buf.length < 24) : read lim buf = .bad := by
  unfold read
  rw [if_pos h]

example : ([1, 2] : List Byte).length < 24 := by decide

/-- The number of values in the data is not compared with their size: `Read` reads behind the end. -/
theorem C109_oob_counterexample (lim n : Nat) (h1 : 0 < n) (h2 : n ≤ lim) (h3 : n < 2 ^ 32) :
    read lim (enc 4 0 ++ (enc 4 0 ++ (enc 8 n ++ (enc 8 0)))) = .oob := by
  unfold read
  rw [if_neg (by simp), getNum_enc 4 0 (by decide)]
  simp only [Rd.bind]
  rw [getNum_enc 4 0 (by decide)]
  simp only []
  unfold getValues
  rw [getNum_enc 8 n (Nat.lt_of_lt_of_le h3 (by decide))]
  simp only [Rd.bind]
  rw [if_neg (by omega)]
  cases n with
  | zero => omega
  | succ n =>
    simp only [getVals]
    rw [show enc 8 0 = enc 8 0 ++ [] by simp, getNum_enc 8 0 (by decide)]
    simp only [Rd.bind]
    cases n with
    | zero =>
      simp only [getVals]
      simp [getNum]
    | succ n =>
      simp only [getVals]
      simp [getNum, Rd.bind]

example : ∃ lim n : Nat, 0 < n ∧ n ≤ lim ∧ n < 2 ^ 32 := ⟨5, 2, by decide, by decide, by decide⟩

/-- A wrong number of values may also cause an exception. -/
theorem C109_throw_counterexample (lim n : Nat) (h : lim < n) (h2 : n < 2 ^ 64) (l : List Byte) :
    read lim (enc 4 0 ++ (enc 4 0 ++ (enc 8 n ++ (enc 8 0 ++ l)))) = .thrown := by
  unfold read
  rw [if_neg (by simp only [List.length_append, enc_length]; omega), getNum_enc 4 0 (by decide)]
  simp only [Rd.bind]
  rw [getNum_enc 4 0 (by decide)]
  simp only []
  unfold getValues
  rw [getNum_enc 8 n (Nat.lt_of_lt_of_le h2 (by decide))]
  simp only [Rd.bind]
  rw [if_pos h]

example : ∃ lim n : Nat, lim < n ∧ n < 2 ^ 64 := ⟨5, 6, by decide, by decide⟩

/-! ## Adding -/

/-- First value with the name. -/
def find (name : List Byte) (ns : List (List Byte)) (vs : List (BitVec 64)) : Option (BitVec 64) :=
  ((ns.zip vs).find? fun p => p.1 == name).map (·.2)

/-- `AddLong` and `AddDouble` with check of duplicates: the name has the new value, other names keep theirs, a known name is not
added again, and a new name comes last. -/
theorem C109_add_checked (name : List Byte) (v : BitVec 64) : ∀ (ns : List (List Byte)) (vs : List (BitVec 64)),
    ns.length = vs.length →
    (add name v true ns vs).1 = (if name ∈ ns then ns else ns ++ [name]) ∧
    (add name v true ns vs).1.length = (add name v true ns vs).2.length ∧
    find name (add name v true ns vs).1 (add name v true ns vs).2 = some v ∧
    ∀ x, x ≠ name → find x (add name v true ns vs).1 (add name v true ns vs).2 = find x ns vs := by
  intro ns
  induction ns with
  | nil =>
    intro vs h
    cases vs with
    | nil => simp [add, find]; intro x hx e; exact absurd e.symm hx
    | cons _ _ => simp at h
  | cons n ns ih =>
    intro vs h
    cases vs with
    | nil => simp at h
    | cons w vs =>
      obtain ⟨i1, i2, i3, i4⟩ := ih vs (by simpa using h)
      by_cases hn : n = name
      · subst hn
        have e : add n v true (n :: ns) (w :: vs) = (n :: ns, v :: vs) := by simp [add]
        rw [e]
        refine ⟨by simp, by simpa using h, by simp [find], ?_⟩
        intro x hx
        have hb : (n == x) = false := by simp; exact fun e => hx e.symm
        simp [find, hb]
      · have e : add name v true (n :: ns) (w :: vs) =
            (n :: (add name v true ns vs).1, w :: (add name v true ns vs).2) := by simp [add, hn]
        have hb : (n == name) = false := by simp [hn]
        have hn' : ¬ name = n := fun e => hn e.symm
        rw [e]
        refine ⟨?_, by simpa using i2, ?_, ?_⟩
        · dsimp only
          rw [i1]
          by_cases hm : name ∈ ns
          · simp [hm]
          · simp [hm, hn']
        · unfold find at i3 ⊢
          simpa [hb] using i3
        · intro x hx
          have := i4 x hx
          unfold find at this ⊢
          by_cases hx2 : n = x
          · simp [hx2]
          · have hb2 : (n == x) = false := by simp [hx2]
            simpa [hb2] using this

/-- Without the check name and value are appended. -/
theorem C109_add_plain (name : List Byte) (v : BitVec 64) : ∀ (ns : List (List Byte)) (vs : List (BitVec 64)),
    ns.length = vs.length → add name v false ns vs = (ns ++ [name], vs ++ [v]) := by
  intro ns
  induction ns with
  | nil => intro vs h; rfl
  | cons n ns ih =>
    intro vs h
    cases vs with
    | nil => simp at h
    | cons w vs =>
      simp only [add, Bool.false_eq_true, false_and, if_false]
      rw [ih vs (by simpa using h)]
      simp

example : addLong [97] 5 true (addLong [98] 4 false (addLong [97] 3 false {})) =
    { longNames := [[97], [98]], longs := [5, 4] } := by decide

end Verif.SlowData
