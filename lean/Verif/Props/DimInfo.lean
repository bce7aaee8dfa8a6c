import Verif.Spec.DimInfo
/-!
# C116: services of DIM are shown as they were sent
-/

namespace Verif.DimInfo

open Verif.Bytes

theorem enc_length (k v : Nat) : (enc k v).length = k := by
  induction k generalizing v with
  | zero => rfl
  | succ k ih => simp [enc, ih]

theorem getVals_enc (k : Nat) (vs : List Nat) (h : ∀ v ∈ vs, v < 256 ^ k) (l : List Byte) :
    getVals k vs.length ((vs.flatMap fun v => enc k v) ++ l) = some vs := by
  induction vs with
  | nil => rfl
  | cons v vs ih =>
    simp only [List.flatMap_cons, List.length_cons, List.append_assoc, getVals]
    rw [if_neg (by simp [enc_length])]
    rw [List.drop_left' (enc_length k v), List.take_left' (enc_length k v), ih (fun x hx => h x (List.mem_cons_of_mem _ hx)),
      dec_enc_of_lt (h v List.mem_cons_self)]
    rfl

theorem flat_length (k : Nat) (vs : List Nat) : (vs.flatMap fun v => enc k v).length = k * vs.length := by
  induction vs with
  | nil => rfl
  | cons v vs ih => simp only [List.flatMap_cons, List.length_append, enc_length, ih, List.length_cons, Nat.mul_succ]; omega

theorem takeWhile_text (s : List Byte) (h : (0 : Byte) ∉ s) (pad : Nat) :
    (s ++ List.replicate pad 0).takeWhile (· ≠ 0) = s := by
  induction s with
  | nil => cases pad <;> simp [List.replicate_succ]
  | cons a s ih =>
    have ha : a ≠ 0 := fun e => h (by simp [e])
    rw [List.cons_append, List.takeWhile_cons_of_pos (by simpa using ha), ih (fun e => h (List.mem_cons_of_mem _ e))]

theorem getStr_text (s : List Byte) (h : (0 : Byte) ∉ s) (pad : Nat) (l : List Byte) :
    getStr (s.length + pad) (s ++ List.replicate pad 0 ++ l) = some s := by
  have hlen : (s ++ List.replicate pad 0).length = s.length + pad := by simp
  unfold getStr
  rw [List.take_left' hlen, takeWhile_text s h]
  dsimp only
  rw [if_neg]
  simp only [List.length_append, List.length_replicate]
  omega

theorem getFld_item (x : Item) (h : x.good) (l : List Byte) : getFld x.kind x.count (x.bytes ++ l) = some (some x.field, l) := by
  obtain ⟨h1, h2⟩ := h
  have hb : ∀ (w : Nat) (v : List (BitVec w)) (k : Nat), (v.flatMap fun x => enc k x.toNat) = (v.map (·.toNat)).flatMap fun y => enc k y := by
    intro w v k
    induction v with
    | nil => rfl
    | cons a v ih => rw [List.flatMap_cons, List.map_cons, List.flatMap_cons, ih]
  have hti : ∀ y : BitVec 32, toInt y.toNat = y.toInt := by intro y; simp [toInt]
  cases x with
  | ints v =>
    have hv : ∀ y ∈ v.map (·.toNat), y < 256 ^ 4 := by
      intro y hy
      obtain ⟨z, _, rfl⟩ := List.mem_map.1 hy
      have := z.isLt
      simpa using this
    have hg := getVals_enc 4 (v.map (·.toNat)) hv l
    have hd := flat_length 4 (v.map (·.toNat))
    rw [List.length_map] at hg hd
    simp only [Item.kind, Item.count, Item.bytes, hb, getFld, if_true]
    rw [hg, List.drop_left' hd]
    match v, h1 with
    | [y], _ => simp [Item.field, hti]
    | y :: z :: v, _ => simp [Item.field, hti]
  | floats v =>
    have hv : ∀ y ∈ v.map (·.toNat), y < 256 ^ 4 := by
      intro y hy
      obtain ⟨z, _, rfl⟩ := List.mem_map.1 hy
      have := z.isLt
      simpa using this
    have hg := getVals_enc 4 (v.map (·.toNat)) hv l
    have hd := flat_length 4 (v.map (·.toNat))
    rw [List.length_map] at hg hd
    simp only [Item.kind, Item.count, Item.bytes, hb, getFld, if_neg (show ¬ 'F' = 'I' by decide), if_true]
    rw [hg, List.drop_left' hd]
    match v, h1 with
    | [y], _ => simp [Item.field]
    | y :: z :: v, _ => simp [Item.field]
  | doubles v =>
    have hv : ∀ y ∈ v.map (·.toNat), y < 256 ^ 8 := by
      intro y hy
      obtain ⟨z, _, rfl⟩ := List.mem_map.1 hy
      have := z.isLt
      simpa using this
    have hg := getVals_enc 8 (v.map (·.toNat)) hv l
    have hd := flat_length 8 (v.map (·.toNat))
    rw [List.length_map] at hg hd
    simp only [Item.kind, Item.count, Item.bytes, hb, getFld, if_neg (show ¬ 'D' = 'I' by decide), if_neg (show ¬ 'D' = 'F' by decide), if_true]
    rw [hg, List.drop_left' hd]
    match v, h1 with
    | [y], _ => simp [Item.field]
    | y :: z :: v, _ => simp [Item.field]
  | text s pad =>
    have hd : (s ++ List.replicate pad (0 : Byte)).length = s.length + pad := by simp
    simp only [Item.kind, Item.count, Item.bytes, getFld, if_neg (show ¬ 'C' = 'I' by decide), if_neg (show ¬ 'C' = 'F' by decide),
      if_neg (show ¬ 'C' = 'D' by decide), if_true]
    rw [getStr_text s (h2 s pad rfl) pad l, List.drop_left' hd]
    rfl

theorem digits_numeral {t : List Char} {n : Nat} (h : Numeral t n) : ∀ r, (∀ ch r', r = ch :: r' → ¬ ('0' ≤ ch ∧ ch ≤ '9')) →
    ∀ acc, digits (t ++ r) acc = (acc * 10 ^ t.length + n, r) := by
  have key : ∀ {t : List Char} {n : Nat}, Numeral t n → ∀ r acc, digits (t ++ r) acc = digits r (acc * 10 ^ t.length + n) := by
    intro t n h
    induction h with
    | nil => intro r acc; simp
    | @snoc t n d ch _ hd hc ih =>
      intro r acc
      rw [List.append_assoc, ih]
      have hdig : '0' ≤ ch ∧ ch ≤ '9' := by
        have h0 : '0'.toNat = 48 := rfl
        have h9 : '9'.toNat = 57 := rfl
        constructor
        · show '0'.toNat ≤ ch.toNat
          omega
        · show ch.toNat ≤ '9'.toNat
          omega
      have h48 : ch.toNat - '0'.toNat = d := by
        have h0 : '0'.toNat = 48 := rfl
        omega
      rw [List.singleton_append, digits, if_pos hdig, h48]
      congr 1
      rw [List.length_append, List.length_singleton, Nat.pow_succ, Nat.add_mul, ← Nat.mul_assoc]
      omega
  intro r hr acc
  rw [key h]
  match r, hr with
  | [], _ => rfl
  | ch :: r, hr => rw [digits, if_neg (hr ch r rfl)]

theorem digits_semi {t : List Char} {n : Nat} (h : Numeral t n) (r : List Char) : digits (t ++ ';' :: r) 0 = (n, ';' :: r) := by
  have := digits_numeral h (';' :: r) (by rintro ch r' e; cases e; decide) 0
  simpa using this

theorem digits_end {t : List Char} {n : Nat} (h : Numeral t n) : digits t 0 = (n, []) := by
  have := digits_numeral h [] (by rintro ch r' e; cases e) 0
  simpa using this

theorem loop_open {xs : List Item} {f : List Char} (h : Open xs f) (hg : ∀ x ∈ xs, x.good) (g : List Char) (l : List Byte) :
    ∀ fuel, (f ++ g).length ≤ fuel → ∃ fuel', g.length ≤ fuel' ∧
      loop fuel (f ++ g) (xs.flatMap Item.bytes ++ l) = ⟨xs.map Item.field ++ (loop fuel' g l).flds, (loop fuel' g l).outside⟩ := by
  induction h with
  | nil => intro fuel hf; exact ⟨fuel, hf, rfl⟩
  | @cons x xs t f hn _ ih =>
    intro fuel hf
    simp only [List.cons_append, List.append_assoc, List.length_cons, List.length_append] at hf
    cases fuel with
    | zero => omega
    | succ fuel =>
      obtain ⟨fuel', h1, h2⟩ := ih (fun y hy => hg y (List.mem_cons_of_mem _ hy)) fuel (by simp only [List.length_append]; omega)
      refine ⟨fuel', h1, ?_⟩
      have hx := hg x List.mem_cons_self
      simp only [List.cons_append, List.append_assoc, List.flatMap_cons, loop]
      rw [digits_semi hn]
      dsimp only
      rw [if_neg (by have := hx.1; omega), getFld_item x hx]
      show Res.mk (x.field :: (loop fuel (f ++ g) (xs.flatMap Item.bytes ++ l)).flds) (loop fuel (f ++ g) (xs.flatMap Item.bytes ++ l)).outside = _
      rw [h2]
      rfl

theorem format_split {xs : List Item} {f : List Char} (h : Format xs f) : Open xs f ∨ ∃ ys x t g, xs = ys ++ [x] ∧ Open ys g ∧
    Numeral t x.count ∧ f = g ++ x.kind :: ':' :: t := by
  induction h with
  | nil => exact Or.inl .nil
  | @last x t hn => exact Or.inr ⟨[], x, t, [], rfl, .nil, hn, rfl⟩
  | @cons x xs t f hn _ ih =>
    rcases ih with h | ⟨ys, y, t', g, e1, h1, h2, e2⟩
    · exact Or.inl (.cons hn h)
    · refine Or.inr ⟨x :: ys, y, t', _, by rw [e1]; rfl, .cons hn h1, h2, ?_⟩
      rw [e2]; simp

theorem loop_nil (fuel : Nat) (l : List Byte) : loop fuel [] l = ⟨[], false⟩ := by cases fuel <;> rfl

theorem loop_format {xs : List Item} {f : List Char} (h : Format xs f) (hg : ∀ x ∈ xs, x.good) (l : List Byte) :
    loop f.length f (xs.flatMap Item.bytes ++ l) = ⟨xs.map Item.field, false⟩ := by
  rcases format_split h with h | ⟨ys, x, t, g, rfl, h1, h2, rfl⟩
  · obtain ⟨fuel', _, e⟩ := loop_open h hg [] l f.length (by simp)
    rw [List.append_nil] at e
    rw [e, loop_nil]
    simp
  · have hx := hg x (by simp)
    obtain ⟨fuel', hf, e⟩ := loop_open h1 (fun y hy => hg y (List.mem_append_left _ hy)) (x.kind :: ':' :: t) (x.bytes ++ l) _ (Nat.le_refl _)
    rw [List.flatMap_append, List.flatMap_singleton, List.append_assoc, e]
    cases fuel' with
    | zero => simp at hf
    | succ fuel' =>
      simp only [loop]
      rw [digits_end h2]
      dsimp only
      rw [if_neg (by have := hx.1; omega), getFld_item x hx]
      dsimp only
      rw [loop_nil]
      simp

/-- A service with several items: each item is in the field with its number, with the values which were sent; only memory of the service
is read, also when there are more bytes behind. -/
theorem C116_fields (name f : List Char) (xs : List Item) (l : List Byte) (h : Format xs f) (hg : ∀ x ∈ xs, x.good) (h0 : xs ≠ [])
    (hname : name.take 5 ≠ ['D', 'A', 'B', 'C', '/']) :
    handle name f (xs.flatMap Item.bytes ++ l) = { flds := xs.map Item.field } := by
  have hlen : f.length > 2 := by
    have hpos : ∀ {t : List Char} {n : Nat}, Numeral t n → 0 < n → 0 < t.length := by
      intro t n hn hp
      cases hn with
      | nil => omega
      | snoc ch _ _ _ => simp
    cases h with
    | nil => exact absurd rfl h0
    | last hn => have := hpos hn (hg _ List.mem_cons_self).1; simp only [List.length_cons]; omega
    | cons hn _ => have := hpos hn (hg _ List.mem_cons_self).1; simp only [List.length_cons, List.length_append]; omega
  have h1 : ∀ ch : Char, f ≠ [ch] := by intro ch e; rw [e] at hlen; simp at hlen
  have hn : ¬ name.take 5 = oldName := hname
  simp only [handle, if_neg (h1 _), hn, and_false, if_false, if_pos hlen, loop_format h hg]

example : ∃ xs f, Format xs f ∧ (∀ x ∈ xs, x.good) ∧ xs ≠ [] ∧ f = "I:1;D:2;C:10".toList := by
  have n1 : Numeral ['1'] 1 := Numeral.snoc (t := []) (n := 0) (d := 1) '1' .nil (by decide) rfl
  have n2 : Numeral ['2'] 2 := Numeral.snoc (t := []) (n := 0) (d := 2) '2' .nil (by decide) rfl
  have n10 : Numeral ['1', '0'] 10 := Numeral.snoc (t := ['1']) (n := 1) (d := 0) '0' n1 (by decide) rfl
  refine ⟨[.ints [5], .doubles [1, 2], .text [65, 66] 8], _, .cons (t := ['1']) n1 (.cons (t := ['2']) n2 (.last (t := ['1', '0']) n10)), ?_,
    by simp, by decide⟩
  intro x hx
  simp only [List.mem_cons, List.not_mem_nil, or_false] at hx
  rcases hx with rfl | rfl | rfl
  · exact ⟨by decide, by intro s pad e; cases e⟩
  · exact ⟨by decide, by intro s pad e; cases e⟩
  · exact ⟨by decide, by intro s pad e; cases e; decide⟩

/-- Services with a single value: the value, also in the slow control record. -/
theorem C116_single (name : List Char) (v : BitVec 32) (w : BitVec 64) (s : List Byte) (hs : (0 : Byte) ∉ s) (l : List Byte) :
    handle name ['I'] (enc 4 v.toNat ++ l) = { value := some (.int v.toInt), kind := some "rate", slow := .long v.toInt } ∧
    handle name ['F'] (enc 4 v.toNat ++ l) = { value := some (.flt v.toNat), kind := some "rate", slow := .flt v.toNat } ∧
    handle name ['D'] (enc 8 w.toNat ++ l) = { value := some (.dbl w.toNat), kind := some "rate", slow := .dbl w.toNat } ∧
    handle name ['C'] (s ++ 0 :: l) = { value := some (.str s), kind := some "log" } := by
  have g4 : getVals 4 1 (enc 4 v.toNat ++ l) = some [v.toNat] := by
    have := getVals_enc 4 [v.toNat] (by intro y hy; rw [List.mem_singleton] at hy; subst hy; simpa using v.isLt) l
    simpa using this
  have g8 : getVals 8 1 (enc 8 w.toNat ++ l) = some [w.toNat] := by
    have := getVals_enc 8 [w.toNat] (by intro y hy; rw [List.mem_singleton] at hy; subst hy; simpa using w.isLt) l
    simpa using this
  have hti : toInt v.toNat = v.toInt := by simp [toInt]
  have htw : (s ++ 0 :: l).takeWhile (· ≠ 0) = s := by
    clear g4 g8 hti
    induction s with
    | nil => simp
    | cons a s ih =>
      have ha : a ≠ 0 := fun e => hs (by simp [e])
      rw [List.cons_append, List.takeWhile_cons_of_pos (by simpa using ha), ih (fun e => hs (List.mem_cons_of_mem _ e))]
  refine ⟨?_, ?_, ?_, ?_⟩
  · simp [handle, one, g4, hti]
  · simp [handle, one, g4]
  · simp [handle, one, g8]
  · have : getStr ((s ++ 0 :: l).length + 1) (s ++ 0 :: l) = some s := by
      unfold getStr
      rw [List.take_of_length_le (by omega), htw]
      dsimp only
      rw [if_neg]
      simp
    simp only [handle, cstr, this]
    simp

example : (0 : Byte) ∉ ([65, 66] : List Byte) := by decide

/-- Slow control values come only from formats for one number (or records of old DABC versions). -/
theorem C116_slow (name f : List Char) (l : List Byte) (h : (handle name f l).slow ≠ .no) :
    f = ['I'] ∨ f = ['F'] ∨ f = ['D'] ∨ (f = "F:1;I:1;F:1;F:1;F:1;F:1;C:16;C:16;C:16".toList ∧ name.take 5 = ['D', 'A', 'B', 'C', '/']) := by
  unfold handle at h
  split at h
  · exact Or.inl (by assumption)
  · split at h
    · exact Or.inr (Or.inl (by assumption))
    · split at h
      · exact Or.inr (Or.inr (Or.inl (by assumption)))
      · split at h
        · unfold cstr at h; split at h <;> exact absurd rfl h
        · split at h
          · rename_i h'; exact Or.inr (Or.inr (Or.inr h'))
          · split at h
            · unfold cstr at h; split at h <;> exact absurd rfl h
            · split at h <;> exact absurd rfl h

example : (handle [] ['I'] [1, 0, 0, 0]).slow = .long 1 := by decide

/-- Records of old DABC versions: the first number of the rate record, the message of the info record. -/
theorem C116_old (name : List Char) (hn : name.take 5 = ['D', 'A', 'B', 'C', '/']) (v : BitVec 32) (p s : List Byte) (hp : p.length = 20)
    (hs : (0 : Byte) ∉ s) (l : List Byte) :
    handle name "F:1;I:1;F:1;F:1;F:1;F:1;C:16;C:16;C:16".toList (enc 4 v.toNat ++ l) =
      { value := some (.flt v.toNat), kind := some "rate", slow := .flt v.toNat } ∧
    handle name "I:1;C:16;C:128".toList (p ++ s ++ 0 :: l) = { value := some (.str s), kind := some "log" } := by
  have hF := (C116_single name v 0 s hs l).2.1
  have hC := (C116_single name v 0 s hs l).2.2.2
  have eF : handle name ['F'] (enc 4 v.toNat ++ l) = one 4 (enc 4 v.toNat ++ l) .flt .flt := rfl
  have eC : handle name ['C'] (s ++ 0 :: l) = cstr (s ++ 0 :: l) := rfl
  have d1 : oldRate = "F:1;I:1;F:1;F:1;F:1;F:1;C:16;C:16;C:16".toList := rfl
  have d2 : oldInfo = "I:1;C:16;C:128".toList := rfl
  have hne : ∀ ch : Char, oldRate ≠ [ch] := by intro ch e; have := congrArg List.length e; rw [List.length_singleton] at this; revert this; decide
  have hne2 : ∀ ch : Char, oldInfo ≠ [ch] := by intro ch e; have := congrArg List.length e; rw [List.length_singleton] at this; revert this; decide
  have hne3 : oldInfo ≠ oldRate := by decide
  have hn' : name.take 5 = oldName := hn
  rw [← d1, ← d2]
  constructor
  · unfold handle
    rw [if_neg (hne _), if_neg (hne _), if_neg (hne _), if_neg (hne _), if_pos ⟨rfl, hn'⟩, ← eF, hF]
  · unfold handle
    rw [if_neg (hne2 _), if_neg (hne2 _), if_neg (hne2 _), if_neg (hne2 _), if_neg (fun e => hne3 e.1), if_pos ⟨rfl, hn'⟩,
      List.append_assoc, List.drop_left' hp, ← eC, hC]

example : ("DABC/x".toList).take 5 = ['D', 'A', 'B', 'C', '/'] := by decide

/-! ### Where the code does otherwise -/

theorem open_len {xs : List Item} {f : List Char} (h : Open xs f) (h0 : xs ≠ []) : 2 < f.length := by
  cases h with
  | nil => exact absurd rfl h0
  | cons _ _ => simp only [List.length_cons, List.length_append]; omega

theorem handle_loop (name f : List Char) (l : List Byte) (hlen : 2 < f.length) (hname : name.take 5 ≠ ['D', 'A', 'B', 'C', '/']) :
    handle name f l = { flds := (loop f.length f l).flds, outside := (loop f.length f l).outside } := by
  have h1 : ∀ ch : Char, f ≠ [ch] := by intro ch e; rw [e] at hlen; simp at hlen
  have hn : ¬ name.take 5 = oldName := hname
  simp only [handle, if_neg (h1 _), hn, and_false, if_false]
  rw [if_pos hlen]

/-- Items with other kinds (such as `S`, `L` and `X` of DIM) stop the loop: the items before them are shown, they and all others are not;
still the item is marked as changed. -/
theorem C116_unknown_counterexample (name : List Char) (xs : List Item) (f g : List Char) (k : Char) (l : List Byte) (h : Open xs f)
    (hg : ∀ x ∈ xs, x.good) (h0 : xs ≠ []) (hk : k ≠ 'I' ∧ k ≠ 'F' ∧ k ≠ 'D' ∧ k ≠ 'C')
    (hname : name.take 5 ≠ ['D', 'A', 'B', 'C', '/']) :
    handle name (f ++ k :: g) (xs.flatMap Item.bytes ++ l) = { flds := xs.map Item.field, changed := true } := by
  have hlen := open_len h h0
  rw [handle_loop _ _ _ (by rw [List.length_append]; omega) hname]
  obtain ⟨fuel', _, e⟩ := loop_open h hg (k :: g) l _ (Nat.le_refl _)
  have hl : loop fuel' (k :: g) l = ⟨[], false⟩ := by
    cases fuel' with
    | zero => rfl
    | succ n =>
      obtain ⟨h1, h2, h3, h4⟩ := hk
      have hf : ∀ n, getFld k n l = none := by intro n; simp [getFld, h1, h2, h3, h4]
      unfold loop
      split
      · rename_i kind rest heq
        cases heq
        simp only [hf]
        split <;> rfl
      · rfl
  rw [e, hl]
  simp

/-- DIM allows a last item without number, which takes all bytes which are left: it is not shown. -/
theorem C116_last_counterexample (name : List Char) (xs : List Item) (f : List Char) (k : Char) (l : List Byte) (h : Open xs f)
    (hg : ∀ x ∈ xs, x.good) (h0 : xs ≠ []) (hname : name.take 5 ≠ ['D', 'A', 'B', 'C', '/']) :
    handle name (f ++ [k]) (xs.flatMap Item.bytes ++ l) = { flds := xs.map Item.field } := by
  have hlen := open_len h h0
  rw [handle_loop _ _ _ (by rw [List.length_append]; omega) hname]
  obtain ⟨fuel', _, e⟩ := loop_open h hg [k] l _ (Nat.le_refl _)
  have hl : loop fuel' [k] l = ⟨[], false⟩ := by cases fuel' <;> rfl
  rw [e, hl]
  simp

example : ∃ xs f, Open xs f ∧ (∀ x ∈ xs, x.good) ∧ xs ≠ [] := by
  have n1 : Numeral ['1'] 1 := Numeral.snoc (t := []) (n := 0) (d := 1) '1' .nil (by decide) rfl
  refine ⟨[.ints [5]], _, .cons (t := ['1']) n1 .nil, ?_, by simp⟩
  intro x hx
  rw [List.mem_singleton] at hx
  subst hx
  exact ⟨by decide, by intro s pad e; cases e⟩

/-- The number of bytes of the service is not looked at: with fewer than the format says, other memory is read. -/
theorem C116_outside_counterexample : ∃ f l, (handle [] f l).outside = true ∧ f = "I:2".toList ∧ l.length = 4 :=
  ⟨"I:2".toList, [1, 0, 0, 0], by decide, rfl, rfl⟩

end Verif.DimInfo
