import Verif.FileNameLemmas

/-!
# C59: new files do not replace existing ones
-/

namespace Verif.FileName
open Verif.Bytes Verif.Json Verif.Text Verif.NameMatch Verif.Url

theorem exists_item {disk : Disk} {dir item : List Byte} (hd : Dir dir) (hi : 47 ∉ item) (h : Exists disk (dir ++ item)) :
    (item, true) ∈ disk dir := by
  obtain ⟨dir', item', he, hi', hd', hm⟩ := h
  have h1 := split_eq hd hi
  have h2 := split_eq hd' hi'
  rw [he] at h1
  rw [← h1.1, ← h1.2, h2.1, h2.2]
  exact hm

theorem suffix_plain (n : Int) : 47 ∉ suffix n ∧ (suffix n).head? = some 95 := by
  have h : ∀ w n, 47 ∉ padded w n := by
    intro w n h
    have := (padded_digits w n).2 47 h
    unfold isDigit at this
    revert this
    decide
  unfold suffix
  split
  · refine ⟨fun hm => ?_, rfl⟩
    rcases List.mem_cons.1 hm with hm | hm
    · exact absurd hm (by decide)
    · rcases List.mem_cons.1 hm with hm | hm
      · exact absurd hm (by decide)
      · exact h _ _ hm
  · refine ⟨fun hm => ?_, rfl⟩
    rcases List.mem_cons.1 hm with hm | hm
    · exact absurd hm (by decide)
    · exact h _ _ hm

/-- C59: none of the files written, however many, exists when the output starts, and no file is written twice.  The names have
the form `name_0000.ext` with consecutive numbers, starting not before the number which was asked for. -/
theorem C59_fresh_partial (br : List Byte → List Byte → Bool) (disk : Disk) (ext name : List Byte) (n n0 : Int)
    (he : Extension ext) (hu : Usual ext name) (h0 : init br disk ext name n = some n0) (k : Nat) (l : List (List Byte))
    (hl : names ext name k n0 = some l) : (∀ f ∈ l, ¬ Exists disk f) ∧ l.Nodup ∧ n ≤ n0 ∧ l.length = k ∧
      ∃ pre, (pre = name ∨ pre ++ ext = name) ∧ ∀ (i : Nat) f, l[i]? = some f → f = pre ++ suffix (n0 + i) ++ ext := by
  have hmask : ∃ f, produce ext name [42] = some f := by
    unfold init at h0
    split at h0
    · cases h0
    · rename_i f hf
      exact ⟨f, hf⟩
  obtain ⟨mask, hmask⟩ := hmask
  obtain ⟨dir, pi, hd, h1, h2, h3, h4, hall⟩ := stem he hu _ hmask
  obtain ⟨e1, e2, e3, e5, e6, e4⟩ := he
  have hmask' : mask = dir ++ (pi ++ [42] ++ ext) := by
    rw [hall] at hmask
    cases hmask
    rfl
  obtain ⟨hlen, hmem⟩ := names_mem hl
  have hfile : ∀ (i : Nat) (f : List Byte), l[i]? = some f → f = dir ++ (pi ++ suffix (n0 + i) ++ ext) := by
    intro i f hi
    have := (hmem i f hi).2
    rw [hall] at this
    cases this
    rfl
  -- number of the first file
  have hinit : ∃ m, maxNumber ext (fmatch br disk mask) (-1) = some m ∧ m < n0 ∧ n ≤ n0 := by
    unfold init at h0
    rw [hmask] at h0
    dsimp only at h0
    split at h0
    · cases h0
    · rename_i m hm
      refine ⟨m, hm, ?_⟩
      split at h0
      · split at h0
        · cases h0
          omega
        · cases h0
      · cases h0
        omega
  obtain ⟨m, hm, hlt, hle⟩ := hinit
  refine ⟨fun f hf hex => ?_, ?_, hle, hlen, ?_⟩
  · obtain ⟨i, hi⟩ := List.mem_iff_getElem?.1 hf
    have hf' := hfile i f hi
    obtain ⟨hs1, hs2⟩ := suffix_plain (n0 + i)
    have hit : 47 ∉ pi ++ suffix (n0 + i) ++ ext := by
      intro h
      rcases List.mem_append.1 h with h | h
      · rcases List.mem_append.1 h with h | h
        · exact h1 h
        · exact hs1 h
      · exact e2 h
    have hmit : 47 ∉ pi ++ [42] ++ ext := by
      intro h
      rcases List.mem_append.1 h with h | h
      · rcases List.mem_append.1 h with h | h
        · exact h1 h
        · exact absurd (List.mem_singleton.1 h) (by decide)
      · exact e2 h
    have hin := exists_item hd hit (by rw [← hf']; exact hex)
    have hsp := split_eq hd hmit
    have hfm : f ∈ fmatch br disk mask := by
      unfold fmatch
      rw [hmask', if_neg (by simp), hsp.1, hsp.2]
      refine List.mem_map.2 ⟨(pi ++ suffix (n0 + i) ++ ext, true), List.mem_filter.2 ⟨hin, ?_⟩, hf'.symm⟩
      dsimp only
      rw [mask_finds br _ h2 e3]
      have : (pi ++ suffix (n0 + i) ++ ext).head? ≠ some 46 := by
        cases hp : pi with
        | nil =>
          cases hs : suffix (n0 + i) with
          | nil => rw [hs] at hs2; cases hs2
          | cons x s =>
            rw [hs] at hs2
            cases hs2
            simp
        | cons x p =>
          rw [hp] at h4
          simpa using h4
      rw [decide_eq_true this]
      rfl
    obtain ⟨hb1, hb2⟩ := maxNumber_le hm
    have hno := hb2 f hfm
    have hnum := number_suffix ext (dir ++ pi) (n0 + i)
    have hfe : dir ++ pi ++ suffix (n0 + i) ++ ext = f := by rw [hf']; simp
    rw [hfe] at hnum
    rcases hnum with hnum | hnum
    · have := hno.2 _ hnum
      omega
    · exact hno.1 hnum
  · refine List.pairwise_iff_getElem.2 fun i j hi hj hij heq => ?_
    have a := hfile i _ (List.getElem?_eq_getElem hi)
    have b := hfile j _ (List.getElem?_eq_getElem hj)
    rw [← heq, a] at b
    have b := List.append_cancel_left b
    rw [List.append_assoc, List.append_assoc] at b
    have := suffix_inj (List.append_cancel_right (List.append_cancel_left b))
    omega
  · rcases produce_cases ext name with ⟨pre, hp, hall'⟩ | ⟨_, hall'⟩
    · refine ⟨pre, ?_, fun i f hi => ?_⟩
      · rcases hp with h | h
        · exact .inr h
        · exact .inl h.1
      · have := (hmem i f hi).2
        rw [hall'] at this
        cases this
        rfl
    · rw [hall'] at hmask
      cases hmask

theorem digits_lt : ∀ (t : List Byte), (∀ b ∈ t, isDigit b) → natVal t < 10 ^ t.length := by
  intro t
  have key : ∀ (t : List Byte) (a : Nat), (∀ b ∈ t, isDigit b) →
      t.foldl (fun a b => a * 10 + (b.toNat - 48)) a < (a + 1) * 10 ^ t.length := by
    intro t
    induction t with
    | nil => intro a _; simp
    | cons b t ih =>
      intro a h
      have hb := h b List.mem_cons_self
      unfold isDigit at hb
      have := ih (a * 10 + (b.toNat - 48)) fun x hx => h x (List.mem_cons_of_mem _ hx)
      refine Nat.lt_of_lt_of_le this ?_
      rw [List.length_cons, Nat.pow_succ, Nat.mul_comm (10 ^ t.length) 10, ← Nat.mul_assoc]
      exact Nat.mul_le_mul_right _ (by omega)
  intro h
  have := key t 0 h
  unfold natVal
  omega

theorem strip_sub : ∀ (t : List Byte), Digits t → Digits (strip t) ∧ (strip t).length ≤ t.length
  | [], h => absurd rfl h.1
  | [b], h => ⟨h, Nat.le_refl _⟩
  | b :: c :: l, h => by
    show Digits (if b = 48 then strip (c :: l) else _) ∧ (if b = 48 then strip (c :: l) else _).length ≤ _
    split
    · obtain ⟨h1, h2⟩ := strip_sub (c :: l) ⟨by simp, fun x hx => h.2 x (List.mem_cons_of_mem _ hx)⟩
      exact ⟨h1, by simp at h2 ⊢; omega⟩
    · exact ⟨h, Nat.le_refl _⟩

theorem number_tame {ext dir item : List Byte} (x : List Byte) (hx : item = x ++ ext) (ht : Tame ext item) :
    number ext (dir ++ item) = some none ∨ ∃ v, number ext (dir ++ item) = some (some v) ∧ v < 10 ^ 9 := by
  obtain ⟨a, c, d, h1, h2, h3⟩ := ht x hx
  have hbody : (dir ++ item).take ((dir ++ item).length - ext.length) = (dir ++ a) ++ c :: d := by
    have e : dir ++ item = ((dir ++ a) ++ c :: d) ++ ext := by rw [hx, h1]; simp
    have : (dir ++ item).length - ext.length = ((dir ++ a) ++ c :: d).length := by
      rw [e, List.length_append]; omega
    rw [this, e, List.take_left']
    rfl
  unfold number
  dsimp only
  rw [hbody]
  have hrev : ((dir ++ a) ++ c :: d).reverse = d.reverse ++ c :: (dir ++ a).reverse := by simp
  rw [hrev]
  have hc : isDec c = false := by
    unfold isDec
    rw [Bool.eq_false_iff]
    intro h
    simp at h
    exact h2 h
  -- the digits are a part of d
  have hlen : ∀ (y z : List Byte), ((y ++ c :: z).takeWhile isDec).length ≤ y.length := by
    intro y z
    induction y with
    | nil => rw [List.nil_append, List.takeWhile_cons_of_neg (by simp [hc])]; simp
    | cons b y ih =>
      rw [List.cons_append, List.takeWhile_cons]
      split
      · simp at ih ⊢; omega
      · simp
  have hl := hlen d.reverse (dir ++ a).reverse
  generalize hq : (d.reverse ++ c :: (dir ++ a).reverse).takeWhile isDec = q at hl
  have hdq : ∀ b ∈ q.reverse, isDigit b := by
    intro b hb
    rw [List.mem_reverse, ← hq] at hb
    have := NameMatch.mem_takeWhile _ _ _ hb
    unfold isDec at this
    simp at this
    exact this
  rw [List.length_reverse] at hl
  rw [if_neg (by simp; omega)]
  by_cases hn : q.reverse = []
  · rw [if_pos hn]
    exact .inl rfl
  · rw [if_neg hn]
    obtain ⟨hs, hsl⟩ := strip_sub q.reverse ⟨hn, hdq⟩
    have hv := digits_lt _ hs.2
    have hv2 : 10 ^ (strip q.reverse).length ≤ 10 ^ 9 := Nat.pow_le_pow_right (by omega) (by
      rw [List.length_reverse] at hsl
      omega)
    have hv3 : natVal (strip q.reverse) < 10 ^ 9 := by omega
    rw [strToInt_digits hs (by omega)]
    exact .inr ⟨_, rfl, by omega⟩

/-- C59: the number of the first file is found whenever the files in the directory have numbers of up to nine digits. -/
theorem C59_found (br : List Byte → List Byte → Bool) (disk : Disk) (ext name : List Byte) (n : Int)
    (he : Extension ext) (hu : Usual ext name) (hl : name.length + 1 ≠ ext.length)
    (ht : ∀ dir item, (item, true) ∈ disk dir → Tame ext item) : ∃ n0, init br disk ext name n = some n0 := by
  rcases produce_cases ext name with ⟨pre, hp, hall⟩ | ⟨h, _⟩
  · obtain ⟨dir, pi, hd, h1, h2, h3, h4, hall⟩ := stem he hu _ (hall [42])
    obtain ⟨e1, e2, e3, e5, e6, e4⟩ := he
    have hmit : 47 ∉ pi ++ [42] ++ ext := by
      intro h
      rcases List.mem_append.1 h with h | h
      · rcases List.mem_append.1 h with h | h
        · exact h1 h
        · exact absurd (List.mem_singleton.1 h) (by decide)
      · exact e2 h
    have hsp := split_eq hd hmit
    unfold init
    rw [hall]
    dsimp only
    have hmax : ∀ (l : List (List Byte)) (m : Int), m < 10 ^ 9 →
        (∀ f ∈ l, number ext f = some none ∨ ∃ v, number ext f = some (some v) ∧ v < 10 ^ 9) →
        ∃ r, maxNumber ext l m = some r ∧ r < 10 ^ 9 := by
      intro l
      induction l with
      | nil => intro m hm _; exact ⟨m, rfl, hm⟩
      | cons f l ih =>
        intro m hm h
        have h' := fun g hg => h g (List.mem_cons_of_mem _ hg)
        unfold maxNumber
        rcases h f List.mem_cons_self with hf | ⟨v, hf, hv⟩
        · rw [hf]; exact ih m hm h'
        · rw [hf]
          refine ih _ ?_ h'
          split <;> omega
    obtain ⟨r, hr, hr2⟩ := hmax (fmatch br disk (dir ++ (pi ++ [42] ++ ext))) (-1) (by decide) (by
      intro f hf
      unfold fmatch at hf
      rw [if_neg (by simp), hsp.1, hsp.2] at hf
      obtain ⟨⟨item, b⟩, hm, rfl⟩ := List.mem_map.1 hf
      obtain ⟨hm1, hm2⟩ := List.mem_filter.1 hm
      dsimp only at hm2 ⊢
      simp only [Bool.and_eq_true] at hm2
      obtain ⟨⟨_, hfn⟩, hb⟩ := hm2
      subst hb
      -- a name which matches ends with the extension
      have hend := mask_ends br h2 e3 e5 e6 hfn
      obtain ⟨x, hx⟩ := hend
      exact number_tame x hx (ht dir item hm1))
    rw [hr]
    dsimp only
    split
    · rw [if_pos (by omega)]
      exact ⟨_, rfl⟩
    · exact ⟨_, rfl⟩
  · exact absurd h hl

/-! ## Violations -/

/-- Hidden files are not looked for: the first file of a new output replaces an existing one. -/
theorem C59_hidden_counterexample (br : List Byte → List Byte → Bool) :
    let disk : Disk := fun d => if d = [] then [(lit ".data_0000.bin", true)] else []
    init br disk (lit ".bin") (lit ".data") 0 = some 0 ∧ names (lit ".bin") (lit ".data") 1 0 = some [lit ".data_0000.bin"] ∧
      Exists disk (lit ".data_0000.bin") := by
  refine ⟨rfl, by decide +kernel, [], lit ".data_0000.bin", rfl, by decide, .inl rfl, ?_⟩
  exact List.mem_singleton.2 rfl

/-- A file which may be written but not read is replaced. -/
theorem C59_unreadable_counterexample (br : List Byte → List Byte → Bool) :
    let disk : Disk := fun d => if d = [] then [(lit "data_0000.bin", false)] else []
    init br disk (lit ".bin") (lit "data") 0 = some 0 ∧ names (lit ".bin") (lit "data") 1 0 = some [lit "data_0000.bin"] := by
  intro disk
  refine ⟨?_, by decide +kernel⟩
  have h1 : produce (lit ".bin") (lit "data") [42] = some (lit "data*.bin") := by decide
  have h2 : fmatch br disk (lit "data*.bin") = [] := by
    unfold fmatch
    rw [if_neg (by decide)]
    have : dirOf (lit "data*.bin") = [] := by decide
    rw [this]
    show List.map _ (List.filter _ [(lit "data_0000.bin", false)]) = []
    rw [List.filter_cons_of_neg (by simp)]
    rfl
  unfold init
  rw [h1]
  dsimp only
  rw [h2]
  rfl

/-- A name which is one character shorter than the extension lets `insert` throw. -/
theorem C59_throw_counterexample (br : List Byte → List Byte → Bool) (disk : Disk) (n : Int) :
    init br disk (lit ".bin") (lit "run") n = none := by
  have h1 : produce (lit ".bin") (lit "run") [42] = none := by decide
  unfold init
  rw [h1]

/-- A file of digits only lets the search for its number run below its name. -/
theorem C59_digits_counterexample (br : List Byte → List Byte → Bool) (n : Int) :
    let disk : Disk := fun d => if d = [] then [(lit "12.bin", true)] else []
    init br disk (lit ".bin") (lit "1") n = none := by
  intro disk
  have h1 : produce (lit ".bin") (lit "1") [42] = some (lit "1*.bin") := by decide
  have h2 : fmatch br disk (lit "1*.bin") = [lit "12.bin"] := by
    unfold fmatch
    rw [if_neg (by decide)]
    have h3 : dirOf (lit "1*.bin") = [] := by decide
    have h4 : itemOf (lit "1*.bin") = lit "1" ++ [42] ++ lit ".bin" := by decide
    rw [h3, h4]
    show List.map _ (List.filter _ [(lit "12.bin", true)]) = _
    have h5 : fnmatch br (lit "1" ++ [42] ++ lit ".bin") (lit "12.bin") = true :=
      mask_finds br (pi := lit "1") (ext := lit ".bin") (lit "2") (by decide) (by decide)
    rw [List.filter_cons_of_pos (by rw [h5]; decide)]
    rfl
  unfold init
  rw [h1]
  dsimp only
  rw [h2]
  rfl

/-! ## Examples -/

example : Extension (lit ".bin") := by unfold Extension; decide

example : Usual (lit ".bin") (lit "dir/data.bin") :=
  ⟨by decide, lit "dir/", lit "data.bin", rfl, by decide, by decide, by decide, by decide⟩

example : Tame (lit ".bin") (lit "data_0012.bin") := by
  intro x hx
  have : x = lit "data_0012" := List.append_cancel_right (bs := lit ".bin") (by rw [← hx]; rfl)
  exact ⟨lit "data", 95, lit "0012", this, by decide, by decide⟩

/-- The next number after the files which are there. -/
example (br : List Byte → List Byte → Bool) :
    init br (fun d => if d = [] then [(lit "data_0012.bin", true)] else []) (lit ".bin") (lit "data") 0 = some 13 := by
  have h1 : produce (lit ".bin") (lit "data") [42] = some (lit "data*.bin") := by decide
  have h2 : fmatch br (fun d => if d = [] then [(lit "data_0012.bin", true)] else []) (lit "data*.bin") = [lit "data_0012.bin"] := by
    unfold fmatch
    rw [if_neg (by decide)]
    have h3 : dirOf (lit "data*.bin") = [] := by decide
    have h4 : itemOf (lit "data*.bin") = lit "data" ++ [42] ++ lit ".bin" := by decide
    rw [h3, h4]
    show List.map _ (List.filter _ [(lit "data_0012.bin", true)]) = _
    have h5 : fnmatch br (lit "data" ++ [42] ++ lit ".bin") (lit "data_0012.bin") = true :=
      mask_finds br (pi := lit "data") (ext := lit ".bin") (lit "_0012") (by decide) (by decide)
    rw [List.filter_cons_of_pos (by rw [h5]; decide)]
    rfl
  unfold init
  rw [h1]
  dsimp only
  rw [h2]
  decide +kernel

end Verif.FileName
