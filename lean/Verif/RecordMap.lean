import Verif.RecordLemmas

namespace Verif.Record
open Verif.Bytes Verif.Stream

/-! ## Order of names -/

theorem nameLt_irrefl (a : Name) : nameLt a a = false := by
  induction a with
  | nil => rfl
  | cons c a ih => simp [nameLt, ih]

theorem nameLt_trans : ∀ {a b c : Name}, nameLt a b = true → nameLt b c = true → nameLt a c = true := by
  intro a
  induction a with
  | nil =>
    intro b c h1 h2
    cases b with
    | nil => simp [nameLt] at h1
    | cons x b => cases c with
      | nil => simp [nameLt] at h2
      | cons y c => rfl
  | cons x a ih =>
    intro b c h1 h2
    cases b with
    | nil => simp [nameLt] at h1
    | cons y b => cases c with
      | nil => simp [nameLt] at h2
      | cons z c =>
        simp only [nameLt, Bool.or_eq_true, decide_eq_true_eq, Bool.and_eq_true] at *
        rcases h1 with h1 | ⟨e1, h1⟩ <;> rcases h2 with h2 | ⟨e2, h2⟩
        · left; omega
        · left; subst e2; exact h1
        · left; subst e1; exact h2
        · right; exact ⟨e1.trans e2, ih h1 h2⟩

theorem nameLt_total : ∀ {a b : Name}, nameLt a b = false → a ≠ b → nameLt b a = true := by
  intro a
  induction a with
  | nil =>
    intro b h hne
    cases b with
    | nil => exact absurd rfl hne
    | cons y b => simp [nameLt] at h
  | cons x a ih =>
    intro b h hne
    cases b with
    | nil => rfl
    | cons y b =>
      simp only [nameLt, Bool.or_eq_false_iff, decide_eq_false_iff_not, Bool.and_eq_false_iff, Bool.or_eq_true, decide_eq_true_eq,
        Bool.and_eq_true] at *
      obtain ⟨h1, h2⟩ := h
      by_cases e : x = y
      · subst e
        right
        refine ⟨rfl, ih ?_ (fun e => hne (by rw [e]))⟩
        rcases h2 with h2 | h2
        · exact absurd rfl h2
        · exact h2
      · left
        have : x.toNat ≠ y.toNat := fun e' => e (BitVec.eq_of_toNat_eq e')
        omega

/-! ## Maps -/

theorem find_nil (n : Name) : find [] n = none := rfl

theorem find_cons (e : Name × Field) (m : FMap) (n : Name) : find (e :: m) n = if e.1 = n then some e.2 else find m n := by
  unfold find
  rw [List.find?_cons]
  by_cases h : e.1 = n <;> simp [h]

theorem find_eq_none {m : FMap} {n : Name} : find m n = none ↔ ∀ e ∈ m, e.1 ≠ n := by
  induction m with
  | nil => simp [find_nil]
  | cons e m ih =>
    rw [find_cons]
    by_cases h : e.1 = n
    · rw [if_pos h]; simp [h]
    · rw [if_neg h, ih]; simp [h]

theorem find_mem {m : FMap} {n : Name} {f : Field} (h : find m n = some f) : (n, f) ∈ m := by
  induction m with
  | nil => simp [find_nil] at h
  | cons e m ih =>
    rw [find_cons] at h
    by_cases hn : e.1 = n
    · rw [if_pos hn] at h
      simp only [Option.some.injEq] at h
      rw [← hn, ← h]
      exact List.mem_cons_self
    · rw [if_neg hn] at h
      exact List.mem_cons_of_mem _ (ih h)

theorem find_of_mem {m : FMap} (hs : Sorted m) {n : Name} {f : Field} (h : (n, f) ∈ m) : find m n = some f := by
  induction m with
  | nil => simp at h
  | cons e m ih =>
    rw [find_cons]
    rcases List.pairwise_cons.mp hs with ⟨h1, h2⟩
    rcases List.mem_cons.mp h with h | h
    · rw [← h]; simp
    · have := h1 _ h
      rw [if_neg (fun e' => by rw [e', nameLt_irrefl] at this; exact absurd this (by simp)), ih h2 h]

theorem find_map (m : FMap) (g : Name × Field → Field) (n : Name) :
    find (m.map fun e => (e.1, g e)) n = (find m n).map fun f => g (n, f) := by
  induction m with
  | nil => rfl
  | cons e m ih =>
    rw [List.map_cons, find_cons, find_cons, ih]
    by_cases h : e.1 = n
    · rw [if_pos h, if_pos h, Option.map_some, ← h]
    · rw [if_neg h, if_neg h]

theorem sorted_map {m : FMap} (hs : Sorted m) (g : Name × Field → Field) : Sorted (m.map fun e => (e.1, g e)) := by
  unfold Sorted
  rw [List.pairwise_map]
  exact hs

theorem sorted_filter {m : FMap} (hs : Sorted m) (p : Name × Field → Bool) : Sorted (m.filter p) := List.Pairwise.filter p hs

theorem find_filter {m : FMap} (hs : Sorted m) (p : Name × Field → Bool) (n : Name) :
    find (m.filter p) n = (find m n).filter fun f => p (n, f) := by
  cases h : find m n with
  | none =>
    simp only [Option.filter_none]
    rw [find_eq_none] at h ⊢
    intro e he
    exact h e (List.mem_filter.mp he).1
  | some f =>
    by_cases hp : p (n, f) = true
    · rw [show (some f).filter (fun f => p (n, f)) = some f by simp [Option.filter, hp]]
      exact find_of_mem (sorted_filter hs p) (List.mem_filter.mpr ⟨find_mem h, hp⟩)
    · rw [show (some f).filter (fun f => p (n, f)) = none by simp [Option.filter, hp]]
      rw [find_eq_none]
      intro e he en
      obtain ⟨h1, h2⟩ := List.mem_filter.mp he
      have h3 : find m n = some e.2 := find_of_mem hs (by rw [← en]; exact h1)
      rw [h] at h3
      simp only [Option.some.injEq] at h3
      apply hp
      rw [h3, ← en]
      exact h2

theorem insertNew_mem {m : FMap} {n : Name} {f : Field} {e : Name × Field} : e ∈ insertNew n f m ↔ e = (n, f) ∨ e ∈ m := by
  induction m with
  | nil => simp [insertNew]
  | cons x m ih =>
    unfold insertNew
    split
    · simp
    · simp only [List.mem_cons, ih]
      constructor
      · rintro (h | h | h) <;> simp [h]
      · rintro (h | h | h) <;> simp [h]

theorem sorted_insertNew {m : FMap} (hs : Sorted m) {n : Name} {f : Field} (hn : ∀ e ∈ m, e.1 ≠ n) : Sorted (insertNew n f m) := by
  induction m with
  | nil => exact List.pairwise_singleton ..
  | cons x m ih =>
    rcases List.pairwise_cons.mp hs with ⟨h1, h2⟩
    unfold insertNew
    split
    · rename_i hlt
      refine List.pairwise_cons.mpr ⟨?_, hs⟩
      intro e he
      rcases List.mem_cons.mp he with he | he
      · rw [he]; exact hlt
      · exact nameLt_trans hlt (h1 e he)
    · rename_i hlt
      refine List.pairwise_cons.mpr ⟨?_, ih h2 (fun e he => hn e (List.mem_cons_of_mem _ he))⟩
      intro e he
      rcases insertNew_mem.mp he with he | he
      · rw [he]
        exact nameLt_total (by simpa using hlt) (fun e' => hn x List.mem_cons_self e'.symm)
      · exact h1 e he

theorem upsert_eq (m : FMap) (n : Name) (g : Field → Field) : upsert m n g =
    match find m n with
    | some _ => m.map fun e => (e.1, if e.1 = n then g e.2 else e.2)
    | none => insertNew n (g { val := .none }) m := by
  unfold upsert
  cases find m n with
  | none => rfl
  | some f =>
    simp only
    congr 1
    funext e
    by_cases h : e.1 = n <;> simp [h]

theorem sorted_upsert {m : FMap} (hs : Sorted m) (n : Name) (g : Field → Field) : Sorted (upsert m n g) := by
  rw [upsert_eq]
  cases h : find m n with
  | none => exact sorted_insertNew hs (find_eq_none.mp h)
  | some f => exact sorted_map hs fun e => if e.1 = n then g e.2 else e.2

theorem find_upsert {m : FMap} (hs : Sorted m) (n : Name) (g : Field → Field) (k : Name) :
    find (upsert m n g) k = if n = k then some (g ((find m n).getD { val := .none })) else find m k := by
  cases h : find m n with
  | none =>
    have hs' : Sorted (upsert m n g) := sorted_upsert hs n g
    have e1 : upsert m n g = insertNew n (g { val := .none }) m := by rw [upsert_eq, h]
    rw [e1] at hs' ⊢
    by_cases hk : n = k
    · rw [if_pos hk, ← hk]
      exact find_of_mem hs' (insertNew_mem.mpr (Or.inl rfl))
    · rw [if_neg hk]
      cases hm : find m k with
      | none =>
        rw [find_eq_none] at hm ⊢
        intro e he
        rcases insertNew_mem.mp he with he | he
        · rw [he]; exact hk
        · exact hm e he
      | some f => exact find_of_mem hs' (insertNew_mem.mpr (Or.inr (find_mem hm)))
  | some f =>
    have e1 : upsert m n g = m.map fun e => (e.1, if e.1 = n then g e.2 else e.2) := by rw [upsert_eq, h]
    rw [e1]
    rw [find_map m (fun e => if e.1 = n then g e.2 else e.2) k]
    by_cases hk : n = k
    · subst hk
      rw [if_pos rfl, h]
      simp
    · rw [if_neg hk]
      cases find m k with
      | none => rfl
      | some f' =>
        have : ¬ k = n := fun e => hk e.symm
        simp [this]

theorem sorted_erase {m : FMap} (hs : Sorted m) (n : Name) : Sorted (erase m n) := sorted_filter hs _

theorem find_erase {m : FMap} (hs : Sorted m) (n k : Name) : find (erase m n) k = if n = k then none else find m k := by
  unfold erase
  rw [find_filter hs]
  by_cases h : n = k
  · rw [if_pos h]
    cases find m k <;> simp [h, Option.filter]
  · rw [if_neg h]
    have : ¬ k = n := fun e => h e.symm
    cases find m k <;> simp [this, Option.filter]

theorem sorted_matchPrefix {m : FMap} (hs : Sorted m) (pre : Name) : Sorted (m.filter fun e => matchPrefix e.1 pre) := sorted_filter hs _

/-! ## Writing of maps -/

/-- Bytes of entries. -/
def entriesBytes (l : FMap) : List Byte := l.flatMap fun e => strBytes e.1 ++ fieldBytes e.2.val

theorem entriesBytes_cons (e : Name × Field) (l : FMap) : entriesBytes (e :: l) = strBytes e.1 ++ fieldBytes e.2.val ++ entriesBytes l := rfl

theorem strStoreSize_mod (s : Name) : strStoreSize s % 8 = 0 := (roundUp8_spec _).2.2

theorem entriesBytes_mod (l : FMap) : (entriesBytes l).length % 8 = 0 := by
  induction l with
  | nil => rfl
  | cons e l ih =>
    have h1 := strStoreSize_mod e.1
    have h2 := (fieldSize_mod e.2.val).1
    rw [entriesBytes_cons, List.length_append, List.length_append, strBytes_length, fieldBytes_length]
    omega

theorem writeEntries_app {l : FMap} : ∀ {s : OStr}, s.pos % 8 = 0 → s.Fits (entriesBytes l).length →
    (∀ e ∈ l, strStoreSize e.1 ≤ 0xffffffff) → writeEntries s l = s.app (entriesBytes l) := by
  induction l with
  | nil => intro s _ _ _; simp [writeEntries, entriesBytes]
  | cons e l ih =>
    intro s hp hf hn
    have h1 := strStoreSize_mod e.1
    have h2 := (fieldSize_mod e.2.val).1
    rw [entriesBytes_cons] at hf ⊢
    simp only [List.length_append, strBytes_length, fieldBytes_length] at hf
    unfold writeEntries
    rw [writeStr_app hp (fits_mono hf (by omega)) (hn e (by simp))]
    rw [writeField_app (by rw [app_pos, strBytes_length]; omega) (fits_app (fits_mono hf (by rw [strBytes_length]; omega)))]
    rw [app_app, ih (by rw [app_pos, List.length_append, strBytes_length, fieldBytes_length]; omega)
      (fits_app (fits_mono hf (by rw [List.length_append, strBytes_length, fieldBytes_length]; omega)))
      (fun e he => hn e (by simp [he])), app_app]

/-- Size of a map. -/
def mapSize (m : FMap) (pre : Name) : Nat := 8 + (entriesBytes (m.filter fun e => matchPrefix e.1 pre)).length

/-- Bytes of a map. -/
def mapBytes (m : FMap) (pre : Name) : List Byte :=
  let l := m.filter fun e => matchPrefix e.1 pre
  enc 4 (mapSize m pre / 8) ++ enc 4 l.length ++ entriesBytes l

@[simp] theorem mapBytes_length (m : FMap) (pre : Name) : (mapBytes m pre).length = mapSize m pre := by
  simp only [mapBytes, mapSize, List.length_append, enc_length]

theorem mapSize_mod (m : FMap) (pre : Name) : mapSize m pre % 8 = 0 := by
  have := entriesBytes_mod (m.filter fun e => matchPrefix e.1 pre)
  unfold mapSize; omega

theorem roundUp8_of_mod {n : Nat} (h : n % 8 = 0) : roundUp8 n = n := by
  have := roundUp8_spec n; omega

theorem writeMapSz_app {s : OStr} {m : FMap} {pre : Name} {sz : Nat} (hp : s.pos % 8 = 0) (hf : s.Fits (mapSize m pre))
    (hn : ∀ e ∈ m, matchPrefix e.1 pre = true → strStoreSize e.1 ≤ 0xffffffff)
    (hsz : sz = if s.isReal then mapSize m pre else 0) :
    writeMapSz sz s m pre =
      (s.app (enc 4 (sz / 8) ++ enc 4 (m.filter fun e => matchPrefix e.1 pre).length ++ entriesBytes (m.filter fun e => matchPrefix e.1 pre)), true) := by
  have hmod := entriesBytes_mod (m.filter fun e => matchPrefix e.1 pre)
  unfold mapSize at *
  unfold writeMapSz
  simp only
  generalize hl : (m.filter fun e => matchPrefix e.1 pre) = l at *
  have h1 : (s.u32 (sz / 8)).u32 l.length = s.app (enc 4 (sz / 8) ++ enc 4 l.length) :=
    writeTwo (fits_mono hf (by simp only [List.length_append, enc_length]; omega))
  rw [h1, writeEntries_app (by rw [app_pos, List.length_append, enc_length, enc_length]; omega)
    (fits_app (fits_mono hf (by simp only [List.length_append, enc_length]; omega)))
    (by
      intro e he
      rw [← hl] at he
      exact hn e (List.mem_filter.mp he).1 (List.mem_filter.mp he).2), app_app]
  have hlen : (enc 4 (sz / 8) ++ enc 4 l.length ++ entriesBytes l).length = 8 + (entriesBytes l).length := by
    simp only [List.length_append, enc_length]
  have hr : roundUp8 (8 + (entriesBytes l).length) = 8 + (entriesBytes l).length := roundUp8_of_mod (by omega)
  rw [verify_app hp (by rw [hlen, hr]; exact hsz) (by omega) (by rw [hlen, hr]; exact hf), hlen, hr, Nat.sub_self]
  simp

theorem mapStoreSize_eq {m : FMap} {pre : Name} (hn : ∀ e ∈ m, matchPrefix e.1 pre = true → strStoreSize e.1 ≤ 0xffffffff) :
    mapStoreSize m pre = mapSize m pre := by
  unfold mapStoreSize
  rw [writeMapSz_app (s := .size 0) (sz := 0) (by rfl) trivial hn (by rfl)]
  rw [app_pos]
  simp only [List.length_append, enc_length, mapSize, OStr.pos]
  omega

theorem writeMap_app {s : OStr} {m : FMap} {pre : Name} (hp : s.pos % 8 = 0) (hf : s.Fits (mapSize m pre))
    (hn : ∀ e ∈ m, matchPrefix e.1 pre = true → strStoreSize e.1 ≤ 0xffffffff) :
    writeMap s m pre = (s.app (mapBytes m pre), true) := by
  unfold writeMap
  rw [mapStoreSize_eq hn, writeMapSz_app hp hf hn rfl]
  cases s with
  | mem out room => rfl
  | size n =>
    rw [app_size_congr]
    simp [mapBytes]

/-! ## Reading of maps -/

/-- Entries read into a map. -/
def applyEntries (m : FMap) (l : FMap) : FMap :=
  l.foldl (fun m e => upsert m e.1 fun f => { f with val := readBack e.2.val, touched := true }) m

theorem readEntries_append {rest : List Byte} {l : FMap} : ∀ {p : Nat} {m : FMap}, p % 8 = 0 →
    (∀ e ∈ l, Storable e.2.val ∧ 0 ∉ e.1 ∧ strStoreSize e.1 < 2 ^ 32) →
    readEntries l.length ⟨entriesBytes l ++ rest, p⟩ m = some (⟨rest, p + (entriesBytes l).length⟩, applyEntries m l) := by
  induction l with
  | nil => intro p m _ _; rfl
  | cons e l ih =>
    intro p m hp hl
    obtain ⟨h1, h2, h3⟩ := hl e (by simp)
    have hm1 := strStoreSize_mod e.1
    have hm2 := fieldSize_mod e.2.val
    rw [entriesBytes_cons, List.length_cons]
    unfold readEntries
    rw [List.append_assoc, List.append_assoc]
    rw [readStr_append hp h2 h3 (by simp only [List.length_append, fieldBytes_length]; omega), Option.bind_some]
    simp only
    rw [readField_append h1 _ (by omega), Option.bind_some]
    simp only
    rw [ih (by omega) (fun e he => hl e (by simp [he]))]
    simp only [List.length_append, strBytes_length, fieldBytes_length, applyEntries, List.foldl_cons]
    rw [show p + strStoreSize e.1 + fieldSize e.2.val + (entriesBytes l).length
      = p + (strStoreSize e.1 + fieldSize e.2.val + (entriesBytes l).length) by omega]

theorem sorted_applyEntries {l : FMap} : ∀ {m : FMap}, Sorted m → Sorted (applyEntries m l) := by
  induction l with
  | nil => intro m h; exact h
  | cons e l ih => intro m h; exact ih (sorted_upsert h _ _)

theorem find_applyEntries {l : FMap} (hl : Sorted l) : ∀ {m : FMap}, Sorted m → ∀ n,
    find (applyEntries m l) n = match find l n with
      | some f => some { (find m n).getD { val := .none } with val := readBack f.val, touched := true }
      | none => find m n := by
  induction l with
  | nil => intro m _ n; rfl
  | cons e l ih =>
    intro m hm n
    rcases List.pairwise_cons.mp hl with ⟨h1, h2⟩
    have := ih h2 (sorted_upsert hm e.1 fun f => { f with val := readBack e.2.val, touched := true }) n
    unfold applyEntries at this ⊢
    rw [List.foldl_cons, this, find_cons, find_upsert hm]
    by_cases hn : e.1 = n
    · have hnone : find l n = none := by
        rw [find_eq_none]
        intro x hx e'
        have := h1 x hx
        rw [e', ← hn, nameLt_irrefl] at this
        exact absurd this (by simp)
      rw [hnone, if_pos hn, if_pos hn, hn]
    · rw [if_neg hn, if_neg hn]

theorem readMap_append {src dst : FMap} {pre : Name} {rest : List Byte} {p : Nat} (hp : p % 8 = 0)
    (hsz : mapSize src pre < 2 ^ 35)
    (hns : ∀ e ∈ src, matchPrefix e.1 pre = true → strStoreSize e.1 < 2 ^ 32)
    (hst : ∀ e ∈ src, matchPrefix e.1 pre = true → Storable e.2.val ∧ 0 ∉ e.1)
    (hnum : (src.filter fun e => matchPrefix e.1 pre).length < 2 ^ 24) :
    readMap ⟨mapBytes src pre ++ rest, p⟩ dst pre = some
      ((applyEntries (dst.map fun e => (e.1, { e.2 with touched := false })) (src.filter fun e => matchPrefix e.1 pre)).filter
        (fun e => e.2.touched || !matchPrefix e.1 pre), ⟨rest, p + mapSize src pre⟩, true) := by
  have hmod := mapSize_mod src pre
  have hms : mapSize src pre = 8 + (entriesBytes (src.filter fun e => matchPrefix e.1 pre)).length := rfl
  unfold readMap mapBytes
  simp only
  have hall : ∀ e ∈ src.filter fun e => matchPrefix e.1 pre, Storable e.2.val ∧ 0 ∉ e.1 ∧ strStoreSize e.1 < 2 ^ 32 := by
    intro e he
    obtain ⟨h1, h2⟩ := List.mem_filter.mp he
    exact ⟨(hst e h1 h2).1, (hst e h1 h2).2, hns e h1 h2⟩
  generalize hl : (src.filter fun e => matchPrefix e.1 pre) = l at *
  simp only [List.append_assoc]
  rw [u32_append (by omega), Option.bind_some]
  simp only
  rw [u32_append (by omega), Option.bind_some]
  simp only
  rw [Nat.mod_eq_of_lt hnum, readEntries_append (by omega) hall, Option.map_some]
  have hd : mapSize src pre / 8 * 8 = mapSize src pre := by omega
  have hv := verify_in (a := []) (b := rest) (pos := p) (sz := mapSize src pre) (q := p + 4 + 4 + (entriesBytes l).length) hp hmod
    (by simp only [List.length_nil]; omega) (by omega)
  simp only [List.nil_append] at hv
  simp only [hd, hv]

/-! ## Records -/

theorem u64_app {s : OStr} {v : Nat} (hf : s.Fits 8) : s.u64 v = s.app (enc 8 v) :=
  write_app (by rw [enc_length]; exact hf)

def recSize (name : Name) (m : FMap) : Nat := 8 + strStoreSize name + mapSize m []

theorem recSize_mod (name : Name) (m : FMap) : recSize name m % 8 = 0 := by
  have := mapSize_mod m []
  have := strStoreSize_mod name
  unfold recSize; omega

theorem writeRecSz_app {s : OStr} {name : Name} {m : FMap} {sz : Nat} (hp : s.pos % 8 = 0) (hf : s.Fits (recSize name m))
    (hname : strStoreSize name ≤ 0xffffffff)
    (hn : ∀ e ∈ m, matchPrefix e.1 [] = true → strStoreSize e.1 ≤ 0xffffffff)
    (hsz : sz = if s.isReal then recSize name m else 0) :
    writeRecSz sz s name m = (s.app (enc 8 sz ++ strBytes name ++ mapBytes m []), true) := by
  have hmod := recSize_mod name m
  have h1 := mapSize_mod m []
  have h2 := strStoreSize_mod name
  have hr : recSize name m = 8 + strStoreSize name + mapSize m [] := rfl
  unfold writeRecSz
  rw [u64_app (fits_mono hf (by omega))]
  rw [writeStr_app (by rw [app_pos, enc_length]; omega) (fits_app (fits_mono hf (by rw [enc_length]; omega))) hname]
  simp only [app_app]
  rw [writeMap_app (by rw [app_pos, List.length_append, enc_length, strBytes_length]; omega)
    (fits_app (fits_mono hf (by rw [List.length_append, enc_length, strBytes_length]; omega))) hn]
  simp only [app_app]
  have hlen : (enc 8 sz ++ strBytes name ++ mapBytes m []).length = recSize name m := by
    simp only [List.length_append, enc_length, strBytes_length, mapBytes_length, recSize]
  have hru := roundUp8_of_mod hmod
  rw [verify_app hp (by rw [hlen, hru]; exact hsz) (by omega) (by rw [hlen, hru]; exact hf), hlen, hru, Nat.sub_self]
  simp

theorem recStoreSize_eq {name : Name} {m : FMap} (hname : strStoreSize name ≤ 0xffffffff)
    (hn : ∀ e ∈ m, matchPrefix e.1 [] = true → strStoreSize e.1 ≤ 0xffffffff) : recStoreSize name m = recSize name m := by
  unfold recStoreSize
  rw [writeRecSz_app (s := .size 0) (sz := 0) (by rfl) trivial hname hn (by rfl)]
  rw [app_pos]
  simp only [List.length_append, enc_length, recSize, OStr.pos, strBytes_length, mapBytes_length]
  omega

theorem saveToBuffer_eq {name : Name} {m : FMap} (hname : strStoreSize name ≤ 0xffffffff)
    (hn : ∀ e ∈ m, matchPrefix e.1 [] = true → strStoreSize e.1 ≤ 0xffffffff) :
    saveToBuffer name m = some (enc 8 (recSize name m) ++ strBytes name ++ mapBytes m []) := by
  unfold saveToBuffer
  rw [recStoreSize_eq hname hn]
  simp only
  rw [writeRecSz_app (by rfl) (show OStr.Fits (.mem [] (recSize name m)) _ from Nat.le_refl _) hname hn (by rfl)]
  simp only [OStr.app, List.nil_append]

end Verif.Record
