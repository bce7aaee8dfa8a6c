import Verif.Spec.HldOut

/-! # Lemmas on the writing of HLD files -/

namespace Verif.HldOut

open Verif.Bytes

/-- Append several pieces. -/
def adds (n : Option Nat) (ps : List Piece) (d : List (Option Nat × List Piece)) : List (Option Nat × List Piece) :=
  d.map fun f => if f.1 = n then (n, f.2 ++ ps) else f

theorem addTo_eq (n : Option Nat) (p : Piece) (d : List (Option Nat × List Piece)) : addTo n p d = adds n [p] d := rfl

theorem adds_nil (n : Option Nat) (d : List (Option Nat × List Piece)) : adds n [] d = d := by
  induction d with
  | nil => rfl
  | cons f d ih =>
    unfold adds at ih ⊢
    rw [List.map_cons, ih]
    by_cases h : f.1 = n
    · rw [if_pos h, List.append_nil, ← h]
    · rw [if_neg h]

theorem adds_adds (n : Option Nat) (ps qs : List Piece) (d : List (Option Nat × List Piece)) :
    adds n qs (adds n ps d) = adds n (ps ++ qs) d := by
  unfold adds
  rw [List.map_map]
  apply List.map_congr_left
  intro f _
  by_cases h : f.1 = n
  · simp [h]
  · simp [h]

theorem adds_names (n : Option Nat) (ps : List Piece) (d : List (Option Nat × List Piece)) :
    (adds n ps d).map (·.1) = d.map (·.1) := by
  unfold adds
  rw [List.map_map]
  apply List.map_congr_left
  intro f _
  by_cases h : f.1 = n
  · simp [h]
  · simp [h]

theorem adds_append (n : Option Nat) (ps : List Piece) (d e : List (Option Nat × List Piece)) :
    adds n ps (d ++ e) = adds n ps d ++ adds n ps e := by simp [adds]

theorem adds_other {n : Option Nat} {ps : List Piece} {d : List (Option Nat × List Piece)} (h : ∀ f ∈ d, f.1 ≠ n) : adds n ps d = d := by
  unfold adds
  conv => rhs; rw [← List.map_id d]
  apply List.map_congr_left
  intro f hf
  rw [if_neg (h f hf)]
  rfl

theorem look_adds_self (n : Option Nat) (ps : List Piece) (d : List (Option Nat × List Piece)) :
    look (adds n ps d) n = (look d n).map (· ++ ps) := by
  induction d with
  | nil => rfl
  | cons f d ih =>
    unfold adds look at ih ⊢
    rw [List.map_cons, List.find?_cons, List.find?_cons]
    by_cases h : f.1 = n
    · simp [h]
    · simp only [h, if_false, decide_false]
      exact ih

theorem look_adds_other {n m : Option Nat} (hm : m ≠ n) (ps : List Piece) (d : List (Option Nat × List Piece)) :
    look (adds n ps d) m = look d m := by
  induction d with
  | nil => rfl
  | cons f d ih =>
    unfold adds look at ih ⊢
    rw [List.map_cons, List.find?_cons, List.find?_cons]
    by_cases h : f.1 = n
    · have h2 : ¬ n = m := fun h => hm h.symm
      have h3 : ¬ f.1 = m := by rw [h]; exact h2
      simp only [h, if_true, h2, decide_false]
      exact ih
    · by_cases h4 : f.1 = m
      · simp [h, h4, hm]
      · simp only [h, if_false, h4, decide_false]
        exact ih

/-- The disk after opening a file. -/
def opened (n : Option Nat) (d : List (Option Nat × List Piece)) : List (Option Nat × List Piece) :=
  (d.filter fun f => f.1 ≠ n) ++ [(n, [])]

theorem look_opened_self (n : Option Nat) (d : List (Option Nat × List Piece)) : look (opened n d) n = some [] := by
  unfold look opened
  rw [List.find?_append]
  have : (d.filter fun f => f.1 ≠ n).find? (fun f => f.1 = n) = none := by
    rw [List.find?_eq_none]
    intro f hf
    have := (List.mem_filter.1 hf).2
    simpa using this
  rw [this]
  simp

theorem look_opened_other {n m : Option Nat} (hm : m ≠ n) (d : List (Option Nat × List Piece)) :
    look (opened n d) m = look d m := by
  unfold look opened
  rw [List.find?_append]
  have h : (d.filter fun f => f.1 ≠ n).find? (fun f => f.1 = m) = d.find? (fun f => f.1 = m) := by
    rw [List.find?_filter]
    congr 1
    funext f
    by_cases h : f.1 = m
    · simp [h, hm]
    · simp [h]
  rw [h]
  have : (([(n, [])] : List (Option Nat × List Piece)).find? fun f => f.1 = m) = none := by
    have h2 : ¬ n = m := fun h => hm h.symm
    simp [h2]
  rw [this, Option.or_none]

theorem fileData_append (a b : List Piece) : fileData (a ++ b) = fileData a ++ fileData b := by
  induction a with
  | nil => rfl
  | cons p a ih => cases p <;> simp [fileData, ih]

theorem inner_append {a b : List Piece} (ha : Inner a) (hb : Inner b) : Inner (a ++ b) := by
  intro p hp
  rcases List.mem_append.1 hp with h | h
  · exact ha p h
  · exact hb p h

theorem inner_nil : Inner [] := fun _ h => absurd h List.not_mem_nil

theorem inner_data (l : List Byte) : Inner [.data l] := by
  intro p hp
  exact Or.inl ⟨l, List.mem_singleton.1 hp⟩

theorem inner_head (a b c : Nat) : Inner [.head a b c] := by
  intro p hp
  exact Or.inr ⟨a, b, c, List.mem_singleton.1 hp⟩

/-! ## One write -/

theorem put_cases (s : Out) (p : Piece) :
    (s.put p = (s, false) ∧ (s.file = none ∨ p.len = 0)) ∨
    (∃ f, s.file = some f ∧ s.room = some 0 ∧ s.put p = ({ s with file := none }, false)) ∨
    (∃ f k, s.file = some f ∧ (s.room = none → k = none) ∧ 0 < p.len ∧
      s.put p = ({ s with room := k, disk := adds f.1 [p] s.disk }, true)) := by
  cases hf : s.file with
  | none =>
    refine Or.inl ⟨?_, Or.inl rfl⟩
    unfold Out.put
    rw [hf]
  | some f =>
    by_cases hp : p.len = 0
    · refine Or.inl ⟨?_, Or.inr hp⟩
      unfold Out.put
      rw [hf]
      simp only [hp, if_true]
    · cases hr : s.room with
      | none =>
        refine Or.inr (Or.inr ⟨f, none, rfl, fun _ => rfl, Nat.pos_of_ne_zero hp, ?_⟩)
        unfold Out.put
        rw [hf]
        simp only [hp, if_false, hr]
        rfl
      | some k =>
        cases k with
        | zero =>
          refine Or.inr (Or.inl ⟨f, rfl, rfl, ?_⟩)
          unfold Out.put
          rw [hf]
          simp only [hp, if_false, hr]
        | succ k =>
          refine Or.inr (Or.inr ⟨f, some k, rfl, (by intro h; cases h), Nat.pos_of_ne_zero hp, ?_⟩)
          unfold Out.put
          rw [hf]
          simp only [hp, if_false, hr]
          rfl

/-- A write to a healthy disk. -/
theorem put_good {s : Out} {f : Option Nat × Nat} (hf : s.file = some f) (hr : s.room = none) {p : Piece} (hp : 0 < p.len) :
    s.put p = ({ s with disk := adds f.1 [p] s.disk }, true) := by
  unfold Out.put
  rw [hf]
  simp only [Nat.ne_of_gt hp, if_false, hr]
  rfl

/-- The state behind pieces which were written. -/
theorem put_true {s : Out} {p : Piece} {t : Out} (h : s.put p = (t, true)) :
    ∃ f k, s.file = some f ∧ (s.room = none → k = none) ∧ t = { s with room := k, disk := adds f.1 [p] s.disk } := by
  rcases put_cases s p with ⟨h1, _⟩ | ⟨f, _, _, h1⟩ | ⟨f, k, hf, hk, _, h1⟩
  · rw [h1] at h; exact absurd (congrArg Prod.snd h) (by simp)
  · rw [h1] at h; exact absurd (congrArg Prod.snd h) (by simp)
  · rw [h1] at h
    exact ⟨f, k, hf, hk, (congrArg Prod.fst h).symm⟩

/-! ## Segments -/

/-- What writing segments leads to, when it succeeds. -/
theorem segments_true : ∀ (segs : List (List Byte)) (s : Out) (f : Option Nat × Nat) (c w : Nat) (t : Out) (w' : Nat),
    s.file = some f → s.segments segs c w = (t, true, w') →
    ∃ ps k, Inner ps ∧ fileData ps = segs.flatten.drop c ∧ w' = w + (segs.flatten.drop c).length ∧ (s.room = none → k = none) ∧
      t = { s with room := k, disk := adds f.1 ps s.disk } := by
  intro segs
  induction segs with
  | nil =>
    intro s f c w t w' hf h
    simp only [Out.segments, Prod.mk.injEq, true_and] at h
    refine ⟨[], s.room, inner_nil, by simp [fileData], by simp [h.2], fun h => h, ?_⟩
    rw [adds_nil, ← h.1]
  | cons g l ih =>
    intro s f c w t w' hf h
    unfold Out.segments at h
    by_cases hc : g.length ≤ c
    · rw [if_pos hc] at h
      obtain ⟨ps, k, h1, h2, h3, h4, h5⟩ := ih s f _ _ t w' hf h
      have hd : (g :: l).flatten.drop c = l.flatten.drop (c - g.length) := by
        rw [List.flatten_cons, List.drop_append, List.drop_eq_nil_of_le hc, List.nil_append]
      exact ⟨ps, k, h1, by rw [hd]; exact h2, by rw [hd]; exact h3, h4, h5⟩
    · rw [if_neg hc] at h
      have hd : (g :: l).flatten.drop c = g.drop c ++ l.flatten := by
        rw [List.flatten_cons, List.drop_append_of_le_length (by omega)]
      rcases hp : s.put (.data (g.drop c)) with ⟨u, b⟩
      rw [hp] at h
      cases b with
      | false => simp at h
      | true =>
        simp only at h
        obtain ⟨f', k, hf', hk, hu⟩ := put_true hp
        rw [hf] at hf'
        cases hf'
        have hfu : u.file = some f := by rw [hu]; exact hf
        obtain ⟨ps, k2, h1, h2, h3, h4, h5⟩ := ih u f _ _ t w' hfu h
        refine ⟨.data (g.drop c) :: ps, k2, ?_, ?_, ?_, ?_, ?_⟩
        · exact inner_append (inner_data _) h1
        · rw [hd]; simp only [fileData, h2, List.drop_zero]
        · rw [hd, h3, List.length_append, List.drop_zero]; omega
        · intro hr; exact h4 (by rw [hu]; exact hk hr)
        · rw [h5, hu]
          simp only
          rw [adds_adds]
          rfl

theorem segments_good : ∀ (segs : List (List Byte)) (s : Out) (f : Option Nat × Nat) (c w : Nat),
    s.file = some f → s.room = none → (s.segments segs c w).2.1 = true := by
  intro segs
  induction segs with
  | nil => intro s f c w _ _; rfl
  | cons g l ih =>
    intro s f c w hf hr
    unfold Out.segments
    by_cases hc : g.length ≤ c
    · rw [if_pos hc]
      exact ih s f _ _ hf hr
    · rw [if_neg hc, put_good hf hr (by simp [Piece.len]; omega)]
      exact ih _ f _ _ hf hr

/-- Segments written to a healthy disk. -/
theorem segments_eq {s : Out} {f : Option Nat × Nat} (hf : s.file = some f) (hr : s.room = none) (segs : List (List Byte)) (c : Nat) :
    ∃ ps, Inner ps ∧ fileData ps = segs.flatten.drop c ∧
      s.segments segs c 0 = ({ s with disk := adds f.1 ps s.disk }, true, (segs.flatten.drop c).length) := by
  rcases h : s.segments segs c 0 with ⟨t, b, w⟩
  have hb := segments_good segs s f c 0 hf hr
  rw [h] at hb
  simp only at hb
  subst hb
  obtain ⟨ps, k, h1, h2, h3, h4, h5⟩ := segments_true segs s f c 0 t w hf h
  refine ⟨ps, h1, h2, ?_⟩
  have := h4 hr
  rw [this, ← hr] at h5
  rw [h5, h3, Nat.zero_add]

theorem flush_eq : ∀ (segs : List (List Byte)) (s : Out) (f : Option Nat × Nat) (p : Nat),
    s.file = some f → s.room = none → (∀ g ∈ segs, g ≠ []) →
    ∃ ps, Inner ps ∧ fileData ps = segs.flatten.take p ∧ s.flush segs p = ({ s with disk := adds f.1 ps s.disk }, true) := by
  intro segs
  induction segs with
  | nil =>
    intro s f p hf hr _
    refine ⟨[], inner_nil, by simp [fileData], ?_⟩
    rw [adds_nil]
    rfl
  | cons g l ih =>
    intro s f p hf hr hg
    unfold Out.flush
    by_cases hp : p = 0
    · refine ⟨[], inner_nil, by simp [fileData, hp], ?_⟩
      rw [if_pos hp, adds_nil]
    · have hgl : 0 < g.length := List.length_pos_iff.2 (hg g (List.mem_cons_self))
      rw [if_neg hp, put_good hf hr (by simp [Piece.len]; omega)]
      simp only
      obtain ⟨ps, h1, h2, h3⟩ := ih ({ s with disk := adds f.1 [.data (g.take p)] s.disk } : Out) f (p - (g.take p).length) hf hr
        (fun x hx => hg x (List.mem_cons_of_mem _ hx))
      refine ⟨.data (g.take p) :: ps, inner_append (inner_data _) h1, ?_, ?_⟩
      · simp only [fileData, h2, List.flatten_cons, List.take_append]
        congr 1
        rw [List.length_take]
        congr 1
        omega
      · rw [h3]
        simp only
        rw [adds_adds]
        rfl

/-! ## Closing and opening -/

theorem closeFile_good {s : Out} {f : Option Nat × Nat} (hf : s.file = some f) (hr : s.room = none) :
    s.closeFile = { s with file := none, size := 0, disk := adds f.1 [.stop f.2] s.disk } := by
  unfold Out.closeFile
  rw [hf]
  simp only
  rw [put_good hf hr (by simp [Piece.len])]

theorem closeFile_none {s : Out} (hf : s.file = none) : s.closeFile = { s with size := 0 } := by
  unfold Out.closeFile
  rw [hf]

theorem openWrite_good {s : Out} (hr : s.room = none) (hc : s.canOpen = true) (n : Option Nat) (r : Nat) :
    s.openWrite n r = ({ s with disk := adds n [.start r] (opened n s.disk), file := some (n, r) }, true) := by
  unfold Out.openWrite
  rw [if_pos hc]
  exact put_good (s := { s with disk := opened n s.disk, file := some (n, r) }) (f := (n, r)) rfl hr (by simp [Piece.len])

theorem adds_opened (n : Option Nat) (ps : List Piece) (d : List (Option Nat × List Piece)) :
    adds n ps (opened n d) = (d.filter fun f => f.1 ≠ n) ++ [(n, ps)] := by
  unfold opened
  rw [adds_append, adds_other]
  · simp [adds]
  · intro f hf
    simpa using (List.mem_filter.1 hf).2

theorem opened_fresh {n : Option Nat} {d : List (Option Nat × List Piece)} (h : ∀ f ∈ d, f.1 ≠ n) :
    (d.filter fun f => f.1 ≠ n) = d := by
  apply List.filter_eq_self.2
  intro f hf
  simpa using h f hf

end Verif.HldOut
