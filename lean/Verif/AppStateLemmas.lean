import Verif.Spec.AppState

namespace Verif.AppState

open Spec

/-! ## Modules -/

theorem mem_setRun {n : Nat} {b : Bool} {l : List (Nat × Bool)} {x : Nat × Bool}
    (h : x ∈ setRun n b l) : (x.1 = n → x.2 = b) ∧ ∃ r, (x.1, r) ∈ l ∧ (x.1 ≠ n → r = x.2) := by
  obtain ⟨y, hy, rfl⟩ := List.mem_map.mp h
  by_cases hyn : y.1 = n
  · rw [if_pos hyn]
    exact ⟨fun _ => rfl, y.2, by rw [← hyn]; exact hy, fun h' => absurd rfl h'⟩
  · rw [if_neg hyn]
    exact ⟨fun h' => absurd h' hyn, y.2, hy, fun _ => rfl⟩

theorem setRun_mem {n : Nat} {b : Bool} {l : List (Nat × Bool)} {m : Nat} {r : Bool} (h : (m, r) ∈ l) :
    ∃ r', (m, r') ∈ setRun n b l := by
  by_cases hm : m = n
  · exact ⟨b, List.mem_map.mpr ⟨_, h, by rw [if_pos (show (m, r).1 = n from hm), hm]⟩⟩
  · exact ⟨r, List.mem_map.mpr ⟨_, h, by rw [if_neg (show ¬ (m, r).1 = n from hm)]⟩⟩

theorem fold_setRun (b : Bool) (names : List Nat) (l : List (Nat × Bool)) :
    (∀ x ∈ names.foldl (fun l n => setRun n b l) l,
      (x.1 ∈ names → x.2 = b) ∧ ∃ r, (x.1, r) ∈ l ∧ (x.1 ∉ names → r = x.2)) ∧
    (∀ m r, (m, r) ∈ l → ∃ r', (m, r') ∈ names.foldl (fun l n => setRun n b l) l) := by
  induction names generalizing l with
  | nil =>
    exact ⟨fun x hx => ⟨fun h => by simp at h, x.2, hx, fun _ => rfl⟩, fun m r h => ⟨r, h⟩⟩
  | cons n names ih =>
    obtain ⟨h1, h2⟩ := ih (setRun n b l)
    constructor
    · intro x hx
      obtain ⟨h3, r, hr, h4⟩ := h1 x hx
      obtain ⟨h5, r', hr', h6⟩ := mem_setRun hr
      refine ⟨?_, r', hr', ?_⟩
      · intro hm
        by_cases hmn : x.1 ∈ names
        · exact h3 hmn
        · rcases List.mem_cons.mp hm with e | e
          · rw [← h4 hmn]; exact h5 e
          · exact absurd e hmn
      · intro hm
        have e1 : x.1 ≠ n := fun e => hm (by rw [e]; simp)
        have e2 : x.1 ∉ names := fun e => hm (List.mem_cons_of_mem _ e)
        rw [h6 e1, h4 e2]
    · intro m r h
      obtain ⟨r', hr'⟩ := setRun_mem (n := n) (b := b) h
      exact h2 m r' hr'

theorem startModules_all (s : App) : All s.startModules true :=
  fun _ hn _ hr => ((fold_setRun true s.mods s.mMods).1 _ hr).1 hn

theorem stopModules_all (s : App) : All s.stopModules false :=
  fun _ hn _ hr => ((fold_setRun false s.mods s.mMods).1 _ hr).1 hn

/-- Starting and stopping keeps the modules. -/
theorem startModules_exists (s : App) (n : Nat) :
    (∃ b, (n, b) ∈ s.startModules.mMods) ↔ ∃ b, (n, b) ∈ s.mMods := by
  obtain ⟨h1, h2⟩ := fold_setRun true s.mods s.mMods
  constructor
  · rintro ⟨b, hb⟩
    obtain ⟨_, r, hr, _⟩ := h1 _ hb
    exact ⟨r, hr⟩
  · rintro ⟨b, hb⟩
    exact h2 n b hb

theorem stopModules_exists (s : App) (n : Nat) :
    (∃ b, (n, b) ∈ s.stopModules.mMods) ↔ ∃ b, (n, b) ∈ s.mMods := by
  obtain ⟨h1, h2⟩ := fold_setRun false s.mods s.mMods
  constructor
  · rintro ⟨b, hb⟩
    obtain ⟨_, r, hr, _⟩ := h1 _ hb
    exact ⟨r, hr⟩
  · rintro ⟨b, hb⟩
    exact h2 n b hb

/-! ## What creation leaves alone -/

/-- Everything but the objects. -/
structure Rest (s t : App) : Prop where
  self : t.self = s.self
  st : t.st = s.st
  replies : t.replies = s.replies
  timer : t.timer = s.timer
  anyRun : t.anyRun = s.anyRun
  stops : t.stops = s.stops
  crashed : t.crashed = s.crashed
  pend : t.pend = s.pend

theorem Rest.refl (s : App) : Rest s s := ⟨rfl, rfl, rfl, rfl, rfl, rfl, rfl, rfl⟩

theorem Rest.trans {s t u : App} (h : Rest s t) (k : Rest t u) : Rest s u :=
  ⟨k.self.trans h.self, k.st.trans h.st, k.replies.trans h.replies, k.timer.trans h.timer,
    k.anyRun.trans h.anyRun, k.stops.trans h.stops, k.crashed.trans h.crashed, k.pend.trans h.pend⟩

theorem makeDevs_rest (s : App) (l : List Item) : Rest s (s.makeDevs l).1 := by
  induction l generalizing s with
  | nil => exact Rest.refl s
  | cons d l ih =>
    unfold App.makeDevs
    split
    · exact ih s
    · split
      · split
        · dsimp only
          refine Rest.trans ?_ (ih _)
          exact ⟨rfl, rfl, rfl, rfl, rfl, rfl, rfl, rfl⟩
        · exact ⟨rfl, rfl, rfl, rfl, rfl, rfl, rfl, rfl⟩
      · exact ih s

theorem makePools_rest (s : App) (l : List Item) : Rest s (s.makePools l).1 := by
  induction l generalizing s with
  | nil => exact Rest.refl s
  | cons d l ih =>
    unfold App.makePools
    split
    · exact Rest.refl s
    · split
      · dsimp only
        refine Rest.trans ?_ (ih _)
        exact ⟨rfl, rfl, rfl, rfl, rfl, rfl, rfl, rfl⟩
      · exact ⟨rfl, rfl, rfl, rfl, rfl, rfl, rfl, rfl⟩

theorem makeMods_rest (s : App) (l : List Item) : Rest s (s.makeMods l).1 := by
  induction l generalizing s with
  | nil => exact Rest.refl s
  | cons d l ih =>
    unfold App.makeMods
    split
    · split
      · exact Rest.refl s
      · split
        · exact ih s
        · split
          · exact ih s
          · split
            · split
              · dsimp only
                refine Rest.trans ?_ (ih _)
                exact ⟨rfl, rfl, rfl, rfl, rfl, rfl, rfl, rfl⟩
              · exact ⟨rfl, rfl, rfl, rfl, rfl, rfl, rfl, rfl⟩
            · exact ⟨rfl, rfl, rfl, rfl, rfl, rfl, rfl, rfl⟩
    · exact ih s

/-! ## Objects which are created are registered -/

/-- Every object is registered or has property `F`, and those of `s` are kept. -/
structure Objs (F : Kind → Nat → Prop) (s : App) : Prop where
  reg : ∀ k n, Exists s k n → Registered s k n ∨ F k n

/-- Objects and registrations only grow. -/
structure Grow (s t : App) : Prop where
  ex : ∀ k n, Exists s k n → Exists t k n
  reg : ∀ k n, Registered s k n → Registered t k n
  fresh : ∀ k n, Exists t k n → Exists s k n ∨ Registered t k n

theorem Grow.refl (s : App) : Grow s s := ⟨fun _ _ h => h, fun _ _ h => h, fun _ _ h => Or.inl h⟩

theorem Grow.trans {s t u : App} (h : Grow s t) (k : Grow t u) : Grow s u := by
  refine ⟨fun a n h1 => k.ex a n (h.ex a n h1), fun a n h1 => k.reg a n (h.reg a n h1), ?_⟩
  intro a n h1
  rcases k.fresh a n h1 with h2 | h2
  · rcases h.fresh a n h2 with h3 | h3
    · exact Or.inl h3
    · exact Or.inr (k.reg a n h3)
  · exact Or.inr h2

theorem grow_dev (s : App) (n : Nat) (b : Bool) :
    Grow s { s with devs := s.devs ++ [n], mDevs := if b then s.mDevs else s.mDevs ++ [n] } := by
  refine ⟨?_, ?_, ?_⟩
  · intro k m h
    cases k with
    | device =>
      show m ∈ (if b then s.mDevs else s.mDevs ++ [n])
      split
      · exact h
      · exact List.mem_append_left _ h
    | _ => exact h
  · intro k m h
    cases k with
    | device => exact List.mem_append_left _ h
    | _ => exact h
  · intro k m h
    cases k with
    | device =>
      have h' : m ∈ (if b then s.mDevs else s.mDevs ++ [n]) := h
      split at h'
      · exact Or.inl h'
      · rcases List.mem_append.mp h' with h' | h'
        · exact Or.inl h'
        · exact Or.inr (List.mem_append_right _ h')
    | _ => exact Or.inl h

theorem grow_pool (s : App) (n : Nat) (b : Bool) :
    Grow s { s with pools := s.pools ++ [n], mPools := if b then s.mPools else s.mPools ++ [n] } := by
  refine ⟨?_, ?_, ?_⟩
  · intro k m h
    cases k with
    | pool =>
      show m ∈ (if b then s.mPools else s.mPools ++ [n])
      split
      · exact h
      · exact List.mem_append_left _ h
    | _ => exact h
  · intro k m h
    cases k with
    | pool => exact List.mem_append_left _ h
    | _ => exact h
  · intro k m h
    cases k with
    | pool =>
      have h' : m ∈ (if b then s.mPools else s.mPools ++ [n]) := h
      split at h'
      · exact Or.inl h'
      · rcases List.mem_append.mp h' with h' | h'
        · exact Or.inl h'
        · exact Or.inr (List.mem_append_right _ h')
    | _ => exact Or.inl h

theorem grow_mod (s : App) (n : Nat) (b : Bool) :
    Grow s { s with mods := s.mods ++ [n], mMods := if b then s.mMods else s.mMods ++ [(n, false)] } := by
  refine ⟨?_, ?_, ?_⟩
  · intro k m h
    cases k with
    | module =>
      obtain ⟨r, hr⟩ := h
      refine ⟨r, ?_⟩
      show (m, r) ∈ (if b then s.mMods else s.mMods ++ [(n, false)])
      split
      · exact hr
      · exact List.mem_append_left _ hr
    | _ => exact h
  · intro k m h
    cases k with
    | module => exact List.mem_append_left _ h
    | _ => exact h
  · intro k m h
    cases k with
    | module =>
      obtain ⟨r, hr⟩ := h
      have h' : (m, r) ∈ (if b then s.mMods else s.mMods ++ [(n, false)]) := hr
      split at h'
      · exact Or.inl ⟨r, h'⟩
      · rcases List.mem_append.mp h' with h' | h'
        · exact Or.inl ⟨r, h'⟩
        · have e := List.mem_singleton.mp h'
          simp only [Prod.mk.injEq] at e
          refine Or.inr ?_
          show m ∈ s.mods ++ [n]
          rw [e.1]; simp
    | _ => exact Or.inl h

theorem makeDevs_grow (s : App) (l : List Item) : Grow s (s.makeDevs l).1 := by
  induction l generalizing s with
  | nil => exact Grow.refl s
  | cons d l ih =>
    unfold App.makeDevs
    split
    · exact ih s
    · rename_i n _
      split
      · split
        · refine Grow.trans ?_ (ih _)
          by_cases hn : n ∈ s.mDevs
          · simpa [hn] using grow_dev s n true
          · simpa [hn] using grow_dev s n false
        · exact grow_dev s n true
      · exact ih s

theorem makePools_grow (s : App) (l : List Item) : Grow s (s.makePools l).1 := by
  induction l generalizing s with
  | nil => exact Grow.refl s
  | cons d l ih =>
    unfold App.makePools
    split
    · exact Grow.refl s
    · rename_i n _
      split
      · refine Grow.trans ?_ (ih _)
        by_cases hn : n ∈ s.mPools
        · simpa [hn] using grow_pool s n true
        · simpa [hn] using grow_pool s n false
      · exact grow_pool s n true

theorem makeMods_grow (s : App) (l : List Item) : Grow s (s.makeMods l).1 := by
  induction l generalizing s with
  | nil => exact Grow.refl s
  | cons d l ih =>
    unfold App.makeMods
    split
    · split
      · exact Grow.refl s
      · rename_i n _
        split
        · exact ih s
        · split
          · exact ih s
          · split
            · split
              · exact Grow.trans (grow_mod s n false) (ih _)
              · exact grow_mod s n false
            · exact grow_mod s n true
    · exact ih s

/-- What creation did when it reports success: everything wanted exists. -/
theorem makeDevs_wanted (s : App) (l : List Item) (h : (s.makeDevs l).2 = some true) :
    ∀ d ∈ l, ∀ n, d.name = some n → d.cls = true → n ∈ (s.makeDevs l).1.mDevs := by
  induction l generalizing s with
  | nil => intro d hd; simp at hd
  | cons x l ih =>
    intro d hd n hn hc
    unfold App.makeDevs at h ⊢
    rcases List.mem_cons.mp hd with rfl | hd'
    · simp only [hn, hc, if_true] at h ⊢
      rcases Bool.eq_false_or_eq_true d.ok with ho | ho
      · simp only [ho, if_true] at h ⊢
        refine (makeDevs_grow _ l).ex .device n ?_
        show n ∈ (if n ∈ s.mDevs then s.mDevs else s.mDevs ++ [n])
        split
        · assumption
        · simp
      · simp [ho] at h
    · split at h
      · exact ih s h d hd' n hn hc
      · split at h
        · rename_i hcl
          split at h
          · rename_i ho
            simp only [hcl, ho, if_true]
            exact ih _ h d hd' n hn hc
          · simp at h
        · rename_i hcl
          simp only [hcl, if_false]
          exact ih s h d hd' n hn hc

theorem makePools_wanted (s : App) (l : List Item) (h : (s.makePools l).2 = some true) :
    ∀ d ∈ l, ∀ n, d.name = some n → n ∈ (s.makePools l).1.mPools := by
  induction l generalizing s with
  | nil => intro d hd; simp at hd
  | cons x l ih =>
    intro d hd n hn
    unfold App.makePools at h ⊢
    rcases List.mem_cons.mp hd with rfl | hd'
    · simp only [hn] at h ⊢
      rcases Bool.eq_false_or_eq_true d.ok with ho | ho
      · simp only [ho, if_true] at h ⊢
        refine (makePools_grow _ l).ex .pool n ?_
        show n ∈ (if n ∈ s.mPools then s.mPools else s.mPools ++ [n])
        split
        · assumption
        · simp
      · simp [ho] at h
    · split at h
      · simp at h
      · split at h
        · rename_i ho
          simp only [ho, if_true]
          exact ih _ h d hd' n hn
        · simp at h

theorem makeMods_wanted (s : App) (l : List Item) (h : (s.makeMods l).2 = some true) :
    ∀ d ∈ l, ∀ n, d.name = some n → d.cls = true → d.pub = false →
      ∃ b, (n, b) ∈ (s.makeMods l).1.mMods := by
  induction l generalizing s with
  | nil => intro d hd; simp at hd
  | cons x l ih =>
    intro d hd n hn hc hp
    unfold App.makeMods at h ⊢
    rcases List.mem_cons.mp hd with rfl | hd'
    · simp only [hn, hc, hp, if_true, Bool.false_eq_true, if_false] at h ⊢
      split at h
      · rename_i hm
        rw [if_pos hm]
        obtain ⟨y, hy, e⟩ := List.mem_map.mp hm
        refine (makeMods_grow s l).ex .module n ⟨y.2, ?_⟩
        rw [← e]; exact hy
      · rename_i hm
        rw [if_neg hm]
        rcases Bool.eq_false_or_eq_true d.ok with ho | ho
        · simp only [ho, if_true] at h ⊢
          rcases Bool.eq_false_or_eq_true d.ports with hq | hq
          · simp only [hq, if_true] at h ⊢
            refine (makeMods_grow _ l).ex .module n ⟨false, ?_⟩
            simp
          · simp [hq] at h
        · simp [ho] at h
    · split at h
      · rename_i hcl
        rw [if_pos hcl]
        split at h
        · simp at h
        · split at h
          · rename_i hm
            rw [if_pos hm]
            exact ih s h d hd' n hn hc hp
          · rename_i hm
            rw [if_neg hm]
            split at h
            · rename_i hpb
              rw [if_pos hpb]
              exact ih s h d hd' n hn hc hp
            · rename_i hpb
              rw [if_neg hpb]
              split at h
              · rename_i ho
                split at h
                · rename_i hq
                  simp only [ho, hq, if_true]
                  exact ih _ h d hd' n hn hc hp
                · simp at h
              · simp at h
      · rename_i hcl
        rw [if_neg hcl]
        exact ih s h d hd' n hn hc hp

/-- Creation from items without failures succeeds. -/
theorem makeDevs_ok (s : App) (l : List Item) (h : ∀ d ∈ l, d.ok = true) : (s.makeDevs l).2 = some true := by
  induction l generalizing s with
  | nil => rfl
  | cons d l ih =>
    have hl : ∀ d ∈ l, d.ok = true := fun x hx => h x (List.mem_cons_of_mem _ hx)
    have hd := h d (by simp)
    unfold App.makeDevs
    split
    · exact ih s hl
    · split
      · simp only [hd, if_true]
        exact ih _ hl
      · exact ih s hl

theorem makePools_ok (s : App) (l : List Item) (h : ∀ d ∈ l, d.ok = true ∧ d.name ≠ none) :
    (s.makePools l).2 = some true := by
  induction l generalizing s with
  | nil => rfl
  | cons d l ih =>
    have hl : ∀ d ∈ l, d.ok = true ∧ d.name ≠ none := fun x hx => h x (List.mem_cons_of_mem _ hx)
    have hd := h d (by simp)
    unfold App.makePools
    split
    · rename_i hn; exact absurd hn hd.2
    · simp only [hd.1, if_true]
      exact ih _ hl

theorem makeMods_ok (s : App) (l : List Item) (h : ∀ d ∈ l, d.ok = true ∧ d.ports = true ∧ d.name ≠ none) :
    (s.makeMods l).2 = some true := by
  induction l generalizing s with
  | nil => rfl
  | cons d l ih =>
    have hl : ∀ d ∈ l, d.ok = true ∧ d.ports = true ∧ d.name ≠ none :=
      fun x hx => h x (List.mem_cons_of_mem _ hx)
    have hd := h d (by simp)
    unfold App.makeMods
    split
    · split
      · rename_i hn; exact absurd hn hd.2.2
      · split
        · exact ih s hl
        · split
          · exact ih s hl
          · simp only [hd.1, hd.2.1, if_true]
            exact ih _ hl
    · exact ih s hl

end Verif.AppState
