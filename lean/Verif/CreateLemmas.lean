import Verif.Spec.Create
import Mathlib.Data.List.Induction
import Mathlib.Data.List.Nodup
/-!
# Lemmas about the creation of objects
-/

namespace Verif.Create

theorem ask_some {α : Type} (f : Factory → Option α) (fs : List Factory) (r : α) :
    ask f fs = some r ↔ MadeByFirst f fs r := by
  induction fs with
  | nil =>
    constructor
    · intro h; cases h
    · rintro ⟨pre, x, post, h, -, -⟩
      cases pre <;> cases h
  | cons a l ih =>
    unfold ask
    constructor
    · intro h
      split at h
      · rename_i r' e
        exact ⟨[], a, l, rfl, (by intro y hy; cases hy), by rw [e]; exact h⟩
      · rename_i e
        obtain ⟨pre, x, post, hl, hp, hx⟩ := ih.mp h
        refine ⟨a :: pre, x, post, by rw [hl]; rfl, ?_, hx⟩
        intro y hy
        rcases List.mem_cons.mp hy with rfl | hy
        · exact e
        · exact hp y hy
    · rintro ⟨pre, x, post, hl, hp, hx⟩
      cases pre with
      | nil =>
        obtain ⟨rfl, rfl⟩ := List.cons.inj hl
        rw [hx]
      | cons b pre =>
        obtain ⟨rfl, rfl⟩ := List.cons.inj hl
        rw [hp a (List.mem_cons_self ..)]
        exact ih.mpr ⟨pre, x, post, rfl, fun y hy => hp y (List.mem_cons_of_mem _ hy), hx⟩

theorem ask_none {α : Type} (f : Factory → Option α) (fs : List Factory) :
    ask f fs = none ↔ Unknown f fs := by
  induction fs with
  | nil => exact ⟨(fun _ x hx => by cases hx), (fun _ => rfl)⟩
  | cons a l ih =>
    unfold ask
    constructor
    · intro h
      split at h
      · cases h
      · rename_i e
        intro x hx
        rcases List.mem_cons.mp hx with rfl | hx
        · exact e
        · exact ih.mp h x hx
    · intro h
      rw [h a (List.mem_cons_self ..)]
      exact ih.mpr fun x hx => h x (List.mem_cons_of_mem _ hx)

/-! ## Registration -/

/-- Contents of the array after some early factories. -/
def slots (l : List Nat) : List (Option Nat) :=
  (l.take 10).map some ++ List.replicate (10 - l.length) none

theorem fill_map (f : Nat) (l : List Nat) (k : Nat) :
    fill f (l.map some ++ List.replicate k none)
      = (if k = 0 then l.map some else l.map some ++ some f :: List.replicate (k - 1) none) := by
  induction l with
  | nil =>
    cases k with
    | zero => rfl
    | succ k => simp [fill, List.replicate_succ]
  | cons a l ih =>
    simp only [List.map_cons, List.cons_append, fill, ih]
    split <;> rfl

theorem fill_slots (f : Nat) (l : List Nat) : fill f (slots l) = slots (l ++ [f]) := by
  unfold slots
  rw [fill_map]
  by_cases h : 10 ≤ l.length
  · rw [if_pos (by omega), List.take_append_of_le_length h]
    have e : 10 - (l ++ [f]).length = 0 := by simp; omega
    rw [e]; simp
  · have h1 : l.take 10 = l := List.take_of_length_le (by omega)
    have h2 : (l ++ [f]).take 10 = l ++ [f] := List.take_of_length_le (by simp; omega)
    rw [if_neg (by omega), h1, h2]
    have e : 10 - (l ++ [f]).length = 10 - l.length - 1 := by simp; omega
    rw [e]; simp

theorem early_state (l : List Nat) : l ≠ [] →
    l.foldl processFactory Reg.start = ⟨false, true, slots l, []⟩ := by
  induction l using List.reverseRecOn with
  | nil => intro h; exact absurd rfl h
  | append_singleton l f ih =>
    intro _
    rw [List.foldl_append]
    by_cases hl : l = []
    · subst hl; rfl
    · rw [ih hl]
      show (⟨false, true, fill f (slots l), []⟩ : Reg) = _
      rw [fill_slots]

theorem takeFirst_some (m : Bool) (fst : List (Option Nat)) (l : List Nat) (k : Nat) :
    ∀ folder, takeFirst ⟨true, m, fst, folder⟩ (l.map some ++ List.replicate k none)
      = ⟨true, m, fst, folder ++ l⟩ := by
  induction l with
  | nil =>
    intro folder
    induction k with
    | zero => simp [takeFirst]
    | succ k ih => simpa [takeFirst, List.replicate_succ] using ih
  | cons a l ih =>
    intro folder
    have := ih (folder ++ [a])
    simp only [List.map_cons, List.cons_append, takeFirst]
    show takeFirst ⟨true, m, fst, folder ++ [a]⟩ _ = _
    rw [this]; simp

theorem late_state (m : Bool) (fst : List (Option Nat)) (l : List Nat) :
    ∀ folder, l.foldl processFactory ⟨true, m, fst, folder⟩
      = ⟨true, m, fst, folder ++ l⟩ := by
  induction l with
  | nil => intro folder; simp
  | cons a l ih =>
    intro folder
    show l.foldl processFactory ⟨true, m, fst, folder ++ [a]⟩ = _
    rw [ih]; simp

theorem folder_eq (early late : List Nat) (std sock : Nat) :
    (register early late std sock).folder = [std, sock] ++ early.take 10 ++ late := by
  unfold register
  by_cases he : early = []
  · subst he
    show (late.foldl processFactory ⟨true, false, List.replicate 10 none, [std, sock]⟩).folder = _
    rw [late_state]; simp
  · rw [early_state _ he]
    have : newManager ⟨false, true, slots early, []⟩ std sock
        = ⟨true, true, List.replicate 10 none, [std, sock] ++ early.take 10⟩ := by
      show ({ takeFirst ⟨true, true, slots early, [std, sock]⟩ (slots early) with
        first := List.replicate 10 none } : Reg) = _
      have h := takeFirst_some true (slots early) (early.take 10) (10 - early.length) [std, sock]
      have h' : takeFirst ⟨true, true, slots early, [std, sock]⟩ (slots early)
          = ⟨true, true, slots early, [std, sock] ++ early.take 10⟩ := h
      rw [h']
    rw [this, late_state]

/-! ## Threads -/

theorem compat_iff (t : Thrd) (cl : Name) : compat t cl = true ↔ Usable t cl := by
  unfold compat Usable typeThread
  simp only [Bool.or_eq_true, beq_iff_eq]
  constructor
  · rintro ((h | h) | h)
    · exact .inl h
    · exact .inr (.inl h)
    · exact .inr (.inr h.symm)
  · rintro (h | h | h)
    · exact .inl (.inl h)
    · exact .inl (.inr h)
    · exact .inr h.symm

theorem findThread_some {ts : List Thrd} {n : Name} {t : Thrd} (h : findThread ts n = some t) :
    t ∈ ts ∧ t.name = n := by
  unfold findThread at h
  exact ⟨List.mem_of_find?_eq_some h, by simpa using List.find?_some h⟩

theorem findThread_none {ts : List Thrd} {n : Name} (h : findThread ts n = none) :
    ∀ t ∈ ts, t.name ≠ n := by
  unfold findThread at h
  intro t ht e
  have := List.find?_eq_none.mp h t ht
  simp [e] at this

/-- What the search for a thread gives from candidate `b` on. -/
def SearchOk (ts : List Thrd) (n cl : Name) (fuel b : Nat) : Look → Prop
  | .fresh m => ∃ j, b ≤ j ∧ j ≤ b + fuel ∧ m = candidate n j ∧ findThread ts m = none
      ∧ ∀ i, b ≤ i → i < j → ∃ t, findThread ts (candidate n i) = some t ∧ ¬ Usable t cl
  | .reuse t => ∃ j, b ≤ j ∧ j < b + fuel ∧ findThread ts (candidate n j) = some t
      ∧ Usable t cl
      ∧ ∀ i, b ≤ i → i < j → ∃ t, findThread ts (candidate n i) = some t ∧ ¬ Usable t cl
  | .exit => (∀ i, b ≤ i → i < b + fuel →
        ∃ t, findThread ts (candidate n i) = some t ∧ ¬ Usable t cl)
      ∧ ∃ t, findThread ts (candidate n (b + fuel)) = some t

theorem search_spec (ts : List Thrd) (n cl : Name) : ∀ fuel b,
    SearchOk ts n cl fuel b (search ts n cl fuel b (candidate n b)) := by
  intro fuel
  induction fuel with
  | zero =>
    intro b
    unfold search
    cases h : findThread ts (candidate n b) with
    | none => exact ⟨b, Nat.le_refl _, Nat.le_refl _, rfl, h, fun i h1 h2 => by omega⟩
    | some t => exact ⟨(fun i h1 h2 => by omega), t, h⟩
  | succ fuel ih =>
    intro b
    unfold search
    cases h : findThread ts (candidate n b) with
    | none => exact ⟨b, Nat.le_refl _, by omega, rfl, h, fun i h1 h2 => by omega⟩
    | some t =>
      dsimp only
      by_cases hc : compat t cl = true
      · rw [if_pos hc]
        exact ⟨b, Nat.le_refl _, by omega, h, (compat_iff t cl).mp hc, fun i h1 h2 => by omega⟩
      · rw [if_neg hc]
        have hn : ¬ Usable t cl := fun u => hc ((compat_iff t cl).mpr u)
        have hcand : numbered n b = candidate n (b + 1) := rfl
        have hi := ih (b + 1)
        rw [hcand]
        have first : ∀ {P : Nat → Prop}, P b → (∀ i, b + 1 ≤ i → P i) → ∀ i, b ≤ i → P i := by
          intro P h0 h1 i h2
          rcases Nat.eq_or_lt_of_le h2 with rfl | h3
          · exact h0
          · exact h1 i h3
        revert hi
        cases search ts n cl fuel (b + 1) (candidate n (b + 1)) <;> intro hi
        · obtain ⟨j, h1, h2, h3, h4, h5⟩ := hi
          refine ⟨j, by omega, by omega, h3, h4, ?_⟩
          exact first (P := fun i => i < j → _) (fun _ => ⟨t, h, hn⟩) h5
        · obtain ⟨j, h1, h2, h3, h4, h5⟩ := hi
          refine ⟨j, by omega, by omega, h3, h4, ?_⟩
          exact first (P := fun i => i < j → _) (fun _ => ⟨t, h, hn⟩) h5
        · obtain ⟨h1, t', h2⟩ := hi
          refine ⟨?_, t', by rw [← h2]; congr 2; omega⟩
          exact first (P := fun i => i < b + (fuel + 1) → _) (fun _ => ⟨t, h, hn⟩)
            (fun i h3 h4 => h1 i h3 (by omega))

/-- The list of threads stays or gets one more with a new name. -/
def Grown (a b : List Thrd) : Prop :=
  b = a ∨ ∃ t, b = a ++ [t] ∧ ∀ u ∈ a, u.name ≠ t.name

theorem ref_eq (fs : List Factory) (s : St) (n cl : Name) (st : Bool) :
    refCreateThread fs s n cl st = createThread fs s n cl st := by
  unfold refCreateThread createThread
  have hs : SearchOk s.thrds n cl 1000 0 (search s.thrds n cl 1000 0 n) :=
    search_spec s.thrds n cl 1000 0
  cases h : search s.thrds n cl 1000 0 n with
  | exit => rfl
  | reuse t =>
    rw [h] at hs
    obtain ⟨j, -, -, hf, -, -⟩ := hs
    have := (findThread_some hf).2
    show Res.ret s (findThread s.thrds t.name) = _
    rw [this, hf]
  | fresh m =>
    rw [h] at hs
    obtain ⟨j, -, -, -, hf, -⟩ := hs
    dsimp only
    cases ask (fun f => f.thread cl) fs with
    | none => rfl
    | some c =>
      dsimp only
      cases st with
      | false => rfl
      | true =>
        show Res.ret _ (findThread (s.thrds ++ [⟨m, c⟩]) m) = _
        have : findThread (s.thrds ++ [⟨m, c⟩]) m = some ⟨m, c⟩ := by
          unfold findThread at hf ⊢
          rw [List.find?_append, hf]
          simp
        rw [this]; rfl

theorem createThread_ret {fs : List Factory} {s s1 : St} {n cl : Name} {b : Bool}
    {r : Option Thrd} (h : createThread fs s n cl b = .ret s1 r) :
    (∃ t, r = some t ∧ s1 = s ∧ t ∈ s.thrds ∧ Usable t cl ∧
        ∃ j, j < 1000 ∧ t.name = candidate n j)
    ∨ (∃ m c, r = some ⟨m, c⟩ ∧ s1 = { s with thrds := s.thrds ++ [⟨m, c⟩] }
        ∧ MadeByFirst (fun f => f.thread cl) fs c ∧ b = true
        ∧ (∀ u ∈ s.thrds, u.name ≠ m) ∧ ∃ j, j ≤ 1000 ∧ m = candidate n j)
    ∨ (r = none ∧ s1 = s ∧ (Unknown (fun f => f.thread cl) fs ∨ b = false)) := by
  have hs : SearchOk s.thrds n cl 1000 0 (search s.thrds n cl 1000 0 n) :=
    search_spec s.thrds n cl 1000 0
  unfold createThread at h
  cases e : search s.thrds n cl 1000 0 n with
  | exit => rw [e] at h; cases h
  | reuse t =>
    rw [e] at h hs
    obtain ⟨j, -, hj, hf, hu, -⟩ := hs
    obtain ⟨hm, hn⟩ := findThread_some hf
    simp only [Res.ret.injEq] at h
    exact .inl ⟨t, h.2.symm, h.1.symm, hm, hu, j, by omega, hn⟩
  | fresh m =>
    rw [e] at h hs
    obtain ⟨j, -, hj, hm, hf, -⟩ := hs
    dsimp only at h
    cases ea : ask (fun f => f.thread cl) fs with
    | none =>
      rw [ea] at h
      simp only [Res.ret.injEq] at h
      exact .inr (.inr ⟨h.2.symm, h.1.symm, .inl ((ask_none _ _).mp ea)⟩)
    | some c =>
      rw [ea] at h
      cases b with
      | false =>
        simp only [Bool.false_eq_true, if_false, Res.ret.injEq] at h
        exact .inr (.inr ⟨h.2.symm, h.1.symm, .inr rfl⟩)
      | true =>
        simp only [if_true, Res.ret.injEq] at h
        exact .inr (.inl ⟨m, c, h.2.symm, h.1.symm, (ask_some _ _ _).mp ea, rfl,
          findThread_none hf, j, by omega, hm⟩)

theorem createThread_exit {fs : List Factory} {s : St} {n cl : Name} {b : Bool} :
    createThread fs s n cl b = .exit ↔
      (∀ i, i < 1000 → ∃ t, findThread s.thrds (candidate n i) = some t ∧ ¬ Usable t cl)
      ∧ ∃ t, findThread s.thrds (candidate n 1000) = some t := by
  have hs : SearchOk s.thrds n cl 1000 0 (search s.thrds n cl 1000 0 n) :=
    search_spec s.thrds n cl 1000 0
  unfold createThread
  cases e : search s.thrds n cl 1000 0 n with
  | exit =>
    rw [e] at hs
    obtain ⟨h1, h2⟩ := hs
    refine ⟨fun _ => ⟨fun i hi => h1 i (Nat.zero_le _) (by omega), ?_⟩, fun _ => rfl⟩
    rwa [Nat.zero_add] at h2
  | reuse t =>
    rw [e] at hs
    obtain ⟨j, -, hj, hf, hu, -⟩ := hs
    constructor
    · intro h; cases h
    · rintro ⟨h, -⟩
      obtain ⟨t', ht', hn⟩ := h j (by omega)
      rw [hf] at ht'
      cases ht'
      exact absurd hu hn
  | fresh m =>
    rw [e] at hs
    obtain ⟨j, -, hj, hm, hf, -⟩ := hs
    constructor
    · intro h
      dsimp only at h
      split at h
      · cases h
      · split at h <;> cases h
    · rintro ⟨h, h'⟩
      rcases Nat.lt_or_ge j 1000 with hlt | hge
      · obtain ⟨t', ht', -⟩ := h j hlt
        rw [← hm, hf] at ht'; cases ht'
      · have : j = 1000 := by omega
        subst this
        obtain ⟨t', ht'⟩ := h'
        rw [← hm, hf] at ht'; cases ht'

theorem createThread_grown {fs : List Factory} {s s1 : St} {n cl : Name} {b : Bool}
    {r : Option Thrd} (h : createThread fs s n cl b = .ret s1 r) :
    s1.objs = s.objs ∧ s1.lastDev = s.lastDev ∧ Grown s.thrds s1.thrds := by
  rcases createThread_ret h with ⟨t, -, rfl, -⟩ | ⟨m, c, -, rfl, -, -, hu, -⟩ | ⟨-, rfl, -⟩
  · exact ⟨rfl, rfl, .inl rfl⟩
  · exact ⟨rfl, rfl, .inr ⟨⟨m, c⟩, rfl, hu⟩⟩
  · exact ⟨rfl, rfl, .inl rfl⟩

/-- What a new worker gets for a thread. -/
theorem makeThread_ret {fs : List Factory} {s s1 : St} {tn w req : Name} {b : Bool}
    {r : Option Name} (h : makeThread fs s tn w req b = .ret s1 r) :
    s1.objs = s.objs ∧ s1.lastDev = s.lastDev ∧ Grown s.thrds s1.thrds
    ∧ (∀ x, r = some x → ∃ t ∈ s1.thrds, t.name = x ∧ (req = [] ∨ t.cls = req)
        ∧ ∃ j, j ≤ 1000 ∧ x = candidate (workerThreadName tn w) j)
    ∧ (r = none → ThreadsHonest fs → Unknown (fun f => f.thread req) fs ∨ b = false
        ∨ (req = typeThread ∧ ∃ t ∈ s.thrds, t.cls ≠ typeThread)) := by
  unfold makeThread at h
  rw [ref_eq] at h
  cases e : createThread fs s (workerThreadName tn w) req b with
  | exit => rw [e] at h; cases h
  | ret s2 q =>
    rw [e] at h
    obtain ⟨ho, hl, hg⟩ := createThread_grown e
    have hc := createThread_ret e
    cases q with
    | none =>
      simp only [Res.ret.injEq] at h
      obtain ⟨rfl, rfl⟩ := h
      refine ⟨ho, hl, hg, (fun x hx => by cases hx), fun _ _ => ?_⟩
      rcases hc with ⟨t, h, -⟩ | ⟨m, c, h, -⟩ | ⟨-, -, h⟩
      · cases h
      · cases h
      · rcases h with h | h
        · exact .inl h
        · exact .inr (.inl h)
    | some t =>
      simp only [Res.ret.injEq] at h
      obtain ⟨rfl, hr⟩ := h
      unfold assign at hr
      have ht : t ∈ s2.thrds ∧ ∃ j, j ≤ 1000 ∧ t.name = candidate (workerThreadName tn w) j := by
        rcases hc with ⟨t', h, rfl, hm, -, j, h1, h2⟩ | ⟨m, c, h, rfl, -, -, -, j, h1, h2⟩ | ⟨h, -⟩
        · cases h; exact ⟨hm, j, by omega, h2⟩
        · cases h; exact ⟨by simp, j, h1, h2⟩
        · cases h
      refine ⟨ho, hl, hg, fun x hx => ?_, fun hx hh => ?_⟩
      · subst hx
        split at hr
        · cases hr
        · rename_i hq
          cases hr
          refine ⟨t, ht.1, rfl, ?_, ht.2⟩
          by_cases h0 : req = []
          · exact .inl h0
          · refine .inr ?_
            by_contra h1
            exact hq ⟨h0, fun h2 => h1 h2.symm⟩
      · subst hx
        split at hr
        · rename_i hq
          rcases hc with ⟨t', h, rfl, hm, hu, -⟩ | ⟨m, c, h, -, ⟨pre, x, post, hfs, -, hx⟩, -⟩ | ⟨h, -⟩
          · cases h
            rcases hu with h | h | h
            · exact absurd h hq.1
            · have hrq : req = typeThread := h
              exact .inr (.inr ⟨hrq, t, hm, fun h2 => hq.2 (by rw [hrq, h2])⟩)
            · exact absurd h.symm hq.2
          · cases h
            exact absurd (hh x (by rw [hfs]; simp) req c hx hq.1).symm hq.2
          · cases h
        · cases hr

theorem wished_eq (lay : Layout) (cfg name : Name) :
    workerThreadName (threadName lay cfg name) name = wished lay cfg name := by
  have h : threadName lay cfg name = wished lay cfg name := by
    unfold threadName wished
    cases cfg with
    | nil => cases lay <;> rfl
    | cons a l => rfl
  have hne : wished lay cfg name ≠ [] := by
    unfold wished
    cases cfg with
    | nil => cases lay <;> simp
    | cons a l => simp
  rw [h]
  unfold workerThreadName
  rw [if_pos hne]

theorem addObj_ret {fs : List Factory} {lay : Layout} {s s1 : St} {k : Kind}
    {name cls req cfg : Name} {b : Bool} {u : Unit}
    (h : addObj fs lay s k name cls req cfg b = .ret s1 u) :
    ∃ t, s1.objs = s.objs ++ [⟨k, name, cls, req, t⟩] ∧ s1.lastDev = s.lastDev
    ∧ Grown s.thrds s1.thrds
    ∧ (∀ x, t = some x → ∃ th ∈ s1.thrds, th.name = x ∧ (req = [] ∨ th.cls = req)
        ∧ ∃ j, j ≤ 1000 ∧ x = candidate (wished lay cfg name) j)
    ∧ (t = none → ThreadsHonest fs → Unknown (fun f => f.thread req) fs ∨ b = false
        ∨ (req = typeThread ∧ ∃ t ∈ s.thrds, t.cls ≠ typeThread)) := by
  unfold addObj at h
  cases e : makeThread fs s (threadName lay cfg name) name req b with
  | exit => rw [e] at h; cases h
  | ret s2 t =>
    rw [e] at h
    simp only [Res.ret.injEq] at h
    obtain ⟨rfl, -⟩ := h
    obtain ⟨h1, h2, h3, h4, h5⟩ := makeThread_ret e
    rw [wished_eq] at h4
    exact ⟨t, by show s2.objs ++ _ = _; rw [h1], h2, h3, h4, h5⟩

theorem createModule_ret {fs : List Factory} {lay : Layout} {s s1 : St} {cls name cfg : Name}
    {b r : Bool} (h : createModule fs lay s cls name cfg b = .ret s1 r) :
    ((findKind s .module name).isSome ∧ s1 = s ∧ r = true)
    ∨ (findKind s .module name = none ∧ Unknown (fun f => f.module cls) fs ∧ s1 = s ∧ r = false)
    ∨ (findKind s .module name = none ∧ r = true ∧ ∃ c req,
        MadeByFirst (fun f => f.module cls) fs (c, req)
        ∧ addObj fs lay s .module name c req cfg b = .ret s1 ()) := by
  unfold createModule at h
  cases e : findKind s .module name with
  | some o =>
    rw [e] at h
    simp only [Res.ret.injEq] at h
    exact .inl ⟨rfl, h.1.symm, h.2.symm⟩
  | none =>
    rw [e] at h
    dsimp only at h
    cases ea : ask (fun f => f.module cls) fs with
    | none =>
      rw [ea] at h
      simp only [Res.ret.injEq] at h
      exact .inr (.inl ⟨rfl, (ask_none _ _).mp ea, h.1.symm, h.2.symm⟩)
    | some p =>
      obtain ⟨c, req⟩ := p
      rw [ea] at h
      dsimp only at h
      cases eo : addObj fs lay s .module name c req cfg b with
      | exit => rw [eo] at h; cases h
      | ret s2 u =>
        rw [eo] at h
        simp only [Res.ret.injEq] at h
        obtain ⟨rfl, rfl⟩ := h
        exact .inr (.inr ⟨rfl, rfl, c, req, (ask_some _ _ _).mp ea, eo⟩)

theorem createDevice_ret {fs : List Factory} {lay : Layout} {s s1 : St} {cls name cfg : Name}
    {b r : Bool} (h : createDevice fs lay s cls name cfg b = .ret s1 r) :
    (∃ o, findKind s .device (deviceName cls name) = some o ∧ s1.objs = s.objs
        ∧ s1.thrds = s.thrds ∧ (r = true ↔ cls = o.cls)
        ∧ s1.lastDev = if cls = o.cls ∧ deviceName cls name ≠ [] then deviceName cls name
            else s.lastDev)
    ∨ (findKind s .device (deviceName cls name) = none
        ∧ Unknown (fun f => f.device cls) fs ∧ s1 = s ∧ r = false)
    ∨ (findKind s .device (deviceName cls name) = none ∧ r = true ∧ ∃ c req s2,
        MadeByFirst (fun f => f.device cls) fs (c, req)
        ∧ addObj fs lay s .device (deviceName cls name) c req cfg b = .ret s2 ()
        ∧ s1.objs = s2.objs ∧ s1.thrds = s2.thrds
        ∧ s1.lastDev = if deviceName cls name ≠ [] then deviceName cls name else s.lastDev) := by
  unfold createDevice at h
  cases e : findKind s .device (deviceName cls name) with
  | some o =>
    rw [e] at h
    dsimp only at h
    split at h
    · rename_i hc
      simp only [Res.ret.injEq] at h
      obtain ⟨rfl, rfl⟩ := h
      refine .inl ⟨o, rfl, ?_, ?_, by simp [hc], ?_⟩
      · unfold noteDevice; split <;> rfl
      · unfold noteDevice; split <;> rfl
      · unfold noteDevice; split <;> rename_i h0 <;> simp [hc] at * <;> simp [h0]
    · rename_i hc
      simp only [Res.ret.injEq] at h
      obtain ⟨rfl, rfl⟩ := h
      exact .inl ⟨o, rfl, rfl, rfl, by simp [hc], by simp [hc]⟩
  | none =>
    rw [e] at h
    dsimp only at h
    cases ea : ask (fun f => f.device cls) fs with
    | none =>
      rw [ea] at h
      simp only [Res.ret.injEq] at h
      exact .inr (.inl ⟨rfl, (ask_none _ _).mp ea, h.1.symm, h.2.symm⟩)
    | some p =>
      obtain ⟨c, req⟩ := p
      rw [ea] at h
      dsimp only at h
      cases eo : addObj fs lay s .device (deviceName cls name) c req cfg b with
      | exit => rw [eo] at h; cases h
      | ret s2 u =>
        rw [eo] at h
        simp only [Res.ret.injEq] at h
        obtain ⟨rfl, rfl⟩ := h
        obtain ⟨t, -, hl, -⟩ := addObj_ret eo
        refine .inr (.inr ⟨rfl, rfl, c, req, s2, (ask_some _ _ _).mp ea, eo, ?_, ?_, ?_⟩)
        · unfold noteDevice; split <;> rfl
        · unfold noteDevice; split <;> rfl
        · unfold noteDevice; split <;> rename_i h0 <;> simp [h0, hl]

/-! ## Invariants of runs -/

theorem run_ind (fs : List Factory) (lay : Layout) (P : St → Prop) (Q : Op → Prop)
    (hstep : ∀ s o s1, P s → Q o → step fs lay s o = some s1 → P s1) :
    ∀ ops s s1, (∀ o ∈ ops, Q o) → P s → run fs lay s ops = some s1 → P s1 := by
  intro ops
  induction ops with
  | nil => intro s s1 _ hp h; cases h; exact hp
  | cons o l ih =>
    intro s s1 hq hp h
    unfold run at h
    split at h
    · cases h
    · rename_i s2 e
      exact ih s2 s1 (fun o ho => hq o (List.mem_cons_of_mem _ ho))
        (hstep s o s2 hp (hq o (List.mem_cons_self ..)) e) h

theorem grown_nodup {a b : List Thrd} (h : Grown a b) (hn : (a.map Thrd.name).Nodup) :
    (b.map Thrd.name).Nodup := by
  rcases h with rfl | ⟨t, rfl, hu⟩
  · exact hn
  · rw [List.map_append, List.nodup_append]
    refine ⟨hn, by simp, ?_⟩
    intro x hx y hy
    simp only [List.map_cons, List.map_nil, List.mem_singleton] at hy
    subst hy
    obtain ⟨u, hu1, rfl⟩ := List.mem_map.mp hx
    exact hu u hu1

/-- What a step does to objects and threads. -/
theorem step_cases {fs : List Factory} {lay : Layout} {s s1 : St} {o : Op}
    (h : step fs lay s o = some s1) :
    (Grown s.thrds s1.thrds ∨ s1.thrds.Sublist s.thrds)
    ∧ (s1.objs.Sublist s.objs ∨
        ∃ x, s1.objs = s.objs ++ [x] ∧ wants o = some (x.name, x.kind)
          ∧ (x.kind = .other ∨ findKind s x.kind x.name = none)) := by
  cases o with
  | thread n cl b =>
    simp only [step, ref_eq] at h
    cases e : createThread fs s n cl b with
    | exit => rw [e] at h; cases h
    | ret s2 r =>
      rw [e] at h
      cases h
      obtain ⟨h1, -, h2⟩ := createThread_grown e
      exact ⟨.inl h2, .inl (by rw [h1])⟩
  | module c n cfg b =>
    simp only [step] at h
    cases e : createModule fs lay s c n cfg b with
    | exit => rw [e] at h; cases h
    | ret s2 r =>
      rw [e] at h
      cases h
      rcases createModule_ret e with ⟨-, rfl, -⟩ | ⟨-, -, rfl, -⟩ | ⟨hf, -, c', req, -, ha⟩
      · exact ⟨.inl (.inl rfl), .inl (List.Sublist.refl _)⟩
      · exact ⟨.inl (.inl rfl), .inl (List.Sublist.refl _)⟩
      · obtain ⟨t, h1, -, h2, -⟩ := addObj_ret ha
        exact ⟨.inl h2, .inr ⟨_, h1, rfl, .inr hf⟩⟩
  | device c n cfg b =>
    simp only [step] at h
    cases e : createDevice fs lay s c n cfg b with
    | exit => rw [e] at h; cases h
    | ret s2 r =>
      rw [e] at h
      cases h
      rcases createDevice_ret e with ⟨o, -, h1, h2, -⟩ | ⟨-, -, rfl, -⟩ |
        ⟨hf, -, c', req, s3, -, ha, h1, h2, -⟩
      · exact ⟨.inl (.inl h2), .inl (by rw [h1])⟩
      · exact ⟨.inl (.inl rfl), .inl (List.Sublist.refl _)⟩
      · obtain ⟨t, h3, -, h4, -⟩ := addObj_ret ha
        rw [h2, h1]
        exact ⟨.inl h4, .inr ⟨_, h3, rfl, .inr hf⟩⟩
  | other n =>
    simp only [step, Option.some.injEq] at h
    subst h
    exact ⟨.inl (.inl rfl), .inr ⟨_, rfl, rfl, .inl rfl⟩⟩
  | objGone n =>
    simp only [step, Option.some.injEq] at h
    subst h
    exact ⟨.inl (.inl rfl), .inl (List.eraseP_sublist)⟩
  | thrdGone n =>
    simp only [step, Option.some.injEq] at h
    subst h
    exact ⟨.inr (List.eraseP_sublist), .inl (List.Sublist.refl _)⟩

theorem reached_nodup {fs : List Factory} {lay : Layout} {ops : List Op} {s : St}
    (h : Reached fs lay ops s) : (s.thrds.map Thrd.name).Nodup := by
  refine run_ind fs lay (fun s => (s.thrds.map Thrd.name).Nodup) (fun _ => True) ?_ ops
    St.start s (fun _ _ => trivial) ?_ h
  · intro s o s1 hp _ hs
    rcases (step_cases hs).1 with hg | hg
    · exact grown_nodup hg hp
    · exact (hg.map _).nodup hp
  · show ([mgrThread] : List Name).Nodup
    simp

/-- With unique names looking for a name finds the thread with this name. -/
theorem find_nodup {ts : List Thrd} (h : (ts.map Thrd.name).Nodup) {t : Thrd} (ht : t ∈ ts) :
    findThread ts t.name = some t := by
  cases e : findThread ts t.name with
  | none => exact absurd rfl (findThread_none e t ht)
  | some u =>
    obtain ⟨h1, h2⟩ := findThread_some e
    exact congrArg some (List.inj_on_of_nodup_map h h1 ht h2)

/-- Names belong to one kind and are used once for modules and devices. -/
structure KInv (k : Name → Kind) (s : St) : Prop where
  kind : ∀ o ∈ s.objs, o.kind = k o.name ∧ o.name ≠ []
  once : ∀ n, k n ≠ .other → numNamed s n ≤ 1

theorem numNamed_append (s : St) (x : Obj) (l : List Obj) (n : Name)
    (h : l = s.objs ++ [x]) : l.countP (fun o => o.name == n)
      = numNamed s n + if x.name = n then 1 else 0 := by
  subst h
  unfold numNamed
  rw [List.countP_append]
  simp [List.countP_cons]

theorem findKind_none {k : Name → Kind} {s : St} (hi : KInv k s) {n : Name} (hn : n ≠ [])
    (h : findKind s (k n) n = none) : ∀ o ∈ s.objs, o.name ≠ n := by
  intro o ho e
  unfold findKind findItem at h
  rw [if_neg hn] at h
  cases hf : s.objs.find? (fun o => o.name == n) with
  | none =>
    have := List.find?_eq_none.mp hf o ho
    simp [e] at this
  | some x =>
    rw [hf] at h
    have hx := List.mem_of_find?_eq_some hf
    have hxn : x.name = n := by simpa using List.find?_some hf
    have := (hi.kind x hx).1
    rw [hxn] at this
    simp [this] at h

theorem numNamed_zero {s : St} {n : Name} (h : ∀ o ∈ s.objs, o.name ≠ n) : numNamed s n = 0 := by
  unfold numNamed
  rw [List.countP_eq_zero]
  intro o ho
  simpa using h o ho

theorem kinv_add {k : Name → Kind} {s : St} (hi : KInv k s) (x : Obj) (s1 : St)
    (h1 : s1.objs = s.objs ++ [x]) (hk : x.kind = k x.name) (hn : x.name ≠ [])
    (hf : x.kind = .other ∨ findKind s x.kind x.name = none) : KInv k s1 := by
  constructor
  · intro o ho
    rw [h1] at ho
    rcases List.mem_append.mp ho with ho | ho
    · exact hi.kind o ho
    · rw [List.mem_singleton] at ho
      subst ho
      exact ⟨hk, hn⟩
  · intro n hne
    have h2 := numNamed_append s x s1.objs n h1
    change numNamed s1 n = _ at h2
    rw [h2]
    split
    · rename_i hxn
      subst hxn
      rcases hf with hf | hf
      · rw [hk] at hf; exact absurd hf hne
      · rw [hk] at hf
        have := numNamed_zero (findKind_none hi hn hf)
        omega
    · exact hi.once n hne

theorem reached_kinv {fs : List Factory} {lay : Layout} {ops : List Op} {s : St}
    (h : Reached fs lay ops s) {k : Name → Kind} (hk : OneKind k ops) : KInv k s := by
  refine run_ind fs lay (KInv k) (fun o => ∀ n q, wants o = some (n, q) → n ≠ [] ∧ q = k n) ?_ ops
    St.start s hk ?_ h
  · intro s o s1 hp hq hs
    rcases (step_cases hs).2 with hg | ⟨x, h1, h2, h3⟩
    · refine ⟨fun o ho => hp.kind o (hg.subset ho), fun n hn => ?_⟩
      exact Nat.le_trans (hg.countP_le) (hp.once n hn)
    · obtain ⟨h4, h5⟩ := hq _ _ h2
      exact kinv_add hp x s1 h1 h5 h4 h3
  · exact ⟨(fun o ho => by cases ho), fun n _ => Nat.zero_le _⟩

end Verif.Create
