import Verif.HierStoreInv

/-! # C92: stored hierarchies -/

namespace Verif.HierStore
open Verif.Hierarchy
variable {D X : Type} [Inhabited D] [Inhabited X]

/-- **C92** (partial: nothing fails, names are not used again while the file has them, one file a second): the records of every file give, read one after
the other, the hierarchies as they were when something was stored in this file. -/
theorem C92_replay_partial {setTm stamp : Nat → X → X} {s : St D X} {l : List (Snap D X)} (h : Reach setTm stamp s l) (n : Nat) :
    Tells s.h.name (recsOf n s.disk) (l.filter fun x => x.file = n) := (reach_inv h).tells n

/-- Once there is a file, every request stores what it was told to store. -/
theorem C92_stored {setTm stamp : Nat → X → X} {s : St D X} {l : List (Snap D X)} (h : Reach setTm stamp s l) (io : Io) :
    (s.doStore = true → ∃ n, s.cur = some n ∧ ⟨n, s.h.view .full, !s.h.dirty⟩ ∈ snaps s io) ∧
    (s.doFlush = true → ⟨io.clock / 1000000, s.h.view .full, true⟩ ∈ snaps s io) := by
  constructor
  · intro hd
    cases hc : s.cur with
    | none => exact absurd ((reach_inv h).start hc).1 (by simp [hd])
    | some n => exact ⟨n, rfl, by simp [snaps, hd, hc]⟩
  · intro hd
    simp [snaps, hd]

/-- What is in a file stays there. -/
theorem C92_kept {setTm stamp : Nat → X → X} {s : St D X} {l : List (Snap D X)} (h : Reach setTm stamp s l) {op : Op D X} (hl : Legal s op) (n : Nat) :
    recsOf n s.disk <+: recsOf n (step setTm stamp s op).disk := by
  cases op with
  | change op tm => exact List.prefix_refl _
  | check now sp fp =>
    show _ <+: recsOf n (check now sp fp s).1.disk
    unfold check
    dsimp only
    split
    · exact List.prefix_refl _
    split
    · exact List.prefix_refl _
    split
    · split <;> exact List.prefix_refl _
    · exact List.prefix_refl _
  | exec io =>
    obtain ⟨h1, h2, h3, h4⟩ := hl
    show _ <+: recsOf n (exec setTm stamp io s).disk
    rw [exec_eq h1 h2 h3]
    have e3 : ∀ (b : Bool) (x : St D X), (st3 setTm stamp b x).disk = x.disk := by
      intro b x
      cases b <;> rfl
    rw [e3]
    have e1 : recsOf n s.disk <+: recsOf n (st1 s).disk ∧ ∀ f ∈ (st1 s).disk, f.name ≠ io.clock / 1000000 := by
      unfold st1 writeDiff
      split
      · split
        · exact ⟨List.prefix_refl _, h4⟩
        · rename_i m hc
          constructor
          · simp only [recsOf_addTo m n _ _ ((reach_inv h).curIn m hc)]
            split
            · rename_i hm
              subst hm
              exact List.prefix_append _ _
            · exact List.prefix_refl _
          · intro f hf
            obtain ⟨g, hg, rfl⟩ := List.mem_map.1 hf
            have := h4 g hg
            split <;> exact this
      · exact ⟨List.prefix_refl _, h4⟩
    refine e1.1.trans ?_
    unfold st2
    split
    · have hfil : (st1 s).disk.filter (fun f => decide (f.name ≠ io.clock / 1000000)) = (st1 s).disk := by
        rw [List.filter_eq_self]
        intro f hf
        simpa using e1.2 f hf
      simp only [startFile, writeDiff, Wr.recs, if_true]
      rw [hfil, addTo_snoc e1.2, recsOf_new _ _ _ _ e1.2]
      split
      · rename_i hm
        subst hm
        rw [recsOf_absent e1.2]
        exact List.nil_prefix
      · exact List.prefix_refl _
    · exact List.prefix_refl _

/-! ## Times -/

omit [Inhabited D] [Inhabited X] in
theorem exec_times (setTm stamp : Nat → X → X) (io : Io) (s : St D X) : (exec setTm stamp io s).lastStore = s.lastStore ∧
    (exec setTm stamp io s).lastFlush = s.lastFlush ∧ (exec setTm stamp io s).doStore = false ∧ (exec setTm stamp io s).doFlush = false := by
  obtain ⟨d, c, o, f⟩ := io
  obtain ⟨h, ls, lf, ds, df, lv, cur, disk⟩ := s
  cases ds <;> cases df <;> cases cur <;> cases o <;> exact ⟨rfl, rfl, rfl, rfl⟩

/-- What a check decides when nothing is pending. -/
theorem check_cases {s : St D X} {now : Nat} {sp fp : Int} (h1 : s.doStore = false) (h2 : s.doFlush = false) (h0 : s.lastStore ≠ 0) :
    ((now : Int) - s.lastStore ≤ sp ∧ check now sp fp s = (s, false)) ∨
    ((now : Int) - s.lastStore > sp ∧ (check now sp fp s).2 = true ∧ (check now sp fp s).1.doStore = true ∧ (check now sp fp s).1.lastStore = now ∧
      (((now : Int) - s.lastFlush ≥ fp ∧ (check now sp fp s).1.doFlush = true ∧ (check now sp fp s).1.lastFlush = now) ∨
       ((now : Int) - s.lastFlush < fp ∧ (check now sp fp s).1.doFlush = false ∧ (check now sp fp s).1.lastFlush = s.lastFlush))) := by
  unfold check
  simp only [h1, h2, Bool.or_self, Bool.false_eq_true, if_false, if_neg h0]
  by_cases hs : (now : Int) - s.lastStore > sp
  · right
    refine ⟨hs, ?_⟩
    simp only [if_pos hs]
    by_cases hf : (now : Int) - s.lastFlush ≥ fp
    · simp only [if_pos hf]
      exact ⟨by simp, by simp, by simp, .inl ⟨hf, by simp, by simp⟩⟩
    · simp only [if_neg hf]
      refine ⟨by simp, by simp, by simp, .inr ⟨by omega, by simp, by simp⟩⟩
  · left
    refine ⟨by omega, ?_⟩
    simp [if_neg hs, h1, h2]

/-- Times when something is stored, and times of new files. -/
def storesOf (l : List (Nat × Bool × Bool)) : List Nat := l.map (·.1)
def filesOf (l : List (Nat × Bool × Bool)) : List Nat := (l.filter fun x => x.2.2).map (·.1)

theorem visits_spaced (setTm stamp : Nat → X → X) {sp fp : Int} : ∀ (cs : List (Nat × Io)) (s : St D X), s.doStore = false → s.doFlush = false → s.lastStore ≠ 0 →
    (∀ c ∈ cs, c.1 ≠ 0) →
    Linked (fun a b => (b : Int) - a > sp) s.lastStore (storesOf (visits setTm stamp sp fp s cs)) ∧
    Linked (fun a b => (b : Int) - a ≥ fp) s.lastFlush (filesOf (visits setTm stamp sp fp s cs)) ∧
    ∀ x ∈ visits setTm stamp sp fp s cs, x.2.1 = true
  | [], s, _, _, _, _ => ⟨trivial, trivial, by simp [visits]⟩
  | (now, io) :: cs, s, h1, h2, h0, hz => by
    have hz' : ∀ c ∈ cs, c.1 ≠ 0 := fun c hc => hz c (List.mem_cons_of_mem _ hc)
    unfold visits
    dsimp only
    rcases check_cases (sp := sp) (fp := fp) (now := now) h1 h2 h0 with ⟨hs, he⟩ | ⟨hs, hr, hd, hl, hf⟩
    · rw [he]
      simp only [Bool.false_eq_true, if_false]
      exact visits_spaced setTm stamp cs s h1 h2 h0 hz'
    · rw [if_pos hr]
      obtain ⟨e1, e2, e3, e4⟩ := exec_times setTm stamp io (check now sp fp s).1
      obtain ⟨i1, i2, i3⟩ := visits_spaced setTm stamp cs (exec setTm stamp io (check now sp fp s).1) (sp := sp) (fp := fp) e3 e4
        (by rw [e1, hl]; exact hz _ (List.mem_cons_self ..)) hz'
      rw [e1, hl] at i1
      rw [e2] at i2
      refine ⟨⟨hs, i1⟩, ?_, ?_⟩
      · rcases hf with ⟨g1, g2, g3⟩ | ⟨g1, g2, g3⟩
        · rw [g3] at i2
          simp only [filesOf, List.filter_cons, g2, if_true, List.map_cons]
          exact ⟨g1, i2⟩
        · rw [g3] at i2
          simp only [filesOf, List.filter_cons, g2, Bool.false_eq_true, if_false]
          exact i2
      · intro x hx
        rcases List.mem_cons.1 hx with rfl | hx
        · exact hd
        · exact i3 x hx

/-- The publisher looks at least every `δ` at the time, which does not go back; `p` is the last time. -/
def Regular (δ : Int) (p : Nat) : List (Nat × Io) → Prop
  | [] => True
  | c :: cs => p ≤ c.1 ∧ (c.1 : Int) - p ≤ δ ∧ Regular δ c.1 cs

theorem visits_often (setTm stamp : Nat → X → X) {sp fp δ : Int} (hsp : 0 ≤ sp) (hfp : 0 < fp) : ∀ (cs : List (Nat × Io)) (s : St D X) (p : Nat), s.doStore = false → s.doFlush = false →
    s.lastStore ≠ 0 → (p : Int) - s.lastStore ≤ sp → s.lastStore ≤ p → (s.lastStore : Int) - s.lastFlush < fp → Regular δ p cs →
    Linked (fun a b => (b : Int) - a ≤ sp + δ) s.lastStore (storesOf (visits setTm stamp sp fp s cs)) ∧
    Linked (fun a b => (b : Int) - a < fp + sp + δ) s.lastFlush (filesOf (visits setTm stamp sp fp s cs))
  | [], s, _, _, _, _, _, _, _, _ => ⟨trivial, trivial⟩
  | (now, io) :: cs, s, p, h1, h2, h0, hp, hle, hfl, hreg => by
    obtain ⟨r1, r2, r3⟩ := hreg
    dsimp only at r1 r2
    unfold visits
    dsimp only
    rcases check_cases (sp := sp) (fp := fp) (now := now) h1 h2 h0 with ⟨hs, he⟩ | ⟨hs, hr, hd, hl, hf⟩
    · rw [he]
      simp only [Bool.false_eq_true, if_false]
      exact visits_often setTm stamp hsp hfp cs s now h1 h2 h0 hs (by omega) hfl r3
    · rw [if_pos hr]
      obtain ⟨e1, e2, e3, e4⟩ := exec_times setTm stamp io (check now sp fp s).1
      have ih := visits_often setTm stamp (δ := δ) hsp hfp cs (exec setTm stamp io (check now sp fp s).1) now e3 e4 (by rw [e1, hl]; omega)
        (by rw [e1, hl]; omega) (by rw [e1, hl]; omega)
        (by
          rw [e1, e2, hl]
          rcases hf with ⟨g1, g2, g3⟩ | ⟨g1, g2, g3⟩
          · rw [g3]; omega
          · rw [g3]; exact g1) r3
      obtain ⟨i1, i2⟩ := ih
      rw [e1, hl] at i1
      rw [e2] at i2
      refine ⟨⟨by show (now : Int) - s.lastStore ≤ sp + δ; omega, i1⟩, ?_⟩
      rcases hf with ⟨g1, g2, g3⟩ | ⟨g1, g2, g3⟩
      · rw [g3] at i2
        simp only [filesOf, List.filter_cons, g2, if_true, List.map_cons]
        exact ⟨by show (now : Int) - s.lastFlush < fp + sp + δ; omega, i2⟩
      · rw [g3] at i2
        simp only [filesOf, List.filter_cons, g2, Bool.false_eq_true, if_false]
        exact i2

/-- The first time the publisher looks, a file with the full hierarchy is started. -/
theorem visits_first (setTm stamp : Nat → X → X) {sp fp : Int} {t : Nat} {io : Io} {cs : List (Nat × Io)} {s : St D X} (h1 : s.doStore = false)
    (h2 : s.doFlush = false) (h0 : s.lastStore = 0) : ∃ s' : St D X, visits setTm stamp sp fp s ((t, io) :: cs) = (t, false, true) :: visits setTm stamp sp fp s' cs ∧
    s'.doStore = false ∧ s'.doFlush = false ∧ s'.lastStore = t ∧ s'.lastFlush = t := by
  have hc : check t sp fp s = ({ s with lastStore := t, lastFlush := t, doStore := false, doFlush := true }, true) := by
    unfold check
    simp [h1, h2, h0]
  obtain ⟨e1, e2, e3, e4⟩ := exec_times setTm stamp io ({ s with lastStore := t, lastFlush := t, doStore := false, doFlush := true } : St D X)
  refine ⟨exec setTm stamp io { s with lastStore := t, lastFlush := t, doStore := false, doFlush := true }, ?_, e3, e4, e1, e2⟩
  rw [visits, hc]
  simp

/-- **C92**: it begins with a full hierarchy in a new file, afterwards differences are stored more than `storePeriod` apart, and new files are started at least
`flushPeriod` apart. -/
theorem C92_spaced (setTm stamp : Nat → X → X) {sp fp : Int} {t : Nat} {io : Io} {cs : List (Nat × Io)} {s : St D X} (h1 : s.doStore = false)
    (h2 : s.doFlush = false) (h0 : s.lastStore = 0) (hz : ∀ c ∈ (t, io) :: cs, c.1 ≠ 0) :
    ∃ l, visits setTm stamp sp fp s ((t, io) :: cs) = (t, false, true) :: l ∧ (∀ x ∈ l, x.2.1 = true) ∧
      Linked (fun a b => (b : Int) - a > sp) t (l.map (·.1)) ∧
      Linked (fun a b => (b : Int) - a ≥ fp) t ((l.filter fun x => x.2.2).map (·.1)) := by
  obtain ⟨s', e, a1, a2, a3, a4⟩ := visits_first setTm stamp (sp := sp) (fp := fp) (t := t) (io := io) (cs := cs) h1 h2 h0
  have := visits_spaced setTm stamp (sp := sp) (fp := fp) cs s' a1 a2 (by rw [a3]; exact hz _ (List.mem_cons_self ..))
    (fun c hc => hz c (List.mem_cons_of_mem _ hc))
  rw [a3, a4] at this
  exact ⟨_, e, this.2.2, this.1, this.2.1⟩

/-- When the publisher looks often enough and the clock does not go back, differences are at most `storePeriod + δ` apart, files
less than `flushPeriod + storePeriod + δ`. -/
theorem C92_often (setTm stamp : Nat → X → X) {sp fp δ : Int} {t : Nat} {io : Io} {cs : List (Nat × Io)} {s : St D X} (hsp : 0 ≤ sp) (hfp : 0 < fp)
    (h1 : s.doStore = false) (h2 : s.doFlush = false) (h0 : s.lastStore = 0) (ht : t ≠ 0) (hr : Regular δ t cs) :
    ∃ l, visits setTm stamp sp fp s ((t, io) :: cs) = (t, false, true) :: l ∧
      Linked (fun a b => (b : Int) - a ≤ sp + δ) t (l.map (·.1)) ∧
      Linked (fun a b => (b : Int) - a < fp + sp + δ) t ((l.filter fun x => x.2.2).map (·.1)) := by
  obtain ⟨s', e, a1, a2, a3, a4⟩ := visits_first setTm stamp (sp := sp) (fp := fp) (t := t) (io := io) (cs := cs) h1 h2 h0
  have := visits_often setTm stamp hsp hfp cs s' t a1 a2 (by rw [a3]; exact ht) (by rw [a3]; omega) (by rw [a3]; omega)
    (by rw [a3, a4]; omega) hr
  rw [a3, a4] at this
  exact ⟨_, e, this⟩

/-- When the clock goes back nothing is stored until it is there again. -/
theorem C92_clock_counterexample (setTm stamp : Nat → X → X) {sp fp : Int} : ∀ (cs : List (Nat × Io)) (s : St D X), s.doStore = false → s.doFlush = false →
    s.lastStore ≠ 0 → (∀ c ∈ cs, (c.1 : Int) ≤ s.lastStore + sp) → visits setTm stamp sp fp s cs = []
  | [], _, _, _, _, _ => rfl
  | (now, io) :: cs, s, h1, h2, h0, hz => by
    unfold visits
    dsimp only
    rcases check_cases (sp := sp) (fp := fp) (now := now) h1 h2 h0 with ⟨hs, he⟩ | ⟨hs, _⟩
    · rw [he]
      simp only [Bool.false_eq_true, if_false]
      exact C92_clock_counterexample setTm stamp cs s h1 h2 h0 fun c hc => hz c (List.mem_cons_of_mem _ hc)
    · have := hz (now, io) (List.mem_cons_self ..)
      dsimp only at this
      omega

/-! ## Reading -/

theorem pick_fold (t : Nat) : ∀ (files : List Nat) (a : Nat), files.Pairwise (· < ·) →
    (files.foldl (fun dt n => if n * 1000000 ≤ t then n else dt) a = a ∧ ∀ m ∈ files, t < m * 1000000) ∨
    (files.foldl (fun dt n => if n * 1000000 ≤ t then n else dt) a ∈ files ∧ files.foldl (fun dt n => if n * 1000000 ≤ t then n else dt) a * 1000000 ≤ t ∧
      ∀ m ∈ files, m * 1000000 ≤ t → m ≤ files.foldl (fun dt n => if n * 1000000 ≤ t then n else dt) a)
  | [], a, _ => .inl ⟨rfl, by simp⟩
  | f :: fs, a, hp => by
    obtain ⟨hp1, hp2⟩ := List.pairwise_cons.1 hp
    rw [List.foldl_cons]
    by_cases hf : f * 1000000 ≤ t
    · rw [if_pos hf]
      rcases pick_fold t fs f hp2 with ⟨h1, h2⟩ | ⟨h1, h2, h3⟩
      · rw [h1]
        refine .inr ⟨List.mem_cons_self .., hf, ?_⟩
        intro m hm hmt
        rcases List.mem_cons.1 hm with rfl | hm
        · exact Nat.le_refl _
        · have := h2 m hm; omega
      · refine .inr ⟨List.mem_cons_of_mem _ h1, h2, ?_⟩
        intro m hm hmt
        rcases List.mem_cons.1 hm with rfl | hm
        · exact Nat.le_of_lt (hp1 _ h1)
        · exact h3 m hm hmt
    · rw [if_neg hf]
      rcases pick_fold t fs a hp2 with ⟨h1, h2⟩ | ⟨h1, h2, h3⟩
      · refine .inl ⟨h1, ?_⟩
        intro m hm
        rcases List.mem_cons.1 hm with rfl | hm
        · omega
        · exact h2 m hm
      · refine .inr ⟨List.mem_cons_of_mem _ h1, h2, ?_⟩
        intro m hm hmt
        rcases List.mem_cons.1 hm with rfl | hm
        · omega
        · exact h3 m hm hmt

/-- **C92**: for a time the newest file is chosen which is not younger; when there is none, the oldest file. -/
theorem C92_pick {files : List Nat} {t n : Nat} (hs : files.Pairwise (· < ·)) (ht : t ≠ 0) (h : pick files t = some n) :
    n ∈ files ∧ ((n * 1000000 ≤ t ∧ ∀ m ∈ files, m * 1000000 ≤ t → m ≤ n) ∨ ((∀ m ∈ files, t < m * 1000000) ∧ ∀ m ∈ files, n ≤ m)) := by
  cases files with
  | nil => cases h
  | cons f fs =>
    unfold pick at h
    simp only [if_neg ht, Option.some.injEq] at h
    subst h
    rcases pick_fold t (f :: fs) f hs with ⟨h1, h2⟩ | ⟨h1, h2, h3⟩
    · rw [h1]
      refine ⟨List.mem_cons_self .., .inr ⟨h2, ?_⟩⟩
      intro m hm
      rcases List.mem_cons.1 hm with rfl | hm
      · exact Nat.le_refl _
      · exact Nat.le_of_lt ((List.pairwise_cons.1 hs).1 m hm)
    · exact ⟨h1, .inl ⟨h2, h3⟩⟩

/-- What is read for a time is the hierarchy as it was when the chosen file was started. -/
theorem C92_structure {setTm stamp : Nat → X → X} {s : St D X} {l : List (Snap D X)} (h : Reach setTm stamp s l) {files : List Nat} {t n : Nat} {x : Snap D X}
    (hp : pick files t = some n) (hx : (l.filter fun x => x.file = n)[0]? = some x) :
    ∃ r, structureAt s.disk files t s.h.name = some r ∧ r.view .full = x.view := by
  obtain ⟨h1, h0, h2⟩ := C92_replay_partial h n
  have h3 := h2 0 x hx ((reach_inv h).first n x hx)
  unfold structureAt
  rw [hp]
  dsimp only
  unfold recsOf at h0 h1 h3
  have hl : 0 < (l.filter fun x => x.file = n).length := (List.getElem?_eq_some_iff.1 hx).1
  cases hf : s.disk.find? fun f : File D X => decide (f.name = n) with
  | none =>
    rw [hf] at h1
    dsimp only at h1
    rw [← h1] at hl
    exact absurd hl (by simp)
  | some f =>
    rw [hf] at h0 h1 h3
    dsimp only at h0 h1 h3 ⊢
    cases hr : f.recs with
    | nil => rw [hr] at h1; rw [← h1] at hl; simp at hl
    | cons r rs =>
      rw [hr] at h3
      cases r with
      | some m => exact ⟨_, rfl, h3⟩
      | none =>
        have := h0 none (by rw [hr]; exact List.mem_cons_self ..)
        cases this

/-! ## Examples and counterexamples -/

def exTm (t _ : Nat) : Nat := t
def exStamp (_ x : Nat) : Nat := x
def exInit : St Nat Nat := { h := .node { name := "top", dns := 0, val := 0 } [] }
def exRun (ops : List (Op Nat Nat)) : St Nat Nat := ops.foldl (step exTm exStamp) exInit

/-- Time of the field `storetm` and values of the items after reading all records of a file. -/
def exTop (n : Nat) (s : St Nat Nat) : Nat × Option Nat := vtop ((replay "top" (recsOf n s.disk)).view .full)
def exVals (n : Nat) (s : St Nat Nat) : List (Nat × Option Nat) := vvals ((replay "top" (recsOf n s.disk)).view .full)

def exCheck (sec : Nat) : Op Nat Nat := .check (sec * 1000000) 5000000 100000000
def exExec (sec : Nat) : Op Nat Nat := .exec { clock := sec * 1000000 }
def exOps : List (Op Nat Nat) := [.change (.create [] 0 "A") 0, .change (.setVal [0] 5) 0, .change (.mark []) 0, exCheck 10, exExec 10]

instance (s : St Nat Nat) (io : Io) : Decidable (Legal s (.exec io)) := by unfold Legal; exact inferInstance

/-- Two records in one file; a history as needed by the theorems. -/
example : ∃ (s : St Nat Nat) (l : List (Snap Nat Nat)), Reach exTm exStamp s l ∧ (recsOf 10 s.disk).length = 2 ∧ exVals 10 s = [(0, some 6)] ∧ l.length = 2 := by
  have h0 : Reach exTm exStamp exInit [] := Reach.init "top"
  have h1 := h0.step (.change (.create [] 0 "A") 0) (by
    constructor
    · intro x hx y hy
      simp only [follower, exInit, sub, Option.some.injEq] at hx
      subst hx
      cases hy
    · intro d hd y hy
      simp only [follower, exInit, clientAt, Option.some.injEq] at hd
      subst hd
      cases hy)
  have h2 := ((h1.step (.change (.setVal [0] 5) 0) trivial).step (.change (.mark []) 0) (.inl rfl)).step (exCheck 10) trivial
  have h3 := h2.step (exExec 10) ⟨rfl, rfl, rfl, by intro f hf; cases hf⟩
  have h4 := ((h3.step (.change (.setVal [0] 6) 0) trivial).step (.change (.mark []) 0) (.inl rfl)).step (exCheck 20) trivial
  have h5 := h4.step (exExec 20) ⟨rfl, rfl, rfl, by
    have : ∀ f ∈ (exRun (exOps ++ [.change (.setVal [0] 6) 0, .change (.mark []) 0, exCheck 20])).disk, f.name ≠ 20 * 1000000 / 1000000 := by decide +kernel
    exact this⟩
  refine ⟨_, _, h5, ?_, ?_, ?_⟩
  · show (recsOf 10 (exRun (exOps ++ [.change (.setVal [0] 6) 0, .change (.mark []) 0, exCheck 20, exExec 20])).disk).length = 2
    decide +kernel
  · show exVals 10 (exRun (exOps ++ [.change (.setVal [0] 6) 0, .change (.mark []) 0, exCheck 20, exExec 20])) = _
    decide +kernel
  · rfl

/-- Checks every half second. -/
example : Regular 500000 1000000 [(1500000, {}), (2000000, {})] := by simp [Regular]

/-- The error of a write is not noticed: later records, all written, do not contain the change. -/
theorem C92_lost_counterexample :
    let s := exRun (exOps ++ [.change (.setVal [0] 6) 0, .change (.mark []) 0, .change (.setDns [] 1) 0, .change (.mark []) 0, exCheck 20, .exec { diff := .lost }, exCheck 30, exExec 30, exCheck 40, exExec 40])
    vvals (s.h.view .full) = [(0, some 6)] ∧ s.h.dirty = false ∧ (recsOf 10 s.disk).length = 3 ∧ exVals 10 s = [(0, some 5)] := by decide +kernel

/-- When a new file cannot be started, the old one is closed nevertheless, and nothing is stored until it is time for the next file. -/
theorem C92_open_counterexample :
    let s := exRun (exOps ++ [exCheck 111, .exec { clock := 111000000, opn := false }, .change (.setVal [0] 6) 0, .change (.mark []) 0, exCheck 120, exExec 120, exCheck 130, exExec 130])
    vvals (s.h.view .full) = [(0, some 6)] ∧ s.disk.length = 1 ∧ exVals 10 s = [(0, some 5)] ∧ s.lastVersion ≥ 3 := by decide +kernel

/-- Two files in one second: what the first one told is gone. -/
theorem C92_second_counterexample :
    let ops : List (Op Nat Nat) := [.change (.create [] 0 "A") 0, .change (.setVal [0] 5) 0, .change (.mark []) 0, .check 10000000 1000 1000, .exec { clock := 10000000 },
      .change (.setVal [0] 6) 0, .change (.mark []) 0, .check 10500000 1000 1000, .exec { clock := 10500000 }]
    (recsOf 10 (exRun (ops.take 5)).disk).length = 1 ∧ exVals 10 (exRun (ops.take 5)) = [(0, some 5)] ∧
    (recsOf 10 (exRun ops).disk).length = 1 ∧ exVals 10 (exRun ops) = [(0, some 6)] := by decide +kernel

/-- The time in a record is the time of the record before; the first one has none. -/
theorem C92_time_counterexample :
    exTop 10 (exRun exOps) = (0, some 0) ∧ exTop 10 (exRun (exOps ++ [exCheck 20, exExec 20])) = (0, some 10000000) ∧
    (exRun (exOps ++ [exCheck 20, exExec 20])).lastStore = 20000000 := by decide +kernel

/-- The structure "at" a time is the one of the beginning of the file, also when the file tells about later changes. -/
theorem C92_structure_counterexample :
    let s := exRun (exOps ++ [.change (.setVal [0] 6) 0, .change (.mark []) 0, exCheck 20, exExec 20])
    exVals 10 s = [(0, some 6)] ∧ (structureAt s.disk [10] 50000000 "top").map (fun t => vvals (t.view .full)) = some [(0, some 5)] := by decide +kernel

end Verif.HierStore
