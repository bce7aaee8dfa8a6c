import Verif.Spec.BnetMaster

/-!
# Lemmas about the master of a builder network: the common state
-/

namespace Verif.BnetMaster

open Spec

/-- One report. -/
def report (cfg : Cfg) (c : Ctrl) (p : Bool × Bool × CtrlItem) : Ctrl :=
  ctrlItem cfg p.1 c p.2.1 p.2.2

theorem ctrlItems_eq (cfg : Cfg) (over : Bool) (items : List CtrlItem) :
    ∀ (c : Ctrl) (isB : Bool), ctrlItems cfg over c isB items =
      ((roles isB items).map (fun p => (over, p.1, p.2))).foldl (report cfg) c := by
  induction items with
  | nil => intro c isB; rfl
  | cons i r ih => intro c isB; simp only [ctrlItems, roles, List.map_cons, List.foldl_cons]; exact ih _ _

/-! ### The parts of one report -/

theorem worst_keeps (c : Ctrl) (i : CtrlItem) :
    (worst c i).inpCnt = c.inpCnt ∧ (worst c i).inpExpect = c.inpExpect ∧
    (worst c i).bldCnt = c.bldCnt ∧ (worst c i).bldExpect = c.bldExpect ∧
    (worst c i).runId = c.runId ∧ (worst c i).runPfx = c.runPfx ∧
    (worst c i).szLimit = c.szLimit := by
  unfold worst; split <;> exact ⟨rfl, rfl, rfl, rfl, rfl, rfl, rfl⟩

theorem worst_cases (c : Ctrl) (i : CtrlItem) :
    ((c.name = "" ∨ i.quality < c.quality) ∧ (worst c i).quality = i.quality ∧
      (worst c i).name = i.state) ∨
    (c.name ≠ "" ∧ c.quality ≤ i.quality ∧ (worst c i).quality = c.quality ∧
      (worst c i).name = c.name) := by
  unfold worst
  split
  · rename_i h; exact .inl ⟨h, rfl, rfl⟩
  · rename_i h
    simp only [not_or] at h
    exact .inr ⟨h.1, Rat.not_lt.1 h.2, rfl, rfl⟩

theorem bldSize_keeps (cfg : Cfg) (over : Bool) (c : Ctrl) (i : CtrlItem) :
    bldSize cfg over c i = { c with szLimit := (bldSize cfg over c i).szLimit } := by
  unfold bldSize; split <;> rfl

theorem bldRun_keeps (over : Bool) (c : Ctrl) (i : CtrlItem) :
    (bldRun over c i).inpCnt = c.inpCnt ∧ (bldRun over c i).inpExpect = c.inpExpect ∧
    (bldRun over c i).bldCnt = c.bldCnt ∧ (bldRun over c i).bldExpect = c.bldExpect ∧
    (bldRun over c i).szLimit = c.szLimit := by
  unfold bldRun
  split
  · split
    · exact ⟨rfl, rfl, rfl, rfl, rfl⟩
    · split
      · split <;> exact ⟨rfl, rfl, rfl, rfl, rfl⟩
      · exact ⟨rfl, rfl, rfl, rfl, rfl⟩
  · exact ⟨rfl, rfl, rfl, rfl, rfl⟩

theorem bldRun_run (over : Bool) (c : Ctrl) (i : CtrlItem) :
    (HasRun i ∧ c.runId = 0 ∧ (bldRun over c i).runId = i.runid ∧
      (bldRun over c i).runPfx = i.runpfx) ∨
    ((¬ HasRun i ∨ c.runId ≠ 0) ∧ (bldRun over c i).runId = c.runId ∧
      (bldRun over c i).runPfx = c.runPfx) := by
  unfold bldRun
  split
  · rename_i h
    split
    · rename_i h0; exact .inl ⟨h, h0, rfl, rfl⟩
    · rename_i h0
      split
      · split <;> exact .inr ⟨.inr h0, rfl, rfl⟩
      · exact .inr ⟨.inr h0, rfl, rfl⟩
  · rename_i h; exact .inr ⟨.inl h, rfl, rfl⟩

theorem bldRun_quality (over : Bool) (c : Ctrl) (i : CtrlItem) :
    ((bldRun over c i).quality = c.quality ∧ (bldRun over c i).name = c.name ∧
      (over = true → 0 < c.quality → HasRun i →
        (bldRun over c i).runId = i.runid ∧ (bldRun over c i).runPfx = i.runpfx)) ∨
    ((bldRun over c i).quality = 0 ∧ (bldRun over c i).name ≠ "" ∧ 0 < c.quality ∧ HasRun i ∧
      c.runId ≠ 0 ∧ (c.runId ≠ i.runid ∨ c.runPfx ≠ i.runpfx)) := by
  unfold bldRun
  split
  · rename_i h
    split
    · exact .inl ⟨rfl, rfl, fun _ _ _ => ⟨rfl, rfl⟩⟩
    · rename_i h0
      split
      · rename_i hm
        split
        · rename_i hq
          exact .inr ⟨rfl, by simp, hq.1, h, h0, hm⟩
        · rename_i hq
          exact .inl ⟨rfl, rfl, fun a b _ => absurd ⟨b, a⟩ hq⟩
      · rename_i hm
        refine .inl ⟨rfl, rfl, fun _ _ _ => ?_⟩
        simp only [not_or, Classical.not_not, ne_eq] at hm
        exact hm
  · rename_i h
    exact .inl ⟨rfl, rfl, fun _ _ hr => absurd hr h⟩

theorem bldInputs_keeps (c : Ctrl) (i : CtrlItem) :
    (bldInputs c i).inpCnt = c.inpCnt ∧ (bldInputs c i).bldCnt = c.bldCnt ∧
    (bldInputs c i).bldExpect = c.bldExpect ∧ (bldInputs c i).runId = c.runId ∧
    (bldInputs c i).runPfx = c.runPfx ∧ (bldInputs c i).szLimit = c.szLimit ∧
    (bldInputs c i).inpExpect = (if c.inpExpect = 0 then i.ninputs else c.inpExpect) := by
  unfold bldInputs
  by_cases h : c.inpExpect = 0
  · simp only [h, if_true]
    split <;> exact ⟨rfl, rfl, rfl, rfl, rfl, rfl, rfl⟩
  · simp only [h, if_false]
    split <;> exact ⟨rfl, rfl, rfl, rfl, rfl, rfl, rfl⟩

theorem bldInputs_quality (c : Ctrl) (i : CtrlItem) :
    ((bldInputs c i).quality = c.quality ∧ (bldInputs c i).name = c.name ∧
      (0 < c.quality → (bldInputs c i).inpExpect = i.ninputs)) ∨
    ((bldInputs c i).quality = 0 ∧ (bldInputs c i).name ≠ "" ∧ 0 < c.quality ∧
      c.inpExpect ≠ 0 ∧ c.inpExpect ≠ i.ninputs) := by
  unfold bldInputs
  by_cases h : c.inpExpect = 0
  · simp only [h, if_true]
    rw [if_neg (by simp)]
    exact .inl ⟨rfl, rfl, fun _ => rfl⟩
  · simp only [h, if_false]
    split
    · rename_i h1
      exact .inr ⟨rfl, by simp, h1.2, h, h1.1⟩
    · rename_i h1
      refine .inl ⟨rfl, rfl, fun hq => ?_⟩
      exact Classical.byContradiction fun hn => h1 ⟨hn, hq⟩

theorem inpItem_keeps (c : Ctrl) (i : CtrlItem) :
    (inpItem c i).inpCnt = c.inpCnt ∧ (inpItem c i).bldCnt = c.bldCnt ∧
    (inpItem c i).inpExpect = c.inpExpect ∧ (inpItem c i).runId = c.runId ∧
    (inpItem c i).runPfx = c.runPfx ∧ (inpItem c i).szLimit = c.szLimit ∧
    (inpItem c i).bldExpect = (if c.bldExpect = 0 then i.nbuilders else c.bldExpect) := by
  unfold inpItem
  by_cases h : c.bldExpect = 0
  · simp only [h, if_true]
    split <;> exact ⟨rfl, rfl, rfl, rfl, rfl, rfl, rfl⟩
  · simp only [h, if_false]
    split <;> exact ⟨rfl, rfl, rfl, rfl, rfl, rfl, rfl⟩

theorem inpItem_quality (c : Ctrl) (i : CtrlItem) :
    ((inpItem c i).quality = c.quality ∧ (inpItem c i).name = c.name ∧
      (0 < c.quality → (inpItem c i).bldExpect = i.nbuilders)) ∨
    ((inpItem c i).quality = 0 ∧ (inpItem c i).name ≠ "" ∧ 0 < c.quality ∧
      c.bldExpect ≠ 0 ∧ c.bldExpect ≠ i.nbuilders) := by
  unfold inpItem
  by_cases h : c.bldExpect = 0
  · simp only [h, if_true]
    rw [if_neg (by simp)]
    exact .inl ⟨rfl, rfl, fun _ => rfl⟩
  · simp only [h, if_false]
    split
    · rename_i h1
      exact .inr ⟨rfl, by simp, h1.2, h, h1.1⟩
    · rename_i h1
      refine .inl ⟨rfl, rfl, fun hq => ?_⟩
      exact Classical.byContradiction fun hn => h1 ⟨hn, hq⟩

/-- A builder counted and its quality taken. -/
def bldPre (cfg : Cfg) (over : Bool) (c : Ctrl) (i : CtrlItem) : Ctrl :=
  bldSize cfg over (worst { c with bldCnt := c.bldCnt + 1 } i) i

/-- An input counted and its quality taken. -/
def inpPre (c : Ctrl) (i : CtrlItem) : Ctrl := worst { c with inpCnt := c.inpCnt + 1 } i

theorem report_bld (cfg : Cfg) (c : Ctrl) (over : Bool) (i : CtrlItem) :
    report cfg c (over, true, i) = bldInputs (bldRun over (bldPre cfg over c i) i) i := rfl

theorem report_inp (cfg : Cfg) (c : Ctrl) (over : Bool) (i : CtrlItem) :
    report cfg c (over, false, i) = inpItem (inpPre c i) i := rfl

theorem bldPre_facts (cfg : Cfg) (over : Bool) (c : Ctrl) (i : CtrlItem) :
    (bldPre cfg over c i).inpCnt = c.inpCnt ∧ (bldPre cfg over c i).inpExpect = c.inpExpect ∧
    (bldPre cfg over c i).bldCnt = c.bldCnt + 1 ∧ (bldPre cfg over c i).bldExpect = c.bldExpect ∧
    (bldPre cfg over c i).runId = c.runId ∧ (bldPre cfg over c i).runPfx = c.runPfx ∧
    (((c.name = "" ∨ i.quality < c.quality) ∧ (bldPre cfg over c i).quality = i.quality ∧
      (bldPre cfg over c i).name = i.state) ∨
    (c.name ≠ "" ∧ c.quality ≤ i.quality ∧ (bldPre cfg over c i).quality = c.quality ∧
      (bldPre cfg over c i).name = c.name)) := by
  have h1 := worst_keeps { c with bldCnt := c.bldCnt + 1 } i
  have h2 := worst_cases { c with bldCnt := c.bldCnt + 1 } i
  have h3 := bldSize_keeps cfg over (worst { c with bldCnt := c.bldCnt + 1 } i) i
  unfold bldPre
  rw [h3]
  exact ⟨h1.1, h1.2.1, h1.2.2.1, h1.2.2.2.1, h1.2.2.2.2.1, h1.2.2.2.2.2.1, h2⟩

theorem inpPre_facts (c : Ctrl) (i : CtrlItem) :
    (inpPre c i).inpCnt = c.inpCnt + 1 ∧ (inpPre c i).inpExpect = c.inpExpect ∧
    (inpPre c i).bldCnt = c.bldCnt ∧ (inpPre c i).bldExpect = c.bldExpect ∧
    (inpPre c i).runId = c.runId ∧ (inpPre c i).runPfx = c.runPfx ∧
    (((c.name = "" ∨ i.quality < c.quality) ∧ (inpPre c i).quality = i.quality ∧
      (inpPre c i).name = i.state) ∨
    (c.name ≠ "" ∧ c.quality ≤ i.quality ∧ (inpPre c i).quality = c.quality ∧
      (inpPre c i).name = c.name)) := by
  have h1 := worst_keeps { c with inpCnt := c.inpCnt + 1 } i
  have h2 := worst_cases { c with inpCnt := c.inpCnt + 1 } i
  exact ⟨h1.1, h1.2.1, h1.2.2.1, h1.2.2.2.1, h1.2.2.2.2.1, h1.2.2.2.2.2.1, h2⟩

/-! ### The size limit does not matter for the rest -/

/-- Equal up to the size limit. -/
def Like (a b : Ctrl) : Prop := { a with szLimit := 0 } = { b with szLimit := 0 }

theorem like_iff (a b : Ctrl) : Like a b ↔ ∃ k, a = { b with szLimit := k } := by
  constructor
  · intro h
    refine ⟨a.szLimit, ?_⟩
    cases a; cases b
    simp only [Like, Ctrl.mk.injEq] at h
    simp only [Ctrl.mk.injEq]; simp [h]
  · rintro ⟨k, rfl⟩; rfl

theorem worst_like (c : Ctrl) (i : CtrlItem) (k : Nat) :
    worst { c with szLimit := k } i = { worst c i with szLimit := k } := by
  unfold worst; dsimp only; split <;> rfl

theorem bldRun_like (over : Bool) (c : Ctrl) (i : CtrlItem) (k : Nat) :
    bldRun over { c with szLimit := k } i = { bldRun over c i with szLimit := k } := by
  unfold bldRun; dsimp only
  split
  · split
    · rfl
    · split
      · split <;> rfl
      · rfl
  · rfl

theorem bldInputs_like (c : Ctrl) (i : CtrlItem) (k : Nat) :
    bldInputs { c with szLimit := k } i = { bldInputs c i with szLimit := k } := by
  unfold bldInputs
  by_cases h : c.inpExpect = 0
  · simp only [h, if_true]; split <;> rfl
  · simp only [h, if_false]; split <;> rfl

theorem inpItem_like (c : Ctrl) (i : CtrlItem) (k : Nat) :
    inpItem { c with szLimit := k } i = { inpItem c i with szLimit := k } := by
  unfold inpItem
  by_cases h : c.bldExpect = 0
  · simp only [h, if_true]; split <;> rfl
  · simp only [h, if_false]; split <;> rfl

theorem inpPre_like (c : Ctrl) (i : CtrlItem) (k : Nat) :
    inpPre { c with szLimit := k } i = { inpPre c i with szLimit := k } :=
  worst_like { c with inpCnt := c.inpCnt + 1 } i k

theorem bldSize_like (cfg : Cfg) (over : Bool) (c : Ctrl) (i : CtrlItem) (k : Nat) :
    Like (bldSize cfg over { c with szLimit := k } i) (bldSize cfg over c i) := by
  unfold Like
  rw [bldSize_keeps cfg over { c with szLimit := k } i, bldSize_keeps cfg over c i]

theorem bldPre_like (cfg : Cfg) (over : Bool) (c : Ctrl) (i : CtrlItem) (k : Nat) :
    Like (bldPre cfg over { c with szLimit := k } i) (bldPre cfg over c i) := by
  have h := bldSize_like cfg over (worst { c with bldCnt := c.bldCnt + 1 } i) i k
  rw [← worst_like { c with bldCnt := c.bldCnt + 1 } i k] at h
  exact h

theorem report_like (cfg : Cfg) {a b : Ctrl} (h : Like a b) (p : Bool × Bool × CtrlItem) :
    Like (report cfg a p) (report cfg b p) := by
  obtain ⟨k, rfl⟩ := (like_iff a b).1 h
  obtain ⟨over, isB, i⟩ := p
  cases isB with
  | false =>
    rw [report_inp, report_inp, inpPre_like, inpItem_like]
    exact (like_iff _ _).2 ⟨k, rfl⟩
  | true =>
    rw [report_bld, report_bld]
    obtain ⟨j, hj⟩ := (like_iff _ _).1 (bldPre_like cfg over b i k)
    rw [hj, bldRun_like, bldInputs_like]
    exact (like_iff _ _).2 ⟨_, rfl⟩

theorem reports_like (cfg : Cfg) (l : List (Bool × Bool × CtrlItem)) :
    ∀ {a b : Ctrl}, Like a b → Like (l.foldl (report cfg) a) (l.foldl (report cfg) b) := by
  induction l with
  | nil => intro a b h; exact h
  | cons p l ih => intro a b h; exact ih (report_like cfg h p)

end Verif.BnetMaster
