import Verif.BnetMasterCtrl

/-!
# Lemmas about the master of a builder network: what the common state tells
-/

namespace Verif.BnetMaster

open Spec

abbrev Rep := Bool × Bool × CtrlItem

theorem builderReports_bld (l : List Rep) (o : Bool) (i : CtrlItem) :
    builderReports (l ++ [(o, true, i)]) = builderReports l ++ [i] := by
  simp [builderReports]

theorem builderReports_inp (l : List Rep) (o : Bool) (i : CtrlItem) :
    builderReports (l ++ [(o, false, i)]) = builderReports l := by
  simp [builderReports]

theorem inputReports_bld (l : List Rep) (o : Bool) (i : CtrlItem) :
    inputReports (l ++ [(o, true, i)]) = inputReports l := by
  simp [inputReports]

theorem inputReports_inp (l : List Rep) (o : Bool) (i : CtrlItem) :
    inputReports (l ++ [(o, false, i)]) = inputReports l ++ [i] := by
  simp [inputReports]

/-- Nodes which tell their state and how many partners they have. -/
def Telling (l : List Rep) : Prop :=
  ∀ r ∈ l, r.2.2.state ≠ "" ∧ (r.2.1 = true → r.2.2.ninputs ≠ 0) ∧
    (r.2.1 = false → r.2.2.nbuilders ≠ 0)

/-- What a good quality tells about the reports so far. -/
structure Good (l : List Rep) (c : Ctrl) : Prop where
  inputs : ∀ b ∈ builderReports l, b.ninputs = c.inpExpect
  builders : ∀ i ∈ inputReports l, i.nbuilders = c.bldExpect
  quality : ∀ r ∈ l, c.quality ≤ r.2.2.quality
  run : (∀ r ∈ l, r.1 = true) → ∀ b ∈ builderReports l, HasRun b →
    b.runid = c.runId ∧ b.runpfx = c.runPfx

theorem good_nil (c : Ctrl) : Good [] c :=
  ⟨(by intro b hb; cases hb), (by intro b hb; cases hb), (by intro b hb; cases hb),
    (by intro _ b hb; cases hb)⟩

structure Sound (l : List Rep) (c : Ctrl) : Prop where
  inpCnt : c.inpCnt = (inputReports l).length
  bldCnt : c.bldCnt = (builderReports l).length
  name : l ≠ [] → c.name ≠ ""
  inpExpect : builderReports l ≠ [] → c.inpExpect ≠ 0
  bldExpect : inputReports l ≠ [] → c.bldExpect ≠ 0
  runId : c.runId = 0 → ∀ b ∈ builderReports l, ¬ HasRun b
  good : 0 < c.quality → Good l c

/-- A new cycle. -/
structure Start (c : Ctrl) : Prop where
  inpCnt : c.inpCnt = 0
  bldCnt : c.bldCnt = 0
  inpExpect : c.inpExpect = 0
  bldExpect : c.bldExpect = 0
  runId : c.runId = 0
  runPfx : c.runPfx = ""

theorem sound_start {c : Ctrl} (h : Start c) : Sound [] c where
  inpCnt := h.inpCnt
  bldCnt := h.bldCnt
  name := fun h => absurd rfl h
  inpExpect := fun h => absurd rfl h
  bldExpect := fun h => absurd rfl h
  runId := by intro _ b hb; cases hb
  good := fun _ => good_nil c

/-- Before a report either nothing was reported or the quality was good too. -/
theorem good_before {l : List Rep} {c : Ctrl} (h : Sound l c) {q : Rat} {iq : Rat}
    (hc : ((c.name = "" ∨ iq < c.quality) ∧ q = iq) ∨ (c.name ≠ "" ∧ c.quality ≤ iq ∧ q = c.quality))
    (hq : 0 < q) : Good l c ∧ (∀ r ∈ l, q ≤ r.2.2.quality) ∧ q ≤ iq := by
  rcases hc with ⟨h1, rfl⟩ | ⟨_, h2, rfl⟩
  · rcases h1 with h1 | h1
    · have hl : l = [] := Classical.byContradiction fun hn => h.name hn h1
      subst hl
      exact ⟨good_nil c, (by intro r hr; cases hr), Rat.le_refl⟩
    · have hg := h.good (Std.lt_trans hq h1)
      exact ⟨hg, fun r hr => Rat.le_trans (Rat.le_of_lt h1) (hg.quality r hr), Rat.le_refl⟩
  · have hg := h.good hq
    exact ⟨hg, hg.quality, h2⟩

theorem sound_bld (cfg : Cfg) {l : List Rep} {c : Ctrl} (h : Sound l c) (over : Bool) (i : CtrlItem)
    (hs : i.state ≠ "") (hn : i.ninputs ≠ 0) :
    Sound (l ++ [(over, true, i)]) (report cfg c (over, true, i)) := by
  rw [report_bld]
  obtain ⟨p1, p2, p3, p4, p5, p6, p7⟩ := bldPre_facts cfg over c i
  generalize bldPre cfg over c i = a at p1 p2 p3 p4 p5 p6 p7 ⊢
  obtain ⟨r1, r2, r3, r4, _⟩ := bldRun_keeps over a i
  have rr := bldRun_run over a i
  have rq := bldRun_quality over a i
  generalize bldRun over a i = b at r1 r2 r3 r4 rr rq ⊢
  obtain ⟨i1, i2, i3, i4, i5, _, i7⟩ := bldInputs_keeps b i
  have iq := bldInputs_quality b i
  generalize bldInputs b i = d at i1 i2 i3 i4 i5 i7 iq ⊢
  have haname : a.name ≠ "" := by
    rcases p7 with ⟨_, _, e⟩ | ⟨hn, _, _, e⟩
    · rw [e]; exact hs
    · rw [e]; exact hn
  have hbname : b.name ≠ "" := by
    rcases rq with ⟨_, e, _⟩ | ⟨_, e, _⟩
    · rw [e]; exact haname
    · exact e
  have hdname : d.name ≠ "" := by
    rcases iq with ⟨_, e, _⟩ | ⟨_, e, _⟩
    · rw [e]; exact hbname
    · exact e
  refine ⟨?_, ?_, fun _ => hdname, ?_, ?_, ?_, ?_⟩
  · rw [inputReports_bld, i1, r1, p1]; exact h.inpCnt
  · rw [builderReports_bld, i2, r3, p3, h.bldCnt]; simp
  · intro _
    rw [i7]; split
    · exact hn
    · assumption
  · rw [inputReports_bld, i3, r4, p4]; exact h.bldExpect
  · intro h0 x hx
    rw [builderReports_bld] at hx
    have hb0 : b.runId = 0 := by rw [← i4]; exact h0
    rcases rr with ⟨hr, _, e, _⟩ | ⟨hr, e, _⟩
    · exact absurd (e ▸ hb0) hr.1
    · have ha0 : c.runId = 0 := by rw [← p5, ← e]; exact hb0
      rcases List.mem_append.1 hx with hx | hx
      · exact h.runId ha0 x hx
      · simp only [List.mem_singleton] at hx; subst hx
        rcases hr with hr | hr
        · exact hr
        · exact absurd (by rw [← e]; exact hb0) hr
  · intro hq
    rcases iq with ⟨dq, _, dn⟩ | ⟨dq, _⟩
    rotate_left
    · rw [dq] at hq; exact absurd hq (by decide)
    have hbq : 0 < b.quality := by rw [← dq]; exact hq
    rcases rq with ⟨bq, _, brun⟩ | ⟨bq, _⟩
    rotate_left
    · rw [bq] at hbq; exact absurd hbq (by decide)
    have haq : 0 < a.quality := by rw [← bq]; exact hbq
    obtain ⟨hg, hql, hqi⟩ := good_before h (q := a.quality) (iq := i.quality) (by
      rcases p7 with ⟨x, y, _⟩ | ⟨x, y, z, _⟩
      · exact .inl ⟨x, y⟩
      · exact .inr ⟨x, y, z⟩) haq
    have hd : d.quality = a.quality := by rw [dq, bq]
    refine ⟨?_, ?_, ?_, ?_⟩
    · intro x hx
      rw [builderReports_bld] at hx
      rcases List.mem_append.1 hx with hx | hx
      · have hne := h.inpExpect (List.ne_nil_of_mem hx)
        rw [i7, r2, p2, if_neg hne]
        exact hg.inputs x hx
      · simp only [List.mem_singleton] at hx; subst hx
        exact (dn hbq).symm
    · rw [inputReports_bld, i3, r4, p4]; exact hg.builders
    · intro r hr
      rw [hd]
      rcases List.mem_append.1 hr with hr | hr
      · exact hql r hr
      · simp only [List.mem_singleton] at hr; subst hr; exact hqi
    · intro hov x hx hrun
      have hov' : ∀ r ∈ l, r.1 = true := fun r hr => hov r (by simp [hr])
      have ho : over = true := hov (over, true, i) (by simp)
      rw [builderReports_bld] at hx
      rw [i4, i5]
      rcases List.mem_append.1 hx with hx | hx
      · have h1 := hg.run hov' x hx hrun
        have h0 : c.runId ≠ 0 := fun h0 => h.runId h0 x hx hrun
        rcases rr with ⟨_, e, _⟩ | ⟨_, e1, e2⟩
        · exact absurd (by rw [← p5]; exact e) h0
        · rw [e1, e2, p5, p6]; exact h1
      · simp only [List.mem_singleton] at hx; subst hx
        have := brun ho haq hrun
        exact ⟨this.1.symm, this.2.symm⟩

theorem sound_inp (cfg : Cfg) {l : List Rep} {c : Ctrl} (h : Sound l c) (over : Bool) (i : CtrlItem)
    (hs : i.state ≠ "") (hn : i.nbuilders ≠ 0) :
    Sound (l ++ [(over, false, i)]) (report cfg c (over, false, i)) := by
  rw [report_inp]
  obtain ⟨p1, p2, p3, p4, p5, p6, p7⟩ := inpPre_facts c i
  generalize inpPre c i = a at p1 p2 p3 p4 p5 p6 p7 ⊢
  obtain ⟨i1, i2, i3, i4, i5, _, i7⟩ := inpItem_keeps a i
  have iq := inpItem_quality a i
  generalize inpItem a i = d at i1 i2 i3 i4 i5 i7 iq ⊢
  have haname : a.name ≠ "" := by
    rcases p7 with ⟨_, _, e⟩ | ⟨hn, _, _, e⟩
    · rw [e]; exact hs
    · rw [e]; exact hn
  have hdname : d.name ≠ "" := by
    rcases iq with ⟨_, e, _⟩ | ⟨_, e, _⟩
    · rw [e]; exact haname
    · exact e
  refine ⟨?_, ?_, fun _ => hdname, ?_, ?_, ?_, ?_⟩
  · rw [inputReports_inp, i1, p1, h.inpCnt]; simp
  · rw [builderReports_inp, i2, p3]; exact h.bldCnt
  · rw [builderReports_inp, i3, p2]; exact h.inpExpect
  · intro _
    rw [i7]; split
    · exact hn
    · assumption
  · intro h0 x hx
    rw [builderReports_inp] at hx
    exact h.runId (by rw [← p5, ← i4]; exact h0) x hx
  · intro hq
    rcases iq with ⟨dq, _, dn⟩ | ⟨dq, _⟩
    rotate_left
    · rw [dq] at hq; exact absurd hq (by decide)
    have haq : 0 < a.quality := by rw [← dq]; exact hq
    obtain ⟨hg, hql, hqi⟩ := good_before h (q := a.quality) (iq := i.quality) (by
      rcases p7 with ⟨x, y, _⟩ | ⟨x, y, z, _⟩
      · exact .inl ⟨x, y⟩
      · exact .inr ⟨x, y, z⟩) haq
    refine ⟨?_, ?_, ?_, ?_⟩
    · rw [builderReports_inp, i3, p2]; exact hg.inputs
    · intro x hx
      rw [inputReports_inp] at hx
      rcases List.mem_append.1 hx with hx | hx
      · have hne := h.bldExpect (List.ne_nil_of_mem hx)
        rw [i7, p4, if_neg hne]
        exact hg.builders x hx
      · simp only [List.mem_singleton] at hx; subst hx
        exact (dn haq).symm
    · intro r hr
      rw [dq]
      rcases List.mem_append.1 hr with hr | hr
      · exact hql r hr
      · simp only [List.mem_singleton] at hr; subst hr; exact hqi
    · intro hov x hx hrun
      have hov' : ∀ r ∈ l, r.1 = true := fun r hr => hov r (by simp [hr])
      rw [builderReports_inp] at hx
      rw [i4, i5, p5, p6]
      exact hg.run hov' x hx hrun

theorem sound_fold (cfg : Cfg) (l2 : List Rep) : ∀ (l1 : List Rep) (c : Ctrl), Sound l1 c →
    Telling l2 → Sound (l1 ++ l2) (l2.foldl (report cfg) c) := by
  induction l2 with
  | nil => intro l1 c h _; simpa using h
  | cons r l2 ih =>
    intro l1 c h ht
    obtain ⟨t1, t2, t3⟩ := ht r (by simp)
    have h1 : Sound (l1 ++ [r]) (report cfg c r) := by
      obtain ⟨over, isB, i⟩ := r
      cases isB with
      | true => exact sound_bld cfg h over i t1 (t2 rfl)
      | false => exact sound_inp cfg h over i t1 (t3 rfl)
    have h2 := ih (l1 ++ [r]) _ h1 (fun x hx => ht x (by simp [hx]))
    simpa using h2

/-! ### The end of a cycle -/

theorem cycleEnd_keeps (c : Ctrl) :
    (cycleEnd c).inpCnt = c.inpCnt ∧ (cycleEnd c).bldCnt = c.bldCnt ∧
    (cycleEnd c).inpExpect = c.inpExpect ∧ (cycleEnd c).bldExpect = c.bldExpect ∧
    (cycleEnd c).runId = c.runId ∧ (cycleEnd c).runPfx = c.runPfx ∧
    (cycleEnd c).szLimit = c.szLimit := by
  unfold cycleEnd
  dsimp only
  refine ⟨?_, ?_, ?_, ?_, ?_, ?_, ?_⟩ <;> (repeat' split) <;> rfl

/-- One of the checks at the end. -/
def endCheck (p : Prop) [Decidable p] (n : String) (c : Ctrl) : Ctrl :=
  if p ∧ 0 < c.quality then { c with name := n, quality := 0 } else c

theorem endCheck_pos {p : Prop} [Decidable p] {n : String} {c : Ctrl}
    (h : 0 < (endCheck p n c).quality) : ¬ p ∧ endCheck p n c = c := by
  unfold endCheck at h ⊢
  split
  · rename_i hp; rw [if_pos hp] at h; exact absurd h (show ¬ (0 : Rat) < 0 by decide)
  · rename_i hp
    rw [if_neg hp] at h
    exact ⟨fun hp' => hp ⟨hp', h⟩, rfl⟩

theorem endCheck_not {p : Prop} [Decidable p] {n : String} {c : Ctrl} (h : ¬ p) :
    endCheck p n c = c := by
  unfold endCheck; rw [if_neg (fun hp => h hp.1)]

theorem endCheck_keeps {p : Prop} [Decidable p] {n : String} {c : Ctrl} :
    (endCheck p n c).inpCnt = c.inpCnt ∧ (endCheck p n c).inpExpect = c.inpExpect ∧
    (endCheck p n c).bldCnt = c.bldCnt ∧ (endCheck p n c).bldExpect = c.bldExpect := by
  unfold endCheck; split <;> exact ⟨rfl, rfl, rfl, rfl⟩

/-- "Ready" when no node has a name for its state. -/
def ready (c : Ctrl) : Ctrl := if c.name = "" then { c with name := "Ready", quality := 1 } else c

theorem cycleEnd_eq (c : Ctrl) : cycleEnd c =
    (let c1 := ready c
     let c2 := endCheck (c1.inpCnt = 0) "NoInputs" c1
     let c3 := endCheck (c2.inpExpect ≠ c2.inpCnt) "InputsMismatch" c2
     let c4 := endCheck (c3.bldCnt = 0) "NoBuilders" c3
     endCheck (c4.bldExpect ≠ c4.bldCnt) "BuildersMismatch" c4) := rfl

theorem cycleEnd_pos {c : Ctrl} (h : 0 < (cycleEnd c).quality) :
    c.inpCnt ≠ 0 ∧ c.inpExpect = c.inpCnt ∧ c.bldCnt ≠ 0 ∧ c.bldExpect = c.bldCnt ∧
    cycleEnd c = ready c := by
  rw [cycleEnd_eq] at h ⊢
  dsimp only at h ⊢
  obtain ⟨a1, a2⟩ := endCheck_pos h
  rw [a2] at h
  obtain ⟨b1, b2⟩ := endCheck_pos h
  rw [b2] at h
  obtain ⟨c1, c2⟩ := endCheck_pos h
  rw [c2] at h
  obtain ⟨d1, d2⟩ := endCheck_pos h
  rw [a2, b2, c2, d2]
  rw [b2, c2, d2] at a1
  rw [c2, d2] at b1
  rw [d2] at c1
  have e : (ready c).inpCnt = c.inpCnt ∧ (ready c).inpExpect = c.inpExpect ∧
    (ready c).bldCnt = c.bldCnt ∧ (ready c).bldExpect = c.bldExpect := by
    unfold ready; split <;> exact ⟨rfl, rfl, rfl, rfl⟩
  rw [e.1, e.2.1] at c1
  rw [e.2.2.1, e.2.2.2] at a1
  rw [e.2.2.1] at b1
  rw [e.1] at d1
  exact ⟨d1, Classical.not_not.1 c1, b1, Classical.not_not.1 a1, rfl⟩

theorem cycleEnd_good {c : Ctrl} (h0 : c.name ≠ "") (h1 : c.inpCnt ≠ 0) (h2 : c.inpExpect = c.inpCnt)
    (h3 : c.bldCnt ≠ 0) (h4 : c.bldExpect = c.bldCnt) : cycleEnd c = c := by
  rw [cycleEnd_eq]
  have e : ready c = c := by unfold ready; rw [if_neg h0]
  dsimp only
  rw [e, endCheck_not h1]
  rw [endCheck_not (p := c.inpExpect ≠ c.inpCnt) (fun h => h h2), endCheck_not h3,
    endCheck_not (p := c.bldExpect ≠ c.bldCnt) (fun h => h h4)]

/-- A quality above 0 shown at the end of a cycle tells that the nodes agree. -/
theorem sound_end (cfg : Cfg) {c0 : Ctrl} (h0 : Start c0) {l : List Rep} (ht : Telling l)
    (hq : 0 < (cycleEnd (l.foldl (report cfg) c0)).quality) :
    Consistent l ∧ ((∀ r ∈ l, r.1 = true) → SameRun l) ∧
    ∀ r ∈ l, (cycleEnd (l.foldl (report cfg) c0)).quality ≤ r.2.2.quality := by
  have hs := sound_fold cfg l [] c0 (sound_start h0) ht
  rw [List.nil_append] at hs
  generalize l.foldl (report cfg) c0 = c at hq hs
  obtain ⟨e1, e2, e3, e4, e5⟩ := cycleEnd_pos hq
  have hi : inputReports l ≠ [] := by
    intro hn; apply e1; rw [hs.inpCnt, hn]; rfl
  have hb : builderReports l ≠ [] := by
    intro hn; apply e3; rw [hs.bldCnt, hn]; rfl
  have hl : l ≠ [] := by
    intro hn; subst hn; exact hi rfl
  have hr : ready c = c := by unfold ready; rw [if_neg (hs.name hl)]
  rw [e5, hr] at hq ⊢
  have hg := hs.good hq
  refine ⟨⟨hi, hb, ?_, ?_⟩, ?_, hg.quality⟩
  · intro b hm; rw [hg.inputs b hm, e2, hs.inpCnt]
  · intro i hm; rw [hg.builders i hm, e4, hs.bldCnt]
  · intro hov a ha b hb hra hrb
    have x := hg.run hov a ha hra
    have y := hg.run hov b hb hrb
    exact ⟨x.1.trans y.1.symm, x.2.trans y.2.symm⟩

/-! ### All is well -/

/-- The state shown is the one of the worst node. -/
structure Best (N M : Int) (l : List Rep) (c : Ctrl) : Prop where
  inpCnt : c.inpCnt = (inputReports l).length
  bldCnt : c.bldCnt = (builderReports l).length
  none : l = [] → c.name = ""
  worst : l ≠ [] → c.name ≠ "" ∧ ∃ r ∈ l, c.quality = r.2.2.quality ∧ c.name = r.2.2.state ∧
    ∀ x ∈ l, c.quality ≤ x.2.2.quality
  inpExpect : builderReports l ≠ [] → c.inpExpect = N
  noInp : builderReports l = [] → c.inpExpect = 0
  bldExpect : inputReports l ≠ [] → c.bldExpect = M
  noBld : inputReports l = [] → c.bldExpect = 0
  run : c.runId ≠ 0 → ∃ b ∈ builderReports l, HasRun b ∧ c.runId = b.runid ∧ c.runPfx = b.runpfx

theorem worst_next {l : List Rep} {c a : Ctrl} {x : Rep} {N M : Int} (h : Best N M l c)
    (hs : x.2.2.state ≠ "")
    (hc : ((c.name = "" ∨ x.2.2.quality < c.quality) ∧ a.quality = x.2.2.quality ∧
        a.name = x.2.2.state) ∨
      (c.name ≠ "" ∧ c.quality ≤ x.2.2.quality ∧ a.quality = c.quality ∧ a.name = c.name)) :
    a.name ≠ "" ∧ ∃ r ∈ l ++ [x], a.quality = r.2.2.quality ∧ a.name = r.2.2.state ∧
      ∀ y ∈ l ++ [x], a.quality ≤ y.2.2.quality := by
  rcases hc with ⟨h1, h2, h3⟩ | ⟨h1, h2, h3, h4⟩
  · refine ⟨by rw [h3]; exact hs, x, by simp, h2, h3, ?_⟩
    intro y hy
    rw [h2]
    rcases List.mem_append.1 hy with hy | hy
    · have hl : l ≠ [] := List.ne_nil_of_mem hy
      obtain ⟨w1, r, hr, w2, w3, w4⟩ := h.worst hl
      rcases h1 with h1 | h1
      · exact absurd h1 w1
      · exact Rat.le_trans (Rat.le_of_lt h1) (w4 y hy)
    · simp only [List.mem_singleton] at hy; subst hy; exact Rat.le_refl
  · have hl : l ≠ [] := fun hl => h1 (h.none hl)
    obtain ⟨w1, r, hr, w2, w3, w4⟩ := h.worst hl
    refine ⟨by rw [h4]; exact w1, r, by simp [hr], by rw [h3]; exact w2, by rw [h4]; exact w3, ?_⟩
    intro y hy
    rw [h3]
    rcases List.mem_append.1 hy with hy | hy
    · exact w4 y hy
    · simp only [List.mem_singleton] at hy; subst hy; exact h2

theorem best_bld (cfg : Cfg) {l : List Rep} {c : Ctrl} {N M : Int} (h : Best N M l c) (over : Bool)
    (i : CtrlItem) (hs : i.state ≠ "") (hn : i.ninputs = N)
    (hrun : HasRun i → ∀ b ∈ builderReports l, HasRun b → b.runid = i.runid ∧ b.runpfx = i.runpfx) :
    Best N M (l ++ [(over, true, i)]) (report cfg c (over, true, i)) := by
  rw [report_bld]
  obtain ⟨p1, p2, p3, p4, p5, p6, p7⟩ := bldPre_facts cfg over c i
  generalize bldPre cfg over c i = a at p1 p2 p3 p4 p5 p6 p7 ⊢
  have hw := worst_next (x := (over, true, i)) h hs p7
  obtain ⟨r1, r2, r3, r4, _⟩ := bldRun_keeps over a i
  have rr := bldRun_run over a i
  have rq : (bldRun over a i).quality = a.quality ∧ (bldRun over a i).name = a.name := by
    rcases bldRun_quality over a i with ⟨x, y, _⟩ | ⟨_, _, _, x, y, z⟩
    · exact ⟨x, y⟩
    · exfalso
      obtain ⟨b, hb, hr, e1, e2⟩ := h.run (by rw [← p5]; exact y)
      have := hrun x b hb hr
      rcases z with z | z
      · apply z; rw [p5, e1, this.1]
      · apply z; rw [p6, e2, this.2]
  generalize bldRun over a i = b at r1 r2 r3 r4 rr rq ⊢
  obtain ⟨i1, i2, i3, i4, i5, _, i7⟩ := bldInputs_keeps b i
  have hexp : b.inpExpect = 0 ∨ b.inpExpect = i.ninputs := by
    rw [r2, p2]
    by_cases hb : builderReports l = []
    · exact .inl (h.noInp hb)
    · exact .inr (by rw [h.inpExpect hb, hn])
  have iq : (bldInputs b i).quality = b.quality ∧ (bldInputs b i).name = b.name := by
    rcases bldInputs_quality b i with ⟨x, y, _⟩ | ⟨_, _, _, x, y⟩
    · exact ⟨x, y⟩
    · rcases hexp with hexp | hexp
      · exact absurd hexp x
      · exact absurd hexp y
  generalize bldInputs b i = d at i1 i2 i3 i4 i5 i7 iq ⊢
  refine ⟨?_, ?_, by intro hl; simp at hl, ?_, ?_, ?_, ?_, ?_, ?_⟩
  · rw [inputReports_bld, i1, r1, p1]; exact h.inpCnt
  · rw [builderReports_bld, i2, r3, p3, h.bldCnt]; simp
  · intro _
    rw [iq.1, iq.2, rq.1, rq.2]; exact hw
  · intro _
    rw [i7]
    split
    · exact hn
    · rename_i hne
      rcases hexp with hexp | hexp
      · exact absurd hexp hne
      · rw [hexp, hn]
  · intro hb; rw [builderReports_bld] at hb; simp at hb
  · rw [inputReports_bld, i3, r4, p4]; exact h.bldExpect
  · rw [inputReports_bld, i3, r4, p4]; exact h.noBld
  · intro h0
    rw [i4] at h0
    rw [builderReports_bld, i4, i5]
    rcases rr with ⟨hr, _, e1, e2⟩ | ⟨_, e1, e2⟩
    · exact ⟨i, by simp, hr, e1, e2⟩
    · rw [e1, p5] at h0
      obtain ⟨x, hx, y, z, w⟩ := h.run h0
      exact ⟨x, by simp [hx], y, by rw [e1, p5]; exact z, by rw [e2, p6]; exact w⟩

theorem best_inp (cfg : Cfg) {l : List Rep} {c : Ctrl} {N M : Int} (h : Best N M l c) (over : Bool)
    (i : CtrlItem) (hs : i.state ≠ "") (hn : i.nbuilders = M) :
    Best N M (l ++ [(over, false, i)]) (report cfg c (over, false, i)) := by
  rw [report_inp]
  obtain ⟨p1, p2, p3, p4, p5, p6, p7⟩ := inpPre_facts c i
  generalize inpPre c i = a at p1 p2 p3 p4 p5 p6 p7 ⊢
  have hw := worst_next (x := (over, false, i)) h hs p7
  obtain ⟨i1, i2, i3, i4, i5, _, i7⟩ := inpItem_keeps a i
  have hexp : a.bldExpect = 0 ∨ a.bldExpect = i.nbuilders := by
    rw [p4]
    by_cases hb : inputReports l = []
    · exact .inl (h.noBld hb)
    · exact .inr (by rw [h.bldExpect hb, hn])
  have iq : (inpItem a i).quality = a.quality ∧ (inpItem a i).name = a.name := by
    rcases inpItem_quality a i with ⟨x, y, _⟩ | ⟨_, _, _, x, y⟩
    · exact ⟨x, y⟩
    · rcases hexp with hexp | hexp
      · exact absurd hexp x
      · exact absurd hexp y
  generalize inpItem a i = d at i1 i2 i3 i4 i5 i7 iq ⊢
  refine ⟨?_, ?_, by intro hl; simp at hl, ?_, ?_, ?_, ?_, ?_, ?_⟩
  · rw [inputReports_inp, i1, p1, h.inpCnt]; simp
  · rw [builderReports_inp, i2, p3]; exact h.bldCnt
  · intro _
    rw [iq.1, iq.2]; exact hw
  · rw [builderReports_inp, i3, p2]; exact h.inpExpect
  · rw [builderReports_inp, i3, p2]; exact h.noInp
  · intro _
    rw [i7]
    split
    · exact hn
    · rename_i hne
      rcases hexp with hexp | hexp
      · exact absurd hexp hne
      · rw [hexp, hn]
  · intro hb; rw [inputReports_inp] at hb; simp at hb
  · intro h0
    rw [i4, p5] at h0
    rw [builderReports_inp, i4, i5, p5, p6]
    exact h.run h0

theorem mem_builderReports {l : List Rep} {i : CtrlItem} :
    i ∈ builderReports l ↔ ∃ o, (o, true, i) ∈ l := by
  unfold builderReports
  constructor
  · intro h
    obtain ⟨⟨o, b, j⟩, hm, rfl⟩ := List.mem_map.1 h
    obtain ⟨hm, hb⟩ := List.mem_filter.1 hm
    simp only at hb
    subst hb
    exact ⟨o, hm⟩
  · rintro ⟨o, h⟩
    exact List.mem_map.2 ⟨_, List.mem_filter.2 ⟨h, rfl⟩, rfl⟩

theorem mem_inputReports {l : List Rep} {i : CtrlItem} :
    i ∈ inputReports l ↔ ∃ o, (o, false, i) ∈ l := by
  unfold inputReports
  constructor
  · intro h
    obtain ⟨⟨o, b, j⟩, hm, rfl⟩ := List.mem_map.1 h
    obtain ⟨hm, hb⟩ := List.mem_filter.1 hm
    simp only [Bool.not_eq_true'] at hb
    subst hb
    exact ⟨o, hm⟩
  · rintro ⟨o, h⟩
    exact List.mem_map.2 ⟨_, List.mem_filter.2 ⟨h, rfl⟩, rfl⟩

theorem best_fold (cfg : Cfg) (N M : Int) (l2 : List Rep) : ∀ (l1 : List Rep) (c : Ctrl),
    Best N M l1 c → (∀ r ∈ l2, r.2.2.state ≠ "") →
    (∀ b ∈ builderReports l2, b.ninputs = N) → (∀ i ∈ inputReports l2, i.nbuilders = M) →
    SameRun (l1 ++ l2) → Best N M (l1 ++ l2) (l2.foldl (report cfg) c) := by
  induction l2 with
  | nil => intro l1 c h _ _ _ _; simpa using h
  | cons r l2 ih =>
    intro l1 c h hs hn hm hr
    have h1 : Best N M (l1 ++ [r]) (report cfg c r) := by
      obtain ⟨over, isB, i⟩ := r
      have hsi := hs (over, isB, i) (by simp)
      cases isB with
      | true =>
        refine best_bld cfg h over i hsi
          (hn i (mem_builderReports.2 ⟨over, by simp⟩)) ?_
        intro hri b hb hrb
        obtain ⟨o, ho⟩ := mem_builderReports.1 hb
        exact hr b (mem_builderReports.2 ⟨o, by simp [ho]⟩) i
          (mem_builderReports.2 ⟨over, by simp⟩) hrb hri
      | false =>
        exact best_inp cfg h over i hsi (hm i (mem_inputReports.2 ⟨over, by simp⟩))
    have h2 := ih (l1 ++ [r]) _ h1 (fun x hx => hs x (by simp [hx]))
      (fun b hb => by
        obtain ⟨o, ho⟩ := mem_builderReports.1 hb
        exact hn b (mem_builderReports.2 ⟨o, by simp [ho]⟩))
      (fun b hb => by
        obtain ⟨o, ho⟩ := mem_inputReports.1 hb
        exact hm b (mem_inputReports.2 ⟨o, by simp [ho]⟩))
      (by simpa using hr)
    simpa using h2

/-- When the nodes agree, the state shown is the one of the worst node. -/
theorem best_end (cfg : Cfg) {c0 : Ctrl} (h0 : Start c0) (hn : c0.name = "") {l : List Rep}
    (hs : ∀ r ∈ l, r.2.2.state ≠ "") (hc : Consistent l) (hr : SameRun l) :
    ∃ r ∈ l, (cycleEnd (l.foldl (report cfg) c0)).quality = r.2.2.quality ∧
      (cycleEnd (l.foldl (report cfg) c0)).name = r.2.2.state ∧
      ∀ x ∈ l, r.2.2.quality ≤ x.2.2.quality := by
  have hb0 : Best ((inputReports l).length) ((builderReports l).length) [] c0 := by
    refine ⟨h0.inpCnt, h0.bldCnt, fun _ => hn, fun h => absurd rfl h, fun h => absurd rfl h,
      fun _ => h0.inpExpect, fun h => absurd rfl h, fun _ => h0.bldExpect, fun h => absurd h0.runId h⟩
  have hb := best_fold cfg _ _ l [] c0 hb0 hs hc.inputs hc.builders (by simpa using hr)
  rw [List.nil_append] at hb
  generalize l.foldl (report cfg) c0 = c at hb
  have hl : l ≠ [] := by
    intro hl; subst hl; exact hc.someInput rfl
  obtain ⟨w1, r, hm, w2, w3, w4⟩ := hb.worst hl
  have p1 := List.length_pos_iff.2 hc.someInput
  have p2 := List.length_pos_iff.2 hc.someBuilder
  rw [cycleEnd_good w1 (by rw [hb.inpCnt]; omega) (by rw [hb.inpExpect hc.someBuilder, hb.inpCnt])
    (by rw [hb.bldCnt]; omega) (by rw [hb.bldExpect hc.someInput, hb.bldCnt])]
  exact ⟨r, hm, w2, w3, by rw [← w2]; exact w4⟩

end Verif.BnetMaster
