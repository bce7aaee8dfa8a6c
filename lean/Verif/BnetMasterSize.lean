import Verif.BnetMasterCycle

/-!
# Lemmas about the master of a builder network: the run shown and the limit of its size
-/

namespace Verif.BnetMaster

open Spec

/-! ### The run shown -/

def hasRun (b : CtrlItem) : Bool := decide (b.runid ≠ 0) && decide (b.runpfx ≠ "")

theorem hasRun_iff (b : CtrlItem) : hasRun b = true ↔ HasRun b := by
  simp [hasRun, HasRun]

/-- The run noted is the one of the first builder that has one. -/
def Noted (l : List Rep) (c : Ctrl) : Prop :=
  (∃ b, (builderReports l).find? hasRun = some b ∧ c.runId = b.runid ∧ c.runPfx = b.runpfx) ∨
  ((builderReports l).find? hasRun = none ∧ c.runId = 0 ∧ c.runPfx = "")

theorem noted_report (cfg : Cfg) {l : List Rep} {c : Ctrl} (h : Noted l c) (r : Rep) :
    Noted (l ++ [r]) (report cfg c r) := by
  obtain ⟨over, isB, i⟩ := r
  cases isB with
  | false =>
    rw [report_inp]
    obtain ⟨_, _, _, _, p5, p6, _⟩ := inpPre_facts c i
    obtain ⟨_, _, _, i4, i5, _⟩ := inpItem_keeps (inpPre c i) i
    unfold Noted
    rw [builderReports_inp, i4, i5, p5, p6]
    exact h
  | true =>
    rw [report_bld]
    obtain ⟨_, _, _, _, p5, p6, _⟩ := bldPre_facts cfg over c i
    generalize bldPre cfg over c i = a at p5 p6 ⊢
    have rr := bldRun_run over a i
    generalize bldRun over a i = b at rr ⊢
    obtain ⟨_, _, _, i4, i5, _⟩ := bldInputs_keeps b i
    unfold Noted
    rw [builderReports_bld, i4, i5, List.find?_append]
    rcases h with ⟨x, hx, h1, h2⟩ | ⟨hx, h1, h2⟩
    · left
      have hr := (hasRun_iff x).1 (List.find?_some hx)
      rcases rr with ⟨_, h0, _⟩ | ⟨_, e1, e2⟩
      · rw [p5, h1] at h0; exact absurd h0 hr.1
      · exact ⟨x, by rw [hx]; rfl, by rw [e1, p5, h1], by rw [e2, p6, h2]⟩
    · rw [hx]
      rcases rr with ⟨hr, _, e1, e2⟩ | ⟨hr, e1, e2⟩
      · left
        refine ⟨i, ?_, e1, e2⟩
        simp [(hasRun_iff i).2 hr]
      · right
        rcases hr with hr | hr
        · refine ⟨?_, by rw [e1, p5, h1], by rw [e2, p6, h2]⟩
          have : hasRun i = false := by
            cases hh : hasRun i with
            | false => rfl
            | true => exact absurd ((hasRun_iff i).1 hh) hr
          simp [this]
        · rw [p5] at hr; exact absurd h1 hr

theorem noted_fold (cfg : Cfg) (l2 : List Rep) : ∀ (l1 : List Rep) (c : Ctrl), Noted l1 c →
    Noted (l1 ++ l2) (l2.foldl (report cfg) c) := by
  induction l2 with
  | nil => intro l1 c h; simpa using h
  | cons r l2 ih =>
    intro l1 c h
    have h2 := ih (l1 ++ [r]) _ (noted_report cfg h r)
    simpa using h2

theorem noted_end (cfg : Cfg) {c0 : Ctrl} (h0 : Start c0) (l : List Rep) :
    ((cycleEnd (l.foldl (report cfg) c0)).runId, (cycleEnd (l.foldl (report cfg) c0)).runPfx) =
      shownRun l := by
  have h := noted_fold cfg l [] c0 (.inr ⟨rfl, h0.runId, h0.runPfx⟩)
  rw [List.nil_append] at h
  obtain ⟨_, _, _, _, k5, k6, _⟩ := cycleEnd_keeps (l.foldl (report cfg) c0)
  rw [k5, k6]
  unfold shownRun
  rcases h with ⟨b, hb, h1, h2⟩ | ⟨hb, h1, h2⟩
  · rw [show (fun b : CtrlItem => decide (b.runid ≠ 0) && decide (b.runpfx ≠ "")) = hasRun from rfl,
      hb, h1, h2]
  · rw [show (fun b : CtrlItem => decide (b.runid ≠ 0) && decide (b.runpfx ≠ "")) = hasRun from rfl,
      hb, h1, h2]

/-! ### The limit of the size -/

/-- Events that do not matter for the size. -/
def SzQuiet (e : Ev) : Prop :=
  match e with
  | .autoStart => False
  | .got _ => False
  | .order _ _ _ _ q => q.start = false
  | _ => True

/-- Events other than an automatic start and something received. -/
def SzCount (e : Ev) : Prop :=
  match e with
  | .autoStart => False
  | .got _ => False
  | _ => True

theorem szQuiet_count {e : Ev} (h : SzQuiet e) : SzCount e := by
  cases e <;> first | trivial | exact h

theorem autoStarts_append (a b : List Ev) : autoStarts (a ++ b) = autoStarts a + autoStarts b :=
  List.countP_append

theorem startsReceived_append (a b : List Ev) :
    startsReceived (a ++ b) = startsReceived a + startsReceived b := List.countP_append

theorem autoStarts_count (es : List Ev) (h : ∀ e ∈ es, SzCount e) : autoStarts es = 0 := by
  unfold autoStarts
  rw [List.countP_eq_zero]
  intro e he hp
  have := h e he
  simp only [beq_iff_eq] at hp
  subst hp; exact this

theorem startsReceived_count (es : List Ev) (h : ∀ e ∈ es, SzCount e) : startsReceived es = 0 := by
  unfold startsReceived
  rw [List.countP_eq_zero]
  intro e he hp
  have := h e he
  cases e with
  | got op => exact this.elim
  | _ => simp at hp

theorem tooBig_append {cfg : Cfg} {l es : List Ev} (h : TooBig cfg l) (h1 : Ev.autoStart ∉ es)
    (h2 : ∀ j cnt b n q, Ev.order j cnt b n q ∈ es → q.start = false) : TooBig cfg (l ++ es) := by
  obtain ⟨pre, id, ok, items, post, i, e, k1, k2, k3, k4, k5⟩ := h
  refine ⟨pre, id, ok, items, post ++ es, i, by simp [e], k1, k2, k3, ?_, ?_⟩
  · intro hm
    rcases List.mem_append.1 hm with hm | hm
    · exact k4 hm
    · exact h1 hm
  · intro j cnt b n q hm
    rcases List.mem_append.1 hm with hm | hm
    · exact k5 j cnt b n q hm
    · exact h2 j cnt b n q hm

theorem tooBig_quiet {cfg : Cfg} {l es : List Ev} (h : TooBig cfg l) (hq : ∀ e ∈ es, SzQuiet e) :
    TooBig cfg (l ++ es) :=
  tooBig_append h (fun hm => hq _ hm) (fun _ _ _ _ _ hm => hq _ hm)

/-- 1 when the number is not 0. -/
def nz (n : Nat) : Nat := if n = 0 then 0 else 1

/-- 1 when there is a command. -/
def occ (c : Option RunCmd) : Nat := if c.isSome then 1 else 0

theorem nz_le (n : Nat) : nz n ≤ 1 := by unfold nz; split <;> omega

theorem nz_pos {n : Nat} (h : 0 < n) : nz n = 1 := if_neg (by omega)

theorem occ_le (c : Option RunCmd) : occ c ≤ 1 := by unfold occ; split <;> omega

theorem occ_none : occ none = 0 := rfl

theorem occ_some (w : RunCmd) : occ (some w) = 1 := rfl

/-- What is true about the size limit, with some StartRun commands more than needed. -/
structure SzInv (cfg : Cfg) (s : St) (more : Nat) : Prop where
  count : autoStarts s.log + nz s.ctrl.szLimit + occ s.initCmd + more ≤
    startsReceived s.log
  big : 1 < s.ctrl.szLimit → TooBig cfg s.log

/-- Nothing changed for the size, but that the waiting command may be gone. -/
structure SzKeeps (s t : St) : Prop where
  sz : t.ctrl.szLimit = s.ctrl.szLimit
  init : t.initCmd = s.initCmd ∨ t.initCmd = none
  log : ∃ es, t.log = s.log ++ es ∧ ∀ e ∈ es, SzQuiet e

theorem szInv_keeps {cfg : Cfg} {s t : St} {k : Nat} (h : SzInv cfg s k) (hk : SzKeeps s t) :
    SzInv cfg t k := by
  obtain ⟨k1, k2, es, hl, hes⟩ := hk
  have a := autoStarts_count es (fun e he => szQuiet_count (hes e he))
  have b := startsReceived_count es (fun e he => szQuiet_count (hes e he))
  refine ⟨?_, ?_⟩
  · rw [hl, autoStarts_append, startsReceived_append, a, b, k1]
    have := h.count
    rcases k2 with k2 | k2
    · rw [k2]; omega
    · rw [k2, occ_none]; omega
  · intro hb; rw [hl]; exact tooBig_quiet (h.big (by rw [← k1]; exact hb)) hes

theorem szKeeps_refl (s : St) : SzKeeps s s := ⟨rfl, .inl rfl, [], by simp, by simp⟩

theorem szKeeps_emit (s : St) (e : Ev) (h : SzQuiet e) : SzKeeps s (s.emit e) :=
  ⟨rfl, .inl rfl, [e], rfl, by simpa using h⟩

theorem szInv_got {cfg : Cfg} {s : St} (h : SzInv cfg s 0) (op : Op)
    (hr : ∀ c p n, op = .run c p n → c.start = false) : SzInv cfg (s.emit (.got op)) 0 := by
  have hs : startsReceived [Ev.got op] = 0 := by
    unfold startsReceived
    rw [List.countP_eq_zero]
    intro e he
    simp only [List.mem_singleton] at he
    subst he
    cases op with
    | run c p n => simp [hr c p n rfl]
    | _ => simp
  have ha : autoStarts [Ev.got op] = 0 := rfl
  refine ⟨?_, ?_⟩
  · show autoStarts (s.log ++ [Ev.got op]) + _ + _ + 0 ≤ startsReceived (s.log ++ [Ev.got op])
    rw [autoStarts_append, startsReceived_append, hs, ha]
    exact h.count
  · intro hb
    exact tooBig_append (es := [Ev.got op]) (h.big hb) (by simp) (by simp)

theorem szInv_gotStart {cfg : Cfg} {s : St} (h : SzInv cfg s 0) (c : RunCmd) (p : Bool) (n : Nat)
    (hc : c.start = true) : SzInv cfg (s.emit (.got (.run c p n))) 1 := by
  have hs : startsReceived [Ev.got (.run c p n)] = 1 := by
    simp [startsReceived, List.countP_cons, hc]
  have ha : autoStarts [Ev.got (.run c p n)] = 0 := rfl
  refine ⟨?_, ?_⟩
  · show autoStarts (s.log ++ [Ev.got (.run c p n)]) + _ + _ + 1 ≤
      startsReceived (s.log ++ [Ev.got (.run c p n)])
    rw [autoStarts_append, startsReceived_append, hs, ha]
    have := h.count
    show _ + nz s.ctrl.szLimit + occ s.initCmd + 1 ≤ _
    omega
  · intro hb
    exact tooBig_append (es := [Ev.got (.run c p n)]) (h.big hb) (by simp) (by simp)

theorem orders_stop {s : St} {c : RunCmd} {n : Nat} (hc : c.start = false) :
    ∀ e ∈ orders s c n, SzQuiet e := by
  have hg : goStart c s.lastPfx = false := by unfold goStart; rw [hc]; rfl
  intro e he
  rcases mem_orders he with ⟨b, _, rfl⟩ | ⟨b, _, q, hq, rfl⟩
  · show (fileQuery c s.lastPfx n).start = false
    unfold fileQuery; rw [hg]; rfl
  · show q.start = false
    unfold calibrQuery at hq
    rw [hg] at hq
    simp only [Bool.false_and, Bool.not_false, Bool.true_and] at hq
    split at hq
    · rename_i hh; cases hh
    · split at hq
      · cases hq; rfl
      · cases hq

theorem szExec (s : St) (c : RunCmd) (p : Bool) (n j : Nat) :
    let t := St.reply (execRun s c p n) j
    SzKeeps s t ∨
    (Parks c ∧ t.ctrl.szLimit = s.ctrl.szLimit ∧ ∃ es, t.log = s.log ++ es ∧ ∀ e ∈ es, SzQuiet e) ∨
    (c.start = true ∧ t.ctrl.szLimit = 1 ∧ t.initCmd = s.initCmd ∧
      ∃ es, t.log = s.log ++ es ∧ ∀ e ∈ es, SzCount e) := by
  dsimp only
  rcases execRun_cases s c p n with ⟨_, e⟩ | ⟨_, hp, e⟩ | ⟨_, _, _, e⟩ | ⟨_, _, _, _, e⟩ |
    ⟨_, _, _, _, e⟩ <;> rw [e]
  · exact .inl (szKeeps_emit s _ trivial)
  · right; left
    refine ⟨hp, ?_⟩
    show (parked s c).ctrl.szLimit = _ ∧ ∃ es, (parked s c).log = _ ∧ _
    unfold parked
    cases s.initCmd with
    | none => exact ⟨rfl, [], by simp, by simp⟩
    | some i =>
      exact ⟨rfl, [_], rfl, by
        intro e he; simp only [List.mem_singleton] at he; subst he; trivial⟩
  · exact .inl (szKeeps_emit s _ trivial)
  · exact .inl (szKeeps_emit s _ trivial)
  · cases hc : c.start with
    | false =>
      left
      refine ⟨?_, .inl rfl, orders s c n, rfl, orders_stop hc⟩
      show (if c.start then { s.ctrl with szLimit := 1 } else s.ctrl).szLimit = _
      rw [hc]; rfl
    | true =>
      right; right
      refine ⟨rfl, ?_, rfl, orders s c n, rfl, ?_⟩
      · show (if c.start then { s.ctrl with szLimit := 1 } else s.ctrl).szLimit = _
        rw [hc]; rfl
      · intro e he
        rcases mem_orders he with ⟨b, _, rfl⟩ | ⟨b, _, q, _, rfl⟩ <;> trivial

theorem szInv_less {cfg : Cfg} {s : St} {k j : Nat} (h : SzInv cfg s k) (hj : j ≤ k) :
    SzInv cfg s j := ⟨by have := h.count; omega, h.big⟩

theorem szInv_run {cfg : Cfg} {s : St} (h : SzInv cfg s 0) (c : RunCmd) (p : Bool) (n : Nat) :
    SzInv cfg (step cfg s (.run c p n)) 0 := by
  unfold step
  simp only [act]
  cases hc : c.start with
  | false =>
    have h1 := szInv_got h (.run c p n) (by intro c' p' n' e; cases e; exact hc)
    rcases szExec (s.emit (.got (.run c p n))) c p n c.id with k | ⟨k, _⟩ | ⟨k, _⟩
    · exact szInv_keeps h1 k
    · rw [k.1] at hc; cases hc
    · rw [k] at hc; cases hc
  | true =>
    have h1 := szInv_gotStart h c p n hc
    generalize s.emit (.got (.run c p n)) = s1 at h1
    rcases szExec s1 c p n c.id with k | ⟨_, k1, es, k2, k3⟩ | ⟨_, k1, k4, es, k2, k3⟩
    · exact szInv_less (szInv_keeps h1 k) (by omega)
    · refine ⟨?_, ?_⟩
      · rw [k2, autoStarts_append, startsReceived_append,
          autoStarts_count es (fun e he => szQuiet_count (k3 e he)),
          startsReceived_count es (fun e he => szQuiet_count (k3 e he)), k1]
        have := h1.count
        have b := occ_le ((St.reply (execRun s1 c p n) c.id).initCmd)
        omega
      · intro hb; rw [k2]; exact tooBig_quiet (h1.big (by rw [← k1]; exact hb)) k3
    · refine ⟨?_, by intro hb; rw [k1] at hb; omega⟩
      rw [k2, autoStarts_append, startsReceived_append, autoStarts_count es k3,
        startsReceived_count es k3, k4]
      have := h1.count
      have b := nz_le ((St.reply (execRun s1 c p n) c.id).ctrl.szLimit)
      omega

theorem szInv_checkInit {cfg : Cfg} {s : St} (h : SzInv cfg s 0) (bs : List String) (p : Bool)
    (n : Nat) : SzInv cfg (checkInit s bs p n) 0 := by
  by_cases hb : s.lastBuilders ≠ [] ∧ s.lastBuilders = bs
  · cases hi : s.initCmd with
    | none =>
      rw [checkInit_none s bs p n hb hi]
      exact szInv_keeps h ⟨rfl, .inl rfl, [], by simp, by simp⟩
    | some w =>
      rw [checkInit_some s bs p n w hb hi]
      have h1 : SzInv cfg ({ s with same := s.same + 1 } : St) 0 :=
        szInv_keeps h ⟨rfl, .inl rfl, [], by simp, by simp⟩
      rcases szExec ({ s with same := s.same + 1 } : St) { w with verified := true } p n w.id with
        k | ⟨k, _⟩ | ⟨_, k1, k4, es, k2, k3⟩
      · exact szInv_keeps (szInv_keeps h1 k) ⟨rfl, .inr rfl, [], by simp, by simp⟩
      · exact absurd k.2.2 (by simp)
      · refine ⟨?_, ?_⟩
        · show autoStarts (St.reply _ _).log + nz (St.reply _ _).ctrl.szLimit +
            occ none + 0 ≤ startsReceived (St.reply _ _).log
          rw [k2, autoStarts_append, startsReceived_append, autoStarts_count es k3,
            startsReceived_count es k3]
          have c1 := h.count
          rw [hi] at c1
          have b1 := occ_some w
          have b2 := occ_none
          have b3 := nz_le ((St.reply (execRun ({ s with same := s.same + 1 } : St)
            { w with verified := true } p n) w.id).ctrl.szLimit)
          show autoStarts s.log + 0 + _ + _ + 0 ≤ startsReceived s.log + 0
          omega
        · intro hh
          have hh : 1 < (St.reply (execRun ({ s with same := s.same + 1 } : St)
            { w with verified := true } p n) w.id).ctrl.szLimit := hh
          rw [k1] at hh; omega
  · rw [checkInit_diff s bs p n hb]
    exact szInv_keeps h ⟨rfl, .inl rfl, [], by simp, by simp⟩

theorem cycleStart_sz (s : St) (bs is : List String) (k : Nat) :
    (cycleStart s bs is k).szLimit = s.ctrl.szLimit := by
  unfold cycleStart
  split
  · rfl
  split
  · rfl
  split
  · rfl
  split <;> rfl

theorem szInv_names {cfg : Cfg} {s : St} (h : SzInv cfg s 0) (items : List NameItem) (o p : Bool)
    (n : Nat) : SzInv cfg (step cfg s (.names items o p n)) 0 := by
  have h1 := szInv_checkInit (szInv_got h (.names items o p n) (by intro _ _ _ e; cases e))
    ((collect "receiver" items).map Prod.fst) p n
  unfold step
  simp only [act]
  unfold namesReply
  dsimp only
  generalize checkInit (s.emit (.got (.names items o p n)))
      ((collect "receiver" items).map Prod.fst) p n = t at h1
  have h2 : SzInv cfg ({ t with
      lastBuilders := (collect "receiver" items).map Prod.fst,
      builders := (collect "receiver" items).map Prod.fst,
      inputs := (collect "sender" items).map Prod.fst } : St) 0 :=
    szInv_keeps h1 ⟨rfl, .inl rfl, [], by simp, by simp⟩
  split
  · exact h2
  · refine szInv_keeps h2 ?_
    obtain ⟨k, _, _, _, f4, es, hl, hes⟩ := newCycle_facts ({ t with
      lastBuilders := (collect "receiver" items).map Prod.fst,
      builders := (collect "receiver" items).map Prod.fst,
      inputs := (collect "sender" items).map Prod.fst } : St)
      ((collect "receiver" items).map Prod.fst) ((collect "sender" items).map Prod.fst)
    obtain ⟨_, _, _, _, _, _, _, k8, _⟩ := newCycle_keeps ({ t with
      lastBuilders := (collect "receiver" items).map Prod.fst,
      builders := (collect "receiver" items).map Prod.fst,
      inputs := (collect "sender" items).map Prod.fst } : St)
      ((collect "receiver" items).map Prod.fst) ((collect "sender" items).map Prod.fst)
    refine ⟨by rw [f4, cycleStart_sz], .inl k8, _, hl.trans (List.append_assoc _ _ _), ?_⟩
    intro e he
    rcases List.mem_append.1 he with he | he
    · rcases mem_requests he with ⟨b, _, rfl⟩ | ⟨b, _, rfl⟩ <;> trivial
    · obtain ⟨q, rfl, _⟩ := hes e he; trivial

/-- A builder whose file is too big. -/
def BigRep (cfg : Cfg) (r : Rep) : Prop :=
  r.1 = true ∧ r.2.1 = true ∧ 0 < cfg.maxRunSize ∧ cfg.maxRunSize * 1000000 < r.2.2.runsize

theorem report_sz (cfg : Cfg) (c : Ctrl) (r : Rep) :
    (report cfg c r).szLimit = c.szLimit ∨
    ((report cfg c r).szLimit = 2 ∧ 0 < c.szLimit ∧ BigRep cfg r) := by
  obtain ⟨over, isB, i⟩ := r
  cases isB with
  | false =>
    left
    rw [report_inp]
    obtain ⟨_, _, _, _, _, i6, _⟩ := inpItem_keeps (inpPre c i) i
    rw [i6]
    exact (worst_keeps { c with inpCnt := c.inpCnt + 1 } i).2.2.2.2.2.2
  | true =>
    rw [report_bld]
    obtain ⟨_, _, _, _, _, i6, _⟩ := bldInputs_keeps (bldRun over (bldPre cfg over c i) i) i
    obtain ⟨_, _, _, _, r5⟩ := bldRun_keeps over (bldPre cfg over c i) i
    rw [i6, r5]
    have hw := (worst_keeps { c with bldCnt := c.bldCnt + 1 } i).2.2.2.2.2.2
    unfold bldPre bldSize
    split
    · rename_i hh
      right
      simp only [Bool.and_eq_true, decide_eq_true_eq] at hh
      exact ⟨rfl, by rw [← show (worst { c with bldCnt := c.bldCnt + 1 } i).szLimit = c.szLimit from hw]; exact hh.1.1.2, hh.1.1.1, rfl, hh.1.2, hh.2⟩
    · exact .inl hw

theorem reports_sz (cfg : Cfg) (l : List Rep) : ∀ c : Ctrl,
    (l.foldl (report cfg) c).szLimit = c.szLimit ∨
    (0 < c.szLimit ∧ 0 < (l.foldl (report cfg) c).szLimit ∧ ∃ r ∈ l, BigRep cfg r) := by
  induction l with
  | nil => intro c; exact .inl rfl
  | cons r l ih =>
    intro c
    rw [List.foldl_cons]
    rcases ih (report cfg c r) with h | ⟨h1, h2, x, hx, hb⟩
    · rcases report_sz cfg c r with k | ⟨k1, k2, k3⟩
      · left; rw [h, k]
      · right; exact ⟨k2, by rw [h, k1]; omega, r, by simp, k3⟩
    · rcases report_sz cfg c r with k | ⟨k1, k2, k3⟩
      · right; exact ⟨by rw [← k]; exact h1, h2, x, by simp [hx], hb⟩
      · right; exact ⟨k2, h2, x, by simp [hx], hb⟩

theorem tooBig_got {cfg : Cfg} {l : List Ev} {id : Nat} {ok : Bool} {items : List CtrlItem}
    {over : Bool} {r : Rep} (hr : r ∈ (roles false items).map (fun p => (over, p.1, p.2)))
    (hb : BigRep cfg r) : TooBig cfg (l ++ [.got (.ctrlReply id ok items over)]) := by
  obtain ⟨⟨b, i⟩, hm, rfl⟩ := List.mem_map.1 hr
  obtain ⟨h1, h2, h3, h4⟩ := hb
  simp only at h1 h2 h3 h4
  subst h1
  subst h2
  exact ⟨l, id, ok, items, [], i, rfl, hm, h3, h4, by simp, by simp⟩

theorem ctrlItems_big {cfg : Cfg} {s : St} (h : SzInv cfg s 0) (id : Nat) (ok : Bool)
    (items : List CtrlItem) (over : Bool) :
    nz (ctrlItems cfg over s.ctrl false items).szLimit ≤ nz s.ctrl.szLimit ∧
    (1 < (ctrlItems cfg over s.ctrl false items).szLimit →
      TooBig cfg (s.log ++ [.got (.ctrlReply id ok items over)])) := by
  rw [ctrlItems_eq]
  rcases reports_sz cfg ((roles false items).map (fun p => (over, p.1, p.2))) s.ctrl with
    k | ⟨k1, k2, r, hr, hb⟩
  · rw [k]
    refine ⟨Nat.le_refl _, fun hh => ?_⟩
    exact tooBig_append (es := [Ev.got (.ctrlReply id ok items over)]) (h.big hh) (by simp) (by simp)
  · rw [nz_pos k1, nz_pos k2]
    exact ⟨Nat.le_refl _, fun _ => tooBig_got hr hb⟩

theorem szInv_ctrlReply {cfg : Cfg} {s : St} (h : SzInv cfg s 0) (id : Nat) (ok : Bool)
    (items : List CtrlItem) (over : Bool) :
    SzInv cfg (step cfg s (.ctrlReply id ok items over)) 0 ∧
    (∀ es, (step cfg s (.ctrlReply id ok items over)).log =
      s.log ++ .got (.ctrlReply id ok items over) :: es → Ev.autoStart ∈ es →
      cfg.control = true ∧ s.cur = none ∧
      TooBig cfg (s.log ++ [.got (.ctrlReply id ok items over)])) := by
  have hg := szInv_got h (.ctrlReply id ok items over) (by intro _ _ _ e; cases e)
  obtain ⟨b1, b2⟩ := ctrlItems_big h id ok items over
  have hc := hg.count
  simp only [St.emit] at hc
  have hsz := (cycleEnd_keeps (ctrlItems cfg over s.ctrl false items)).2.2.2.2.2.2
  have base : ∀ fs es, (step cfg s (.ctrlReply id ok items over)).log =
      (s.emit (.got (.ctrlReply id ok items over))).log ++ fs →
      (step cfg s (.ctrlReply id ok items over)).log =
        s.log ++ .got (.ctrlReply id ok items over) :: es → es = fs := by
    intro fs es hf hl
    have : (s.log ++ [Ev.got (.ctrlReply id ok items over)]) ++ es =
        (s.log ++ [Ev.got (.ctrlReply id ok items over)]) ++ fs := by
      rw [← show (step cfg s (.ctrlReply id ok items over)).log =
        (s.log ++ [Ev.got (.ctrlReply id ok items over)]) ++ fs from hf, hl]; simp
    exact List.append_cancel_left this
  unfold step at base ⊢
  simp only [act] at base ⊢
  rcases ctrlReply_cases cfg (s.emit (.got (.ctrlReply id ok items over))) id ok items over with
    ⟨_, e⟩ | ⟨_, _, e⟩ | ⟨_, _, _, e⟩ | ⟨_, _, c1, c2, c3, e⟩ <;> rw [e] at base ⊢
  · refine ⟨hg, fun es hl hm => ?_⟩
    rw [base [] es (by simp) hl] at hm
    cases hm
  · refine ⟨⟨?_, b2⟩, fun es hl hm => ?_⟩
    · simp only [St.emit]; omega
    · rw [base [] es (by simp) hl] at hm
      cases hm
  · refine ⟨⟨?_, ?_⟩, fun es hl hm => ?_⟩
    · simp only [St.emit]
      rw [hsz, autoStarts_append _ [Ev.shown _ _ _], startsReceived_append _ [Ev.shown _ _ _]]
      rw [autoStarts_count [Ev.shown _ _ _] (by
        intro e he; simp only [List.mem_singleton] at he; subst he; trivial),
        startsReceived_count [Ev.shown _ _ _] (by
        intro e he; simp only [List.mem_singleton] at he; subst he; trivial)]
      omega
    · intro hh
      simp only [St.emit] at hh ⊢
      rw [hsz] at hh
      exact tooBig_quiet (b2 hh) (by
        intro e he; simp only [List.mem_singleton] at he; subst he; trivial)
    · rw [base _ es rfl hl] at hm
      simp at hm
  · have c2 : 1 < (cycleEnd (ctrlItems cfg over s.ctrl false items)).szLimit := c2
    rw [hsz] at c2
    have hpos : nz s.ctrl.szLimit = 1 := by
      have x := nz_pos (n := (ctrlItems cfg over s.ctrl false items).szLimit) (by omega)
      have y := nz_le (s.ctrl.szLimit)
      omega
    refine ⟨⟨?_, ?_⟩, fun es hl hm => ⟨c1, c3, b2 c2⟩⟩
    · simp only [St.emit]
      rw [show ∀ a b : Ev, (s.log ++ [Ev.got (.ctrlReply id ok items over)]) ++ [a, b] =
        (s.log ++ [Ev.got (.ctrlReply id ok items over)]) ++ ([a] ++ [b]) from fun _ _ => rfl,
        autoStarts_append, startsReceived_append, autoStarts_append [_], startsReceived_append [_]]
      rw [autoStarts_count [Ev.shown _ _ _] (by
        intro e he; simp only [List.mem_singleton] at he; subst he; trivial),
        startsReceived_count [Ev.shown _ _ _] (by
        intro e he; simp only [List.mem_singleton] at he; subst he; trivial)]
      have e1 : autoStarts [Ev.autoStart] = 1 := rfl
      have e2 : startsReceived [Ev.autoStart] = 0 := rfl
      have e3 : nz 0 = 0 := rfl
      rw [e1, e2, e3]
      omega
    · intro hh
      simp only at hh
      omega

theorem szInv_step {cfg : Cfg} {s : St} (h : SzInv cfg s 0) (op : Op) :
    SzInv cfg (step cfg s op) 0 := by
  cases op with
  | run c p n => exact szInv_run h c p n
  | names items o p n => exact szInv_names h items o p n
  | ctrlReply id ok items over => exact (szInv_ctrlReply h id ok items over).1
  | refresh j p =>
    have h1 := szInv_got h (.refresh j p) (by intro _ _ _ e; cases e)
    refine szInv_keeps h1 (t := step cfg s (.refresh j p)) ?_
    show SzKeeps _ (St.reply (execRefresh (s.emit (.got (.refresh j p))) j p) j)
    generalize s.emit (.got (.refresh j p)) = s1
    unfold execRefresh
    split
    · exact szKeeps_emit _ _ trivial
    split
    · exact szKeeps_emit _ _ trivial
    · refine ⟨rfl, .inl rfl, s1.inputs.map (fun b => Ev.refreshOrder j (s1.refreshCnt + 1) b), rfl, ?_⟩
      intro e he
      obtain ⟨b, _, rfl⟩ := List.mem_map.1 he
      trivial
  | reset j p =>
    have h1 := szInv_got h (.reset j p) (by intro _ _ _ e; cases e)
    refine szInv_keeps h1 (t := step cfg s (.reset j p)) ?_
    show SzKeeps _ (St.reply (execReset (s.emit (.got (.reset j p))) p) j)
    generalize s.emit (.got (.reset j p)) = s1
    unfold execReset
    split
    · exact szKeeps_emit _ _ trivial
    · refine ⟨rfl, .inl rfl, (s1.inputs.map Ev.drop ++ s1.builders.map Ev.drop) ++ [Ev.answer j true],
        by simp [St.reply, St.emit, St.emits], ?_⟩
      intro e he
      simp only [List.mem_append, List.mem_map, List.mem_singleton] at he
      rcases he with (⟨b, _, rfl⟩ | ⟨b, _, rfl⟩) | rfl <;> trivial
  | other j =>
    have h1 := szInv_got h (.other j) (by intro _ _ _ e; cases e)
    exact szInv_keeps h1 (szKeeps_emit _ (.answer j true) trivial)
  | subReply cnt ok q =>
    have h1 := szInv_got h (.subReply cnt ok q) (by intro _ _ _ e; cases e)
    refine szInv_keeps h1 (t := step cfg s (.subReply cnt ok q)) ?_
    show SzKeeps _ (subReply (s.emit (.got (.subReply cnt ok q))) cnt q)
    generalize s.emit (.got (.subReply cnt ok q)) = s1
    unfold subReply
    split
    · exact szKeeps_refl _
    · split
      · dsimp only
        split
        · split
          · exact ⟨rfl, .inl rfl, [_, _], List.append_assoc _ _ _, by
              intro e he
              simp only [List.mem_cons, List.not_mem_nil, or_false] at he
              rcases he with rfl | rfl <;> trivial⟩
          · exact ⟨rfl, .inl rfl, [_], rfl, by
              intro e he
              simp only [List.mem_singleton] at he
              subst he; trivial⟩
        · exact ⟨rfl, .inl rfl, [], by simp, by simp⟩
      · exact szKeeps_refl _
  | refreshReply cnt ok q =>
    have h1 := szInv_got h (.refreshReply cnt ok q) (by intro _ _ _ e; cases e)
    refine szInv_keeps h1 (t := step cfg s (.refreshReply cnt ok q)) ?_
    show SzKeeps _ (refreshReply (s.emit (.got (.refreshReply cnt ok q))) cnt q)
    generalize s.emit (.got (.refreshReply cnt ok q)) = s1
    rcases refreshReply_cases s1 cnt q with ⟨e, _⟩ | ⟨id, q0, _, _, _, e⟩ | ⟨id, q0, _, _, _, e⟩ <;>
      rw [e]
    · exact szKeeps_refl _
    · exact ⟨rfl, .inl rfl, [_, _], rfl, by
        intro e he
        simp only [List.mem_cons, List.not_mem_nil, or_false] at he
        rcases he with rfl | rfl <;> trivial⟩
    · exact ⟨rfl, .inl rfl, [], by simp, by simp⟩
  | timer a b =>
    have h1 := szInv_got h (.timer a b) (by intro _ _ _ e; cases e)
    simp only [step, act]
    rw [timer_eq]
    have h2 : SzInv cfg (timerCur (s.emit (.got (.timer a b))) a) 0 := by
      refine szInv_keeps h1 ?_
      generalize s.emit (.got (.timer a b)) = s1
      unfold timerCur
      split
      · split
        · exact ⟨rfl, .inl rfl, [_], rfl, by
            intro e he
            simp only [List.mem_singleton] at he
            subst he; trivial⟩
        · exact szKeeps_refl _
      · exact szKeeps_refl _
    refine szInv_keeps h2 ?_
    generalize timerCur (s.emit (.got (.timer a b))) a = t
    unfold timerInit
    split
    · split
      · exact ⟨rfl, .inr rfl, [_], rfl, by
          intro e he
          simp only [List.mem_singleton] at he
          subst he; trivial⟩
      · exact szKeeps_refl _
    · exact szKeeps_refl _

theorem szInv_reach {cfg : Cfg} {s : St} (h : Reach cfg s) : SzInv cfg s 0 := by
  induction h with
  | init k => exact ⟨Nat.le_refl 0, fun hh => absurd (show 1 < 0 from hh) (by omega)⟩
  | step s op _ _ ih => exact szInv_step ih op

end Verif.BnetMaster
