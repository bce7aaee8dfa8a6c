import Verif.BnetMasterInv

/-!
# Lemmas about the master of a builder network: refreshes, and why a command is answered
-/

namespace Verif.BnetMaster

open Spec

structure RefCur (s : St) (id : Nat) (q : Rat) : Prop where
  replies : s.refreshReplies = (s.log.countP (isRefreshOrder s.refreshCnt) : Int) -
    s.log.countP (isRefreshReply s.refreshCnt)
  own : ∀ i n, Ev.refreshOrder i s.refreshCnt n ∈ s.log → i = id
  quality : IsMin q (refreshQualities s.refreshCnt s.log)

/-- What is true about refreshes in every state. -/
structure RefInv (s : St) : Prop where
  late : ∀ i cnt n, Ev.refreshOrder i cnt n ∈ s.log → cnt ≤ s.refreshCnt
  once : ∀ cnt, s.log.countP (isRefreshReply cnt) ≤ s.log.countP (isRefreshOrder cnt)
  cur : ∀ id q, s.refreshCmd = some (id, q) → RefCur s id q

theorem refInv_congr {s t : St} (h : RefInv s) (hcur : t.refreshCmd = s.refreshCmd ∨
      t.refreshCmd = none) (hc : t.refreshCnt = s.refreshCnt)
    (hr : t.refreshReplies = s.refreshReplies)
    (hl : ∃ es, t.log = s.log ++ es ∧ ∀ e ∈ es, RefQuiet e) : RefInv t := by
  obtain ⟨es, hl, hes⟩ := hl
  have c1 : ∀ cnt, t.log.countP (isRefreshOrder cnt) = s.log.countP (isRefreshOrder cnt) :=
    fun cnt => by rw [hl]; exact countP_quiet _ _ (fun e he => quiet_refOrder (hes e he) cnt)
  have c2 : ∀ cnt, t.log.countP (isRefreshReply cnt) = s.log.countP (isRefreshReply cnt) :=
    fun cnt => by rw [hl]; exact countP_quiet _ _ (fun e he => quiet_refReply (hes e he) cnt)
  have c3 : ∀ {i cnt : Nat} {n : String},
      Ev.refreshOrder i cnt n ∈ t.log → Ev.refreshOrder i cnt n ∈ s.log := by
    intro i cnt n hmem; rw [hl] at hmem
    rcases List.mem_append.1 hmem with h1 | h1
    · exact h1
    · exact (hes _ h1).elim
  refine ⟨?_, ?_, ?_⟩
  · intro i cnt n hm; rw [hc]; exact h.late i cnt n (c3 hm)
  · intro cnt; rw [c1, c2]; exact h.once cnt
  · intro id q hq
    rcases hcur with hcur | hcur
    · have hs := h.cur id q (by rw [← hcur]; exact hq)
      refine ⟨?_, ?_, ?_⟩
      · rw [hr, hc, c1, c2]; exact hs.replies
      · intro i n hm; rw [hc] at hm; exact hs.own i n (c3 hm)
      · rw [hc, hl, refreshQualities_quiet _ _ _ hes]; exact hs.quality
    · rw [hcur] at hq; cases hq

theorem refInv_init (k : Nat) : RefInv (St.init k) where
  late := by intro i cnt n h; cases h
  once := by intro cnt; exact Nat.le_refl _
  cur := by intro id q h; cases h

theorem refInv_emits {s : St} (h : RefInv s) (es : List Ev) (hes : ∀ e ∈ es, RefQuiet e) :
    RefInv (s.emits es) :=
  refInv_congr h (.inl rfl) rfl rfl ⟨es, rfl, hes⟩

theorem refInv_emit {s : St} (h : RefInv s) (e : Ev) (he : RefQuiet e) : RefInv (s.emit e) :=
  refInv_emits h [e] (by simpa using he)

/-- Events of a run command. -/
theorem execRun_log (s : St) (c : RunCmd) (p : Bool) (n j : Nat) :
    let t := St.reply (execRun s c p n) j
    t.refreshCmd = s.refreshCmd ∧ t.refreshCnt = s.refreshCnt ∧
    t.refreshReplies = s.refreshReplies ∧
    ∃ es, t.log = s.log ++ es ∧ (∀ e ∈ es, RefQuiet e) ∧
      ∀ i b, Ev.answer i b ∈ es →
        (i = j ∧ b = false ∧ ((∃ d, s.cur = some d) ∨ p = false)) ∨
        (i = j ∧ b = true ∧ s.builders = []) ∨
        (b = false ∧ Parks c ∧ ∃ w, s.initCmd = some w ∧ i = w.id) := by
  rcases execRun_cases s c p n with ⟨h1, e⟩ | ⟨_, h2, e⟩ | ⟨_, _, hb, e⟩ | ⟨_, _, _, hp, e⟩ |
    ⟨_, _, hb, _, e⟩ <;> rw [e]
  · refine ⟨rfl, rfl, rfl, [.answer j false], rfl, by simp [RefQuiet], ?_⟩
    intro i b hm
    simp only [List.mem_singleton] at hm; cases hm
    exact .inl ⟨rfl, rfl, .inl (Option.isSome_iff_exists.1 h1)⟩
  · dsimp only [St.reply]
    unfold parked
    cases hi : s.initCmd with
    | none => exact ⟨rfl, rfl, rfl, [], by simp, by simp, by simp⟩
    | some w =>
      refine ⟨rfl, rfl, rfl, [.answer w.id false], rfl, by simp [RefQuiet], ?_⟩
      intro i b hm
      simp only [List.mem_singleton] at hm; cases hm
      exact .inr (.inr ⟨rfl, h2, w, rfl, rfl⟩)
  · refine ⟨rfl, rfl, rfl, [.answer j true], rfl, by simp [RefQuiet], ?_⟩
    intro i b hm
    simp only [List.mem_singleton] at hm; cases hm
    exact .inr (.inl ⟨rfl, rfl, hb⟩)
  · refine ⟨rfl, rfl, rfl, [.answer j false], rfl, by simp [RefQuiet], ?_⟩
    intro i b hm
    simp only [List.mem_singleton] at hm; cases hm
    exact .inl ⟨rfl, rfl, .inr hp⟩
  · refine ⟨rfl, rfl, rfl, orders s c n, rfl, ?_, ?_⟩
    · intro e he
      rcases mem_orders he with ⟨_, _, rfl⟩ | ⟨_, _, _, _, rfl⟩ <;> trivial
    · intro i b hm
      rcases mem_orders hm with ⟨_, _, h⟩ | ⟨_, _, _, _, h⟩ <;> cases h

theorem checkInit_log (s : St) (bs : List String) (p : Bool) (n : Nat)
    (hn : s.builders = s.lastBuilders) :
    let t := checkInit s bs p n
    t.refreshCmd = s.refreshCmd ∧ t.refreshCnt = s.refreshCnt ∧
    t.refreshReplies = s.refreshReplies ∧
    ∃ es, t.log = s.log ++ es ∧ (∀ e ∈ es, RefQuiet e) ∧
      ∀ i b, Ev.answer i b ∈ es → b = false ∧
        ∃ w, s.initCmd = some w ∧ i = w.id ∧ (s.cur ≠ none ∨ p = false) := by
  by_cases hb : s.lastBuilders ≠ [] ∧ s.lastBuilders = bs
  · cases hi : s.initCmd with
    | none =>
      rw [checkInit_none s bs p n hb hi]
      exact ⟨rfl, rfl, rfl, [], by simp, by simp, by simp⟩
    | some w =>
      rw [checkInit_some s bs p n w hb hi]
      obtain ⟨k1, k2, k3, es, e1, e2, e3⟩ := execRun_log ({ s with same := s.same + 1 } : St)
        { w with verified := true } p n w.id
      refine ⟨k1, k2, k3, es, e1, e2, ?_⟩
      intro i b hm
      rcases e3 i b hm with ⟨r1, r2, r3⟩ | ⟨_, _, r3⟩ | ⟨_, r2, _⟩
      · refine ⟨r2, w, rfl, r1, ?_⟩
        rcases r3 with ⟨d, hd⟩ | hp
        · left
          have hd : s.cur = some d := hd
          rw [hd]; exact Option.some_ne_none _
        · exact .inr hp
      · exact absurd (hn.symm.trans r3) hb.1
      · cases r2.2.2
  · rw [checkInit_diff s bs p n hb]
    exact ⟨rfl, rfl, rfl, [], by simp, by simp, by simp⟩

/-- No answers in a new cycle. -/
theorem newCycle_answers (s : St) (bs is : List String) :
    ∃ es, (newCycle s bs is).log = s.log ++ es ∧ ∀ i b, Ev.answer i b ∉ es := by
  unfold newCycle
  dsimp only
  generalize (if (s.ctrlError || decide (0 < s.ctrlCnt)) = true then s.ctrlErrorCnt + 1 else 0) = k
  split
  · refine ⟨(bs.map (fun b => Ev.ctrlOrder (s.ctrlId + 1) true b) ++
      is.map (fun b => Ev.ctrlOrder (s.ctrlId + 1) false b)) ++ [_],
      List.append_assoc _ _ _, ?_⟩
    intro i b; simp
  · refine ⟨_, rfl, ?_⟩
    intro i b; simp

theorem namesReply_log (s : St) (items : List NameItem) (o p : Bool) (n : Nat)
    (hn : s.builders = s.lastBuilders) :
    let t := namesReply s items o p n
    t.refreshCmd = s.refreshCmd ∧ t.refreshCnt = s.refreshCnt ∧
    t.refreshReplies = s.refreshReplies ∧
    ∃ es, t.log = s.log ++ es ∧ (∀ e ∈ es, RefQuiet e) ∧
      ∀ i b, Ev.answer i b ∈ es → b = false ∧
        ∃ w, s.initCmd = some w ∧ i = w.id ∧ (s.cur ≠ none ∨ p = false) := by
  unfold namesReply
  obtain ⟨k1, k2, k3, es, e1, e2, e3⟩ := checkInit_log s
    ((collect "receiver" items).map Prod.fst) p n hn
  dsimp only
  split
  · exact ⟨k1, k2, k3, es, e1, e2, e3⟩
  · generalize checkInit s ((collect "receiver" items).map Prod.fst) p n = t at k1 k2 k3 e1
    generalize ht' : ({ t with
      lastBuilders := (collect "receiver" items).map Prod.fst,
      builders := (collect "receiver" items).map Prod.fst,
      inputs := (collect "sender" items).map Prod.fst } : St) = t'
    have ht : t'.refreshCmd = t.refreshCmd ∧ t'.refreshCnt = t.refreshCnt ∧
      t'.refreshReplies = t.refreshReplies ∧ t'.log = t.log := by
      rw [← ht']; exact ⟨rfl, rfl, rfl, rfl⟩
    obtain ⟨fs, f1, f2⟩ := newCycle_answers t'
      ((collect "receiver" items).map Prod.fst) ((collect "sender" items).map Prod.fst)
    obtain ⟨gs, g1, _, g3⟩ := newCycle_log t'
      ((collect "receiver" items).map Prod.fst) ((collect "sender" items).map Prod.fst)
    obtain ⟨_, _, _, _, _, _, _, _, r1, r2, r3, _⟩ := newCycle_keeps t'
      ((collect "receiver" items).map Prod.fst) ((collect "sender" items).map Prod.fst)
    have hfg : fs = gs := List.append_cancel_left (f1.symm.trans g1)
    subst hfg
    refine ⟨by rw [r1, ht.1, k1], by rw [r2, ht.2.1, k2], by rw [r3, ht.2.2.1, k3], es ++ fs, ?_, ?_, ?_⟩
    · rw [f1, ht.2.2.2, e1, List.append_assoc]
    · intro e he
      rcases List.mem_append.1 he with he | he
      · exact e2 e he
      · exact g3 e he
    · intro i b he
      rcases List.mem_append.1 he with he | he
      · exact e3 i b he
      · exact absurd he (f2 i b)

theorem timer_log (s : St) (a b : Bool) :
    (timer s a b).refreshCmd = s.refreshCmd ∧ (timer s a b).refreshCnt = s.refreshCnt ∧
    (timer s a b).refreshReplies = s.refreshReplies ∧
    ∃ es, (timer s a b).log = s.log ++ es ∧ (∀ e ∈ es, RefQuiet e) ∧
      ∀ i r, Ev.answer i r ∈ es → r = false ∧
        ((a = true ∧ ∃ c, s.cur = some c ∧ i = c.id) ∨
         (b = true ∧ ∃ w, s.initCmd = some w ∧ i = w.id)) := by
  rw [timer_eq]
  have h1 : (timerCur s a).refreshCmd = s.refreshCmd ∧ (timerCur s a).refreshCnt = s.refreshCnt ∧
      (timerCur s a).refreshReplies = s.refreshReplies ∧ (timerCur s a).initCmd = s.initCmd ∧
      ∃ es, (timerCur s a).log = s.log ++ es ∧ (∀ e ∈ es, RefQuiet e) ∧
        ∀ i r, Ev.answer i r ∈ es → r = false ∧ a = true ∧ ∃ c, s.cur = some c ∧ i = c.id := by
    unfold timerCur
    split
    · rename_i c hc
      split
      · rename_i ha
        refine ⟨rfl, rfl, rfl, rfl, [_], rfl, by simp [RefQuiet], ?_⟩
        intro i r hm
        simp only [List.mem_singleton] at hm; cases hm
        exact ⟨rfl, ha, c, hc, rfl⟩
      · exact ⟨rfl, rfl, rfl, rfl, [], by simp, by simp, by simp⟩
    · exact ⟨rfl, rfl, rfl, rfl, [], by simp, by simp, by simp⟩
  obtain ⟨k1, k2, k3, k4, es, e1, e2, e3⟩ := h1
  generalize timerCur s a = t at k1 k2 k3 k4 e1
  have old : ∀ i r, Ev.answer i r ∈ es → r = false ∧
        ((a = true ∧ ∃ c, s.cur = some c ∧ i = c.id) ∨
         (b = true ∧ ∃ w, s.initCmd = some w ∧ i = w.id)) := by
    intro i r hm
    obtain ⟨x, y, z⟩ := e3 i r hm
    exact ⟨x, .inl ⟨y, z⟩⟩
  unfold timerInit
  split
  · rename_i w hw
    split
    · rename_i hb
      refine ⟨k1, k2, k3, es ++ [.answer w.id false], ?_, ?_, ?_⟩
      · rw [← List.append_assoc, ← e1]; rfl
      · intro e he
        rcases List.mem_append.1 he with he | he
        · exact e2 e he
        · simp only [List.mem_singleton] at he; subst he; trivial
      · intro i r hm
        rcases List.mem_append.1 hm with hm | hm
        · exact old i r hm
        · simp only [List.mem_singleton] at hm; cases hm
          exact ⟨rfl, .inr ⟨hb, w, by rw [← k4]; exact hw, rfl⟩⟩
    · exact ⟨k1, k2, k3, es, e1, e2, old⟩
  · exact ⟨k1, k2, k3, es, e1, e2, old⟩

theorem subReply_log (s : St) (cnt : Nat) (q : Option Rat) :
    (subReply s cnt q).refreshCmd = s.refreshCmd ∧
    (subReply s cnt q).refreshCnt = s.refreshCnt ∧
    (subReply s cnt q).refreshReplies = s.refreshReplies ∧
    ∃ es, (subReply s cnt q).log = s.log ++ es ∧ (∀ e ∈ es, RefQuiet e) ∧
      ∀ i r, Ev.answer i r ∈ es → r = true ∧ cnt = s.cmdCnt ∧ s.replies - 1 ≤ 0 ∧
        ∃ c, s.cur = some c ∧ i = c.id := by
  unfold subReply
  split
  · exact ⟨rfl, rfl, rfl, [], by simp, by simp, by simp⟩
  · rename_i c hc
    split
    · rename_i hcnt
      dsimp only
      split
      · rename_i hr
        have key : ∀ i r, (i = c.id ∧ r = true) → r = true ∧ cnt = s.cmdCnt ∧
            s.replies - 1 ≤ 0 ∧ ∃ c, s.cur = some c ∧ i = c.id := by
          intro i r h; exact ⟨h.2, hcnt, hr, c, hc, h.1⟩
        split
        · refine ⟨rfl, rfl, rfl, [_, _], List.append_assoc _ [_] [_], by simp [RefQuiet], ?_⟩
          intro i r hm
          simp only [List.mem_cons, List.not_mem_nil, or_false] at hm
          rcases hm with hm | hm <;> cases hm
          exact key _ _ ⟨rfl, rfl⟩
        · refine ⟨rfl, rfl, rfl, [_], rfl, by simp [RefQuiet], ?_⟩
          intro i r hm
          simp only [List.mem_singleton] at hm; cases hm
          exact key _ _ ⟨rfl, rfl⟩
      · exact ⟨rfl, rfl, rfl, [], by simp, by simp, by simp⟩
    · exact ⟨rfl, rfl, rfl, [], by simp, by simp, by simp⟩

theorem noRefOrder_count {l : List Ev} {cnt k : Nat}
    (h : ∀ i c n, Ev.refreshOrder i c n ∈ l → c ≤ k)
    (hk : k < cnt) : l.countP (isRefreshOrder cnt) = 0 := by
  rw [List.countP_eq_zero]
  intro e he
  cases e with
  | refreshOrder i c n =>
    have := h i c n he
    simp only [isRefreshOrder, beq_iff_eq]; omega
  | _ => simp [isRefreshOrder]

theorem refInv_execRefresh {s : St} (h : RefInv s) (j : Nat) (p : Bool) :
    RefInv (St.reply (execRefresh s j p) j) := by
  unfold execRefresh
  split
  · exact refInv_emit h _ trivial
  split
  · exact refInv_emit h _ trivial
  · have z1 := noRefOrder_count (cnt := s.refreshCnt + 1) h.late (by omega)
    have z2 : s.log.countP (isRefreshReply (s.refreshCnt + 1)) = 0 := by
      have := h.once (s.refreshCnt + 1); omega
    have r0 : ∀ cnt, (s.inputs.map (fun b => Ev.refreshOrder j (s.refreshCnt + 1) b)).countP
        (isRefreshReply cnt) = 0 := by
      intro cnt
      rw [List.countP_eq_zero]
      intro e he; obtain ⟨b, _, rfl⟩ := List.mem_map.1 he; simp [isRefreshReply]
    refine ⟨?_, ?_, ?_⟩
    · intro i cnt n hm
      show cnt ≤ s.refreshCnt + 1
      rcases List.mem_append.1 hm with hm | hm
      · have := h.late i cnt n hm; omega
      · obtain ⟨b, _, he⟩ := List.mem_map.1 hm; cases he; exact Nat.le_refl _
    · intro cnt
      show (s.log ++ _).countP _ ≤ (s.log ++ _).countP _
      rw [List.countP_append, List.countP_append, r0]
      have := h.once cnt; omega
    · intro id q hq
      have hq := Option.some.inj hq
      cases hq
      refine ⟨?_, ?_, ?_⟩
      · show (s.inputs.length : Int) =
          ((s.log ++ s.inputs.map (fun b => Ev.refreshOrder j (s.refreshCnt + 1) b)).countP
            (isRefreshOrder (s.refreshCnt + 1)) : Int) -
          (s.log ++ s.inputs.map (fun b => Ev.refreshOrder j (s.refreshCnt + 1) b)).countP
            (isRefreshReply (s.refreshCnt + 1))
        rw [List.countP_append, List.countP_append, r0, z1, z2,
          countP_map_all _ (fun b => by simp [isRefreshOrder])]
        push_cast; omega
      · intro i n hm
        rcases List.mem_append.1 hm with hm | hm
        · have h1 := h.late _ _ _ hm
          have h2 : s.refreshCnt + 1 ≤ s.refreshCnt := h1
          omega
        · obtain ⟨b, _, he⟩ := List.mem_map.1 hm; cases he; rfl
      · show IsMin 1 (refreshQualities (s.refreshCnt + 1) (s.log ++ _))
        rw [refreshQualities_none _ _ (by rw [List.countP_append, r0, z2])]
        exact isMin_nil

theorem refInv_got_none {s : St} (h : RefInv s) (cnt : Nat) (ok : Bool) (q : Option Rat)
    (hv : Valid s.log (.refreshReply cnt ok q)) (t : St) (h1 : t.refreshCmd = none)
    (h2 : t.refreshCnt = s.refreshCnt) (es : List Ev) (hes : ∀ e ∈ es, RefQuiet e)
    (h3 : t.log = s.log ++ .got (.refreshReply cnt ok q) :: es) : RefInv t := by
  have hl : t.log = (s.log ++ [.got (.refreshReply cnt ok q)]) ++ es := by simp [h3]
  refine ⟨?_, ?_, by intro id q hq; rw [h1] at hq; cases hq⟩
  · intro i k n hm
    rw [hl] at hm
    rcases List.mem_append.1 hm with hm | hm
    · rw [h2]; exact h.late i k n (by simpa using hm)
    · exact (hes _ hm).elim
  · intro k
    rw [hl, countP_quiet _ _ (fun e he => quiet_refReply (hes e he) k),
      countP_quiet _ _ (fun e he => quiet_refOrder (hes e he) k),
      List.countP_append, List.countP_append]
    simp only [List.countP_cons, List.countP_nil, isRefreshReply, isRefreshOrder]
    by_cases hk : cnt = k
    · subst hk
      have hv : s.log.countP (isRefreshReply cnt) < s.log.countP (isRefreshOrder cnt) := hv
      simp; omega
    · have := h.once k
      simp [hk]; omega

/-- What a reply to a refresh order does. -/
theorem refreshReply_cases (s : St) (cnt : Nat) (q : Option Rat) :
    (refreshReply s cnt q = s ∧ (s.refreshCmd = none ∨ cnt ≠ s.refreshCnt)) ∨
    (∃ id q0, s.refreshCmd = some (id, q0) ∧ cnt = s.refreshCnt ∧ s.refreshReplies - 1 ≤ 0 ∧
      refreshReply s cnt q = { s with
        refreshCmd := none, refreshReplies := s.refreshReplies - 1,
        log := s.log ++ [.answer id true,
          .calibrFile (if q.getD 1 < q0 then q.getD 1 else q0) s.calibrRunId] }) ∨
    (∃ id q0, s.refreshCmd = some (id, q0) ∧ cnt = s.refreshCnt ∧ 0 < s.refreshReplies - 1 ∧
      refreshReply s cnt q = { s with
        refreshCmd := some (id, if q.getD 1 < q0 then q.getD 1 else q0),
        refreshReplies := s.refreshReplies - 1 }) := by
  unfold refreshReply
  split
  · rename_i h; exact .inl ⟨rfl, .inl h⟩
  · rename_i id q0 hc
    split
    · rename_i hcnt
      dsimp only
      split
      · rename_i hr
        exact .inr (.inl ⟨id, q0, hc, hcnt, hr, by simp [St.emit]⟩)
      · rename_i hr
        exact .inr (.inr ⟨id, q0, hc, hcnt, by omega, rfl⟩)
    · rename_i hcnt; exact .inl ⟨rfl, .inr hcnt⟩

theorem refInv_refreshReply {s : St} (h : RefInv s) (cnt : Nat) (ok : Bool) (q : Option Rat)
    (hv : Valid s.log (.refreshReply cnt ok q)) :
    RefInv (refreshReply (s.emit (.got (.refreshReply cnt ok q))) cnt q) := by
  rcases refreshReply_cases (s.emit (.got (.refreshReply cnt ok q))) cnt q with
    ⟨e, hn⟩ | ⟨id, q0, hc, _, _, e⟩ | ⟨id, q0, hc, hcnt, hr, e⟩ <;> rw [e]
  · have hnone := refInv_got_none h cnt ok q hv
      { s with refreshCmd := none, log := s.log ++ [.got (.refreshReply cnt ok q)] }
      rfl rfl [] (by simp) (by simp)
    refine ⟨hnone.late, hnone.once, ?_⟩
    intro id q1 hq
    rcases hn with hn | hn
    · rw [hn] at hq; cases hq
    · have hs := h.cur id q1 hq
      have hne : cnt ≠ s.refreshCnt := hn
      refine ⟨?_, ?_, ?_⟩
      · show s.refreshReplies =
          ((s.log ++ [Ev.got (.refreshReply cnt ok q)]).countP (isRefreshOrder s.refreshCnt) : Int) -
          (s.log ++ [Ev.got (.refreshReply cnt ok q)]).countP (isRefreshReply s.refreshCnt)
        rw [countP_quiet _ _ (by simp [isRefreshOrder]),
          countP_quiet _ _ (by simpa [isRefreshReply] using hne)]
        exact hs.replies
      · intro i n hm
        have hm : Ev.refreshOrder i s.refreshCnt n ∈ s.log ++ [_] := hm
        exact hs.own i n (by simpa using hm)
      · show IsMin q1 (refreshQualities s.refreshCnt (s.log ++ [_]))
        rw [refreshQualities_append]
        simp only [refreshQualities]
        rw [if_neg hne, List.append_nil]; exact hs.quality
  · exact refInv_got_none h cnt ok q hv _ rfl rfl [.answer id true, .calibrFile _ _]
      (by simp [RefQuiet]) (List.append_assoc _ [_] _)
  · have hnone := refInv_got_none h cnt ok q hv
      { s with refreshCmd := none, log := s.log ++ [.got (.refreshReply cnt ok q)] }
      rfl rfl [] (by simp) (by simp)
    refine ⟨hnone.late, hnone.once, ?_⟩
    intro id1 q1 hq
    have hq := Option.some.inj hq
    cases hq
    have hs := h.cur id q0 hc
    have hcnt : cnt = s.refreshCnt := hcnt
    subst hcnt
    refine ⟨?_, ?_, ?_⟩
    · show s.refreshReplies - 1 =
        ((s.log ++ [Ev.got (.refreshReply s.refreshCnt ok q)]).countP
          (isRefreshOrder s.refreshCnt) : Int) -
        (s.log ++ [Ev.got (.refreshReply s.refreshCnt ok q)]).countP (isRefreshReply s.refreshCnt)
      rw [countP_quiet _ _ (by simp [isRefreshOrder]), hs.replies, List.countP_append]
      simp only [List.countP_cons, List.countP_nil, isRefreshReply, beq_self_eq_true, if_true]
      push_cast; omega
    · intro i n hm
      have hm : Ev.refreshOrder i s.refreshCnt n ∈ s.log ++ [_] := hm
      exact hs.own i n (by simpa using hm)
    · show IsMin _ (refreshQualities s.refreshCnt (s.log ++ [_]))
      rw [refreshQualities_append]
      simp only [refreshQualities, if_true]
      exact isMin_cons_end hs.quality _

theorem refInv_step {cfg : Cfg} {s : St} (h : RefInv s) (hr : RunInv s) (op : Op)
    (hv : Valid s.log op) : RefInv (step cfg s op) := by
  unfold step
  cases op with
  | run c p n =>
    have h1 : RefInv (s.emit (.got (.run c p n))) := refInv_emit h _ trivial
    obtain ⟨k1, k2, k3, es, e1, e2, _⟩ := execRun_log (s.emit (.got (.run c p n))) c p n c.id
    exact refInv_congr h1 (.inl k1) k2 k3 ⟨es, e1, e2⟩
  | refresh j p =>
    have h1 : RefInv (s.emit (.got (.refresh j p))) := refInv_emit h _ trivial
    exact refInv_execRefresh h1 j p
  | reset j p =>
    have h1 : RefInv (s.emit (.got (.reset j p))) := refInv_emit h _ trivial
    obtain ⟨es, e1, _, e2, _⟩ := execReset_keeps (s.emit (.got (.reset j p))) j p
    simp only [act]
    rw [e1]
    exact refInv_emits h1 es e2
  | other j =>
    have h1 : RefInv (s.emit (.got (.other j))) := refInv_emit h _ trivial
    exact refInv_emit h1 (.answer j true) trivial
  | subReply c k q =>
    have h1 : RefInv (s.emit (.got (.subReply c k q))) := refInv_emit h _ trivial
    obtain ⟨k1, k2, k3, es, e1, e2, _⟩ := subReply_log (s.emit (.got (.subReply c k q))) c q
    exact refInv_congr h1 (.inl k1) k2 k3 ⟨es, e1, e2⟩
  | refreshReply c k q => exact refInv_refreshReply h c k q hv
  | names a b c d =>
    have h1 : RefInv (s.emit (.got (.names a b c d))) := refInv_emit h _ trivial
    obtain ⟨k1, k2, k3, es, e1, e2, _⟩ := namesReply_log (s.emit (.got (.names a b c d))) a b c d
      hr.nodes
    exact refInv_congr h1 (.inl k1) k2 k3 ⟨es, e1, e2⟩
  | ctrlReply a b c d =>
    have h1 : RefInv (s.emit (.got (.ctrlReply a b c d))) := refInv_emit h _ trivial
    obtain ⟨_, _, _, _, _, _, _, _, k1, k2, k3, es, e1, _, e2, _⟩ := ctrlReply_keeps cfg
      (s.emit (.got (.ctrlReply a b c d))) a b c d
    exact refInv_congr h1 (.inl k1) k2 k3 ⟨es, e1, e2⟩
  | timer a b =>
    have h1 : RefInv (s.emit (.got (.timer a b))) := refInv_emit h _ trivial
    obtain ⟨k1, k2, k3, es, e1, e2, _⟩ := timer_log (s.emit (.got (.timer a b))) a b
    exact refInv_congr h1 (.inl k1) k2 k3 ⟨es, e1, e2⟩

theorem refInv_reach {cfg : Cfg} {s : St} (h : Reach cfg s) : RefInv s := by
  induction h with
  | init k => exact refInv_init k
  | step s op h hv ih => exact refInv_step ih (runInv_reach h) op hv

theorem exists_order {l : List Ev} {cnt : Nat} (h : 0 < l.countP (isOrder cnt)) :
    ∃ i b n q, Ev.order i cnt b n q ∈ l := by
  obtain ⟨e, he, hp⟩ := List.countP_pos_iff.1 h
  cases e with
  | order i c b n q =>
    simp only [isOrder, beq_iff_eq] at hp
    subst hp
    exact ⟨i, b, n, q, he⟩
  | _ => simp [isOrder] at hp

theorem exists_refOrder {l : List Ev} {cnt : Nat} (h : 0 < l.countP (isRefreshOrder cnt)) :
    ∃ i n, Ev.refreshOrder i cnt n ∈ l := by
  obtain ⟨e, he, hp⟩ := List.countP_pos_iff.1 h
  cases e with
  | refreshOrder i c n =>
    simp only [isRefreshOrder, beq_iff_eq] at hp
    subst hp
    exact ⟨i, n, he⟩
  | _ => simp [isRefreshOrder] at hp

theorem why_step {cfg : Cfg} {s : St} (hr : RunInv s) (hf : RefInv s) (op : Op)
    (hv : Valid s.log op) (es : List Ev) (hl : (step cfg s op).log = s.log ++ .got op :: es)
    (id : Nat) (b : Bool) (hm : Ev.answer id b ∈ es) : Why s op id b := by
  have base : ∀ fs, (step cfg s op).log = (s.emit (.got op)).log ++ fs → fs = es := by
    intro fs h
    have : (s.log ++ [Ev.got op]) ++ fs = (s.log ++ [Ev.got op]) ++ es := by
      rw [← show (step cfg s op).log = (s.log ++ [Ev.got op]) ++ fs from h, hl]; simp
    exact List.append_cancel_left this
  unfold step at base
  cases op with
  | run c p n =>
    obtain ⟨_, _, _, fs, e1, _, e3⟩ := execRun_log (s.emit (.got (.run c p n))) c p n c.id
    obtain rfl := base fs e1
    rcases e3 id b hm with ⟨rfl, rfl, h⟩ | ⟨rfl, rfl, h⟩ | ⟨rfl, h1, w, h2, rfl⟩
    · rcases h with ⟨d, hd⟩ | rfl
      · exact .busy c d p n rfl hd
      · exact .noPublisher c n rfl
    · exact .noBuilders c p n rfl h
    · exact .replaced c w p n rfl h1.2.1 h2
  | refresh j p =>
    simp only [act, execRefresh] at base
    split at base
    · rename_i hc
      obtain rfl := base [.answer j false] rfl
      simp only [List.mem_singleton] at hm; cases hm
      obtain ⟨d, hd⟩ := Option.isSome_iff_exists.1 hc
      exact .refreshBusy _ p d rfl hd
    split at base
    · rename_i hp
      obtain rfl := base [.answer j false] rfl
      simp only [List.mem_singleton] at hm; cases hm
      simp only [Bool.not_eq_true'] at hp; subst hp
      exact .refreshNoPublisher _ rfl
    · obtain rfl := base _ rfl
      simp at hm
  | reset j p =>
    obtain ⟨fs, e1, _, _, e2⟩ := execReset_keeps (s.emit (.got (.reset j p))) j p
    simp only [act] at base
    obtain rfl := base fs (by rw [e1]; rfl)
    obtain ⟨rfl, rfl⟩ := e2 id b hm
    exact .reset _ _ rfl
  | other j =>
    obtain rfl := base [.answer j true] rfl
    simp only [List.mem_singleton] at hm; cases hm
    exact .other _ rfl
  | subReply cnt k q =>
    obtain ⟨_, _, _, fs, e1, _, e3⟩ := subReply_log (s.emit (.got (.subReply cnt k q))) cnt q
    obtain rfl := base fs e1
    obtain ⟨rfl, hc, h1, c, h2, rfl⟩ := e3 id b hm
    have hc : cnt = s.cmdCnt := hc
    subst hc
    have h1 : s.replies - 1 ≤ 0 := h1
    have hs := hr.cur c h2
    obtain ⟨k1, _⟩ := subReply_curInv hr c h2 k q
    have hpos := hs.left
    refine .done c.id s.cmdCnt k q rfl ?_ hs.own ?_
    · have hv : s.log.countP (isReply s.cmdCnt) < s.log.countP (isOrder s.cmdCnt) := hv
      obtain ⟨i, b, n, x, hx⟩ := exists_order (l := s.log) (cnt := s.cmdCnt) (by omega)
      obtain rfl := hs.own _ _ _ _ hx
      exact ⟨b, n, x, hx⟩
    · unfold AllReplied; omega
  | refreshReply cnt k q =>
    rcases refreshReply_cases (s.emit (.got (.refreshReply cnt k q))) cnt q with
      ⟨e, hn⟩ | ⟨id1, q0, hc, hcnt, hz, e⟩ | ⟨id1, q0, hc, hcnt, hz, e⟩
    · simp only [act] at base
      obtain rfl := base [] (by rw [e]; simp)
      simp at hm
    · simp only [act] at base
      obtain rfl := base _ (by rw [e])
      simp only [List.mem_cons, List.not_mem_nil, or_false] at hm
      rcases hm with hm | hm <;> cases hm
      have hcnt : cnt = s.refreshCnt := hcnt
      subst hcnt
      have hs := hf.cur id q0 hc
      have hv : s.log.countP (isRefreshReply s.refreshCnt) <
        s.log.countP (isRefreshOrder s.refreshCnt) := hv
      refine .refreshed id s.refreshCnt k q rfl ?_ hs.own ?_
      · obtain ⟨i, n, hx⟩ := exists_refOrder (l := s.log) (cnt := s.refreshCnt) (by omega)
        obtain rfl := hs.own _ _ hx
        exact ⟨n, hx⟩
      · unfold AllRefreshed
        have hz : s.refreshReplies - 1 ≤ 0 := hz
        have h1 := hs.replies
        rw [countP_quiet _ _ (p := isRefreshOrder s.refreshCnt) (by simp [isRefreshOrder]),
          List.countP_append]
        simp only [List.countP_cons, List.countP_nil, isRefreshReply, beq_self_eq_true, if_true]
        omega
    · simp only [act] at base
      obtain rfl := base [] (by rw [e]; simp)
      simp at hm
  | names a o p n =>
    obtain ⟨_, _, _, fs, e1, _, e3⟩ := namesReply_log (s.emit (.got (.names a o p n))) a o p n
      hr.nodes
    obtain rfl := base fs e1
    obtain ⟨rfl, w, h1, rfl, h2⟩ := e3 id b hm
    exact .initRefused w a o p n rfl h1 h2
  | ctrlReply a k c d =>
    obtain ⟨_, _, _, _, _, _, _, _, _, _, _, fs, e1, _, _, e3⟩ := ctrlReply_keeps cfg
      (s.emit (.got (.ctrlReply a k c d))) a k c d
    obtain rfl := base fs e1
    exact absurd hm (e3 id b)
  | timer a c =>
    obtain ⟨_, _, _, fs, e1, _, e3⟩ := timer_log (s.emit (.got (.timer a c))) a c
    obtain rfl := base fs e1
    obtain ⟨rfl, h⟩ := e3 id b hm
    rcases h with ⟨rfl, d, hd, rfl⟩ | ⟨rfl, w, hw, rfl⟩
    · exact .timeout d c rfl hd
    · exact .initTimeout w a rfl hw

end Verif.BnetMaster
