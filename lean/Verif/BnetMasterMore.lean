import Verif.BnetMasterSize

/-!
# Lemmas about the master of a builder network: the rest
-/

namespace Verif.BnetMaster

open Spec

/-! ### Lists of nodes -/

theorem addItem_perm (l : List (String × String)) (x : String × String) :
    (addItem l x).Perm (x :: l) := by
  induction l with
  | nil => exact List.Perm.refl _
  | cons y r ih =>
    unfold addItem
    split
    · exact List.Perm.refl _
    · exact (List.Perm.cons y ih).trans (List.Perm.swap x y r)

/-- In the order of names. -/
def Ordered (l : List (String × String)) : Prop := l.Pairwise (fun a b => a.1 ≤ b.1)

theorem addItem_ordered {l : List (String × String)} (x : String × String) (h : Ordered l) :
    Ordered (addItem l x) := by
  induction l with
  | nil => exact List.pairwise_singleton _ _
  | cons y r ih =>
    have hy := (List.pairwise_cons.1 h).1
    have hr := (List.pairwise_cons.1 h).2
    unfold addItem
    split
    · rename_i hlt
      refine List.pairwise_cons.2 ⟨?_, h⟩
      intro z hz
      have hxy : x.1 ≤ y.1 := Std.le_of_lt hlt
      rcases List.mem_cons.1 hz with rfl | hz
      · exact hxy
      · exact Std.le_trans hxy (hy z hz)
    · rename_i hlt
      refine List.pairwise_cons.2 ⟨?_, ih hr⟩
      intro z hz
      have hz := (addItem_perm r x).mem_iff.1 hz
      rcases List.mem_cons.1 hz with rfl | hz
      · exact Std.not_lt.1 hlt
      · exact hy z hz

theorem collect_fold (kind : String) (items : List NameItem) : ∀ l : List (String × String),
    Ordered l →
    Ordered (items.foldl (fun l i => if i.bnet = some kind then addItem l (i.name, i.node) else l) l) ∧
    (items.foldl (fun l i => if i.bnet = some kind then addItem l (i.name, i.node) else l) l).Perm
      (((items.filter (fun i => i.bnet == some kind)).map (fun i => (i.name, i.node))) ++ l) := by
  induction items with
  | nil => intro l h; exact ⟨h, List.Perm.refl _⟩
  | cons i r ih =>
    intro l h
    rw [List.foldl_cons]
    by_cases hi : i.bnet = some kind
    · rw [if_pos hi]
      obtain ⟨h1, h2⟩ := ih (addItem l (i.name, i.node)) (addItem_ordered _ h)
      refine ⟨h1, h2.trans ?_⟩
      rw [List.filter_cons_of_pos (by simp [hi]), List.map_cons]
      refine ((addItem_perm l (i.name, i.node)).append_left _).trans ?_
      rw [List.cons_append]
      exact List.perm_middle
    · rw [if_neg hi]
      obtain ⟨h1, h2⟩ := ih l h
      refine ⟨h1, ?_⟩
      rw [List.filter_cons_of_neg (by simp [hi])]
      exact h2

/-! ### The list of events -/

theorem step_log (cfg : Cfg) (s : St) (op : Op) :
    ∃ es, (step cfg s op).log = s.log ++ .got op :: es := by
  have k : ∀ t, Keeps (s.emit (.got op)) t → ∃ es, t.log = s.log ++ .got op :: es := by
    intro t h
    obtain ⟨es, h1, _⟩ := h.log
    exact ⟨es, by rw [h1]; simp [St.emit]⟩
  unfold step
  cases op with
  | run c p n => exact k _ (keeps_execRun _ c p n c.id)
  | refresh j p => exact k _ (keeps_execRefresh _ j p j)
  | reset j p => exact k _ (keeps_execReset _ p j)
  | other j => exact k _ (keeps_emit _ _ trivial)
  | subReply cnt ok q => exact k _ (keeps_subReply _ cnt q)
  | refreshReply cnt ok q => exact k _ (keeps_refreshReply _ cnt q)
  | timer a b => exact k _ (keeps_timer _ a b)
  | names items o p n =>
    simp only [act]
    unfold namesReply
    dsimp only
    obtain ⟨es, h1⟩ := k _ (keeps_checkInit (s.emit (.got (.names items o p n)))
      ((collect "receiver" items).map Prod.fst) p n)
    generalize checkInit (s.emit (.got (.names items o p n)))
        ((collect "receiver" items).map Prod.fst) p n = t at h1
    split
    · exact ⟨es, h1⟩
    · obtain ⟨_, _, _, _, _, fs, hl, _⟩ := newCycle_facts ({ t with
        lastBuilders := (collect "receiver" items).map Prod.fst,
        builders := (collect "receiver" items).map Prod.fst,
        inputs := (collect "sender" items).map Prod.fst } : St)
        ((collect "receiver" items).map Prod.fst) ((collect "sender" items).map Prod.fst)
      rw [hl]
      exact ⟨es ++ (requests (t.ctrlId + 1) ((collect "receiver" items).map Prod.fst)
        ((collect "sender" items).map Prod.fst) ++ fs), by simp [h1]⟩
  | ctrlReply id ok items over =>
    obtain ⟨_, _, _, _, _, _, _, _, _, _, _, es, e1, _⟩ := ctrlReply_keeps cfg
      (s.emit (.got (.ctrlReply id ok items over))) id ok items over
    exact ⟨es, by simp only [act]; rw [e1]; simp [St.emit]⟩

theorem events_eq {cfg : Cfg} {s : St} {op : Op} {es fs : List Ev}
    (h : (step cfg s op).log = s.log ++ .got op :: es)
    (k : (act cfg (s.emit (.got op)) op).log = (s.emit (.got op)).log ++ fs) : es = fs := by
  have : (s.log ++ [Ev.got op]) ++ es = (s.log ++ [Ev.got op]) ++ fs := by
    have e1 : (s.log ++ [Ev.got op]) ++ es = (step cfg s op).log := by rw [h]; simp
    rw [e1]; exact k
  exact List.append_cancel_left this

/-! ### Accepted commands -/

theorem goStart_iff (c : RunCmd) (p : String) : goStart c p = true ↔ WantsFile c p := by
  unfold goStart WantsFile
  simp only [Bool.and_eq_true, Bool.not_eq_true', Bool.or_eq_false_iff, beq_eq_false_iff_ne,
    Bool.and_eq_false_iff, ne_eq, Bool.or_eq_false_iff]
  constructor
  · rintro ⟨h1, ⟨h2, h3⟩, h4⟩
    refine ⟨h1, h2, h3, fun h => ?_⟩
    rcases h4 with h4 | h4
    · exact absurd h h4
    · exact ⟨h4.2, h4.1⟩
  · rintro ⟨h1, h2, h3, h4⟩
    refine ⟨h1, ⟨h2, h3⟩, ?_⟩
    by_cases h : c.pfx = ""
    · exact .inr ⟨(h4 h).2, (h4 h).1⟩
    · exact .inl h

theorem fileQuery_wants {c : RunCmd} {p : String} (n : Nat) (h : WantsFile c p) :
    fileQuery c p n = ⟨true, some (if c.runid = 0 then n else c.runid),
      if c.pfx = "" then none else some c.pfx⟩ := by
  have hg := (goStart_iff c p).2 h
  unfold fileQuery newRunId
  rw [if_pos hg, if_pos hg]

theorem fileQuery_stop {c : RunCmd} {p : String} (n : Nat) (h : ¬ WantsFile c p) :
    fileQuery c p n = ⟨false, none, none⟩ := by
  have hg : ¬ goStart c p = true := fun hg => h ((goStart_iff c p).1 hg)
  unfold fileQuery
  rw [if_neg hg]

/-- When and how the inputs are told. -/
theorem calibrQuery_some {c : RunCmd} {p : String} {m n : Nat} {q : Query} :
    calibrQuery c p m n = some q ↔
      (WantsFile c p ∧ c.pfx = "tc" ∧ p = "" ∧
        q = ⟨true, some (if c.runid = 0 then n else c.runid), none⟩) ∨
      (¬ WantsFile c p ∧ p = "tc" ∧ q = ⟨false, some m, none⟩) := by
  unfold calibrQuery newRunId
  by_cases h : WantsFile c p
  · have hg := (goStart_iff c p).2 h
    simp only [hg, Bool.true_and, Bool.not_true, Bool.false_and, if_true, h, true_and, not_true,
      false_and, or_false]
    by_cases h1 : c.pfx = "tc" <;> by_cases h2 : p = ""
    · simp [h1, h2, eq_comm]
    · simp [h2]
    · simp [h1]
    · simp [h1]
  · have hg : goStart c p = false := by
      cases hh : goStart c p with
      | false => rfl
      | true => exact absurd ((goStart_iff c p).1 hh) h
    simp only [hg, Bool.false_and, Bool.not_false, Bool.true_and, h, false_and, false_or,
      not_false_eq_true, true_and]
    by_cases h2 : p = "tc"
    · simp [h2, eq_comm]
    · simp [h2]

theorem calibrQuery_none {c : RunCmd} {p : String} {m n : Nat} (h : calibrQuery c p m n = none) :
    ¬ ((WantsFile c p ∧ c.pfx = "tc" ∧ p = "") ∨ (¬ WantsFile c p ∧ p = "tc")) := by
  rintro (⟨h1, h2, h3⟩ | ⟨h1, h2⟩)
  · rw [(calibrQuery_some (q := ⟨true, some (if c.runid = 0 then n else c.runid), none⟩)).2
      (.inl ⟨h1, h2, h3, rfl⟩)] at h
    cases h
  · rw [(calibrQuery_some (q := ⟨false, some m, none⟩)).2 (.inr ⟨h1, h2, rfl⟩)] at h
    cases h

/-! ### Replies -/

/-- A reply for a run command: nothing to do, not the last one, the last one. -/
theorem subReply_cases (s : St) (cnt : Nat) (q : Option Rat) :
    (subReply s cnt q = s ∧ (s.cur = none ∨ cnt ≠ s.cmdCnt)) ∨
    (∃ c, s.cur = some c ∧ cnt = s.cmdCnt ∧ ¬ s.replies - 1 ≤ 0 ∧ (subReply s cnt q).log = s.log) ∨
    (∃ c, s.cur = some c ∧ cnt = s.cmdCnt ∧ s.replies - 1 ≤ 0 ∧ (subReply s cnt q).log =
      s.log ++ Ev.answer c.id true :: (if stopCalibr c then
        [.calibrFile (lowerQuality c s.quality q) c.calibrRunId] else [])) := by
  unfold subReply
  split
  · rename_i h; exact .inl ⟨rfl, .inl h⟩
  · rename_i c hc
    by_cases h : cnt = s.cmdCnt
    · rw [if_pos h]
      dsimp only
      by_cases h1 : s.replies - 1 ≤ 0
      · rw [if_pos h1]
        right; right
        refine ⟨c, hc, h, h1, ?_⟩
        split
        · simp [St.emit]
        · simp [St.emit]
      · rw [if_neg h1]
        right; left
        exact ⟨c, hc, h, h1, rfl⟩
    · rw [if_neg h]
      exact .inl ⟨rfl, .inr h⟩

/-! ### The waiting command -/

theorem execRun_orders (s : St) (c : RunCmd) (p : Bool) (n j : Nat) :
    ∃ gs, (St.reply (execRun s c p n) j).log = s.log ++ gs ∧
      ∀ i cnt b m q, Ev.order i cnt b m q ∈ gs →
        s.cur = none ∧ ¬ Parks c ∧ s.builders ≠ [] ∧ p = true ∧ gs = orders s c n := by
  have quiet : ∀ e0 : Ev, (∀ i cnt b m q, e0 ≠ Ev.order i cnt b m q) →
      ∀ i cnt b m q, Ev.order i cnt b m q ∈ [e0] →
        s.cur = none ∧ ¬ Parks c ∧ s.builders ≠ [] ∧ p = true ∧ [e0] = orders s c n := by
    intro e0 h0 i cnt b m q hm
    simp only [List.mem_singleton] at hm
    exact absurd hm.symm (h0 i cnt b m q)
  rcases execRun_cases s c p n with ⟨_, e⟩ | ⟨_, _, e⟩ | ⟨_, _, _, e⟩ | ⟨_, _, _, _, e⟩ |
    ⟨k1, k2, k3, k4, e⟩ <;> rw [e]
  · exact ⟨[_], rfl, quiet _ (by intros; simp)⟩
  · show ∃ gs, (parked s c).log = _ ∧ _
    unfold parked
    cases s.initCmd with
    | none => exact ⟨[], by simp, by simp⟩
    | some w => exact ⟨[_], rfl, quiet _ (by intros; simp)⟩
  · exact ⟨[_], rfl, quiet _ (by intros; simp)⟩
  · exact ⟨[_], rfl, quiet _ (by intros; simp)⟩
  · exact ⟨orders s c n, rfl, fun _ _ _ _ _ _ => ⟨k1, k2, k3, k4, rfl⟩⟩

/-- Orders sent when the list of names came in. -/
theorem names_orders {cfg : Cfg} {s : St} (hr : RunInv s) {items : List NameItem} {o p : Bool}
    {n : Nat} {es : List Ev}
    (hl : (step cfg s (.names items o p n)).log = s.log ++ .got (.names items o p n) :: es)
    {i cnt : Nat} {b : Bool} {m : String} {q : Query} (hm : Ev.order i cnt b m q ∈ es) :
    s.cur = none ∧ p = true ∧ s.builders ≠ [] ∧
    s.builders = (collect "receiver" items).map Prod.fst ∧
    ∃ w, s.initCmd = some w ∧ (∃ fs, es = orders s { w with verified := true } n ++ fs ∧
      ∀ e ∈ fs, RunQuiet e) := by
  let s1 := s.emit (.got (.names items o p n))
  let bs := (collect "receiver" items).map Prod.fst
  let is := (collect "sender" items).map Prod.fst
  have hsplit : ∃ fs, (namesReply s1 items o p n).log = (checkInit s1 bs p n).log ++ fs ∧
      ∀ e ∈ fs, RunQuiet e := by
    unfold namesReply
    dsimp only
    split
    · exact ⟨[], by simp [bs], by simp⟩
    · obtain ⟨fs, h1, h2, _⟩ := newCycle_log ({ checkInit s1 bs p n with
        lastBuilders := bs, builders := bs, inputs := is } : St) bs is
      exact ⟨fs, h1, h2⟩
  obtain ⟨fs, h1, h2⟩ := hsplit
  have hnot : ∀ {gs}, (checkInit s1 bs p n).log = s1.log ++ gs → es = gs ++ fs := by
    intro gs hg
    exact events_eq hl (show (namesReply s1 items o p n).log = _ by
      rw [h1, hg, List.append_assoc])
  by_cases h : s.lastBuilders ≠ [] ∧ s.lastBuilders = bs
  · cases hi : s.initCmd with
    | some w =>
      obtain ⟨gs, g1, g2⟩ := execRun_orders ({ s1 with same := s1.same + 1 } : St)
        { w with verified := true } p n w.id
      have he := hnot (gs := gs) (by
        rw [checkInit_some s1 bs p n w h hi]; exact g1)
      have hm' := hm
      rw [he] at hm'
      have hg := mem_quiet h2 hm'
      obtain ⟨k1, _, k3, k4, k5⟩ := g2 i cnt b m q hg
      have hb : s.builders = bs := by rw [hr.nodes]; exact h.2
      exact ⟨k1, k4, k3, hb, w, rfl, fs, by rw [he, k5]; rfl, h2⟩
    | none =>
      have he := hnot (gs := []) (by rw [checkInit_none s1 bs p n h hi]; simp)
      rw [he] at hm
      exact False.elim (h2 (.order i cnt b m q) (by simpa using hm))
  · have he := hnot (gs := []) (by rw [checkInit_diff s1 bs p n h]; simp)
    rw [he] at hm
    exact False.elim (h2 (.order i cnt b m q) (by simpa using hm))

/-! ### A refresh without inputs -/

/-- A refresh that waits for replies nobody owes. -/
def Stuck (s : St) (id : Nat) : Prop :=
  (∃ q, s.refreshCmd = some (id, q)) ∧ s.log.countP (isRefreshOrder s.refreshCnt) = 0

theorem stuck_congr {s t : St} {id : Nat} (h : Stuck s id) (h1 : t.refreshCmd = s.refreshCmd)
    (h2 : t.refreshCnt = s.refreshCnt) (h3 : ∃ es, t.log = s.log ++ es ∧ ∀ e ∈ es, RefQuiet e) :
    Stuck t id := by
  obtain ⟨es, e1, e2⟩ := h3
  refine ⟨by rw [h1]; exact h.1, ?_⟩
  rw [h2, e1, countP_quiet _ _ (fun e he => quiet_refOrder (e2 e he) _)]
  exact h.2

theorem stuck_got {s : St} {id : Nat} (h : Stuck s id) (op : Op) : Stuck (s.emit (.got op)) id := by
  refine ⟨h.1, ?_⟩
  show (s.log ++ [Ev.got op]).countP (isRefreshOrder s.refreshCnt) = 0
  rw [List.countP_append, h.2]; rfl

theorem stuck_step {cfg : Cfg} {s : St} {id : Nat} (h : Stuck s id) (hr : RunInv s)
    (op : Op) (hv : Valid s.log op) : Stuck (step cfg s op) id := by
  have h1 := stuck_got h op
  unfold step
  cases op with
  | run c p n =>
    obtain ⟨k1, k2, _, es, e1, e2, _⟩ := execRun_log (s.emit (.got (.run c p n))) c p n c.id
    exact stuck_congr h1 k1 k2 ⟨es, e1, e2⟩
  | refresh j p =>
    simp only [act]
    unfold execRefresh
    obtain ⟨q, hq⟩ := h1.1
    rw [if_pos (by rw [hq]; rfl)]
    exact stuck_congr h1 rfl rfl ⟨[_], rfl, by simp [RefQuiet]⟩
  | reset j p =>
    obtain ⟨es, e1, _, e2, _⟩ := execReset_keeps (s.emit (.got (.reset j p))) j p
    simp only [act]
    rw [e1]
    exact stuck_congr h1 rfl rfl ⟨es, rfl, e2⟩
  | other j => exact stuck_congr h1 rfl rfl ⟨[.answer j true], rfl, by simp [RefQuiet]⟩
  | subReply c k q =>
    obtain ⟨k1, k2, _, es, e1, e2, _⟩ := subReply_log (s.emit (.got (.subReply c k q))) c q
    exact stuck_congr h1 k1 k2 ⟨es, e1, e2⟩
  | refreshReply c k q =>
    simp only [act]
    have hne : c ≠ s.refreshCnt := by
      intro he
      simp only [Valid] at hv
      rw [he, h.2] at hv
      omega
    rcases refreshReply_cases (s.emit (.got (.refreshReply c k q))) c q with
      ⟨e, _⟩ | ⟨_, _, _, hc, _⟩ | ⟨_, _, _, hc, _⟩
    · rw [e]; exact h1
    · exact absurd hc hne
    · exact absurd hc hne
  | names a b c d =>
    obtain ⟨k1, k2, _, es, e1, e2, _⟩ := namesReply_log (s.emit (.got (.names a b c d))) a b c d
      hr.nodes
    exact stuck_congr h1 k1 k2 ⟨es, e1, e2⟩
  | ctrlReply a b c d =>
    obtain ⟨_, _, _, _, _, _, _, _, k1, k2, _, es, e1, _, e2, _⟩ := ctrlReply_keeps cfg
      (s.emit (.got (.ctrlReply a b c d))) a b c d
    exact stuck_congr h1 k1 k2 ⟨es, e1, e2⟩
  | timer a b =>
    obtain ⟨k1, k2, _, es, e1, e2, _⟩ := timer_log (s.emit (.got (.timer a b))) a b
    exact stuck_congr h1 k1 k2 ⟨es, e1, e2⟩

theorem reach_steps {cfg : Cfg} {s t : St} (h : Reach cfg s) (ht : Steps cfg s t) : Reach cfg t := by
  induction ht with
  | refl => exact h
  | step t op _ hv ih => exact .step t op ih hv

theorem stuck_steps {cfg : Cfg} {s t : St} {id : Nat} (h : Stuck s id) (hs : Reach cfg s)
    (ht : Steps cfg s t) : Stuck t id := by
  induction ht with
  | refl => exact h
  | step t op hst hv ih =>
    have hr := reach_steps hs hst
    exact stuck_step ih (runInv_reach hr) op hv

theorem stuck_refresh {cfg : Cfg} {s : St} (h : Reach cfg s) (h1 : s.refreshCmd = none)
    (h2 : s.inputs = []) (id : Nat) : Stuck (step cfg s (.refresh id true)) id := by
  have z := noRefOrder_count (cnt := s.refreshCnt + 1) (refInv_reach h).late (by omega)
  unfold step
  simp only [act]
  unfold execRefresh
  rw [if_neg (by simp [St.emit, h1]), if_neg (by simp)]
  refine ⟨⟨1, rfl⟩, ?_⟩
  show ((s.log ++ [Ev.got (.refresh id true)]) ++ s.inputs.map _).countP
    (isRefreshOrder (s.refreshCnt + 1)) = 0
  rw [h2, List.countP_append, List.countP_append, z]; rfl

/-! ### Concrete runs -/

instance (c : RunCmd) : Decidable (Fresh c) := by unfold Fresh; infer_instance

instance (log : List Ev) (op : Op) : Decidable (Valid log op) := by
  cases op <;> simp only [Valid] <;> infer_instance

/-- All operations are possible. -/
def allValid (cfg : Cfg) (s : St) : List Op → Bool
  | [] => true
  | op :: r => decide (Valid s.log op) && allValid cfg (step cfg s op) r

theorem reach_run {cfg : Cfg} (ops : List Op) : ∀ {s : St}, Reach cfg s →
    allValid cfg s ops = true → Reach cfg (run cfg s ops) := by
  induction ops with
  | nil => intro s h _; exact h
  | cons op r ih =>
    intro s h hv
    simp only [allValid, Bool.and_eq_true, decide_eq_true_eq] at hv
    exact ih (.step s op h hv.1) hv.2

end Verif.BnetMaster
