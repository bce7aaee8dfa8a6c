import Verif.BnetMasterLemmas

/-!
# Lemmas about the master of a builder network: orders and replies
-/

namespace Verif.BnetMaster

open Spec

/-- The command waits for a stable list of builders. -/
def Parks (c : RunCmd) : Prop := c.start = true ∧ 0 < c.oninit ∧ c.verified = false

instance (c : RunCmd) : Decidable (Parks c) := by unfold Parks; infer_instance

/-- State after a command was put aside. -/
def parked (s : St) (c : RunCmd) : St :=
  { (match s.initCmd with
     | some i => s.emit (.answer i.id false)
     | none => s) with initCmd := some c, same := 0 }

/-- State after a command was accepted. -/
def accepted (s : St) (c : RunCmd) (newId : Nat) : St :=
  { s with
    cur := some (marked s c newId)
    ctrl := if c.start then { s.ctrl with szLimit := 1 } else s.ctrl
    cmdCnt := s.cmdCnt + 1
    replies := orderCnt s c newId
    quality := 1
    running := true
    masterRunId := newRunId c s.lastPfx newId
    lastPfx := if goStart c s.lastPfx && !(c.pfx == "") then c.pfx else s.lastPfx
    log := s.log ++ orders s c newId }

theorem execRun_cases (s : St) (c : RunCmd) (p : Bool) (n : Nat) :
    (s.cur.isSome ∧ execRun s c p n = (s, some false)) ∨
    (s.cur = none ∧ Parks c ∧ execRun s c p n = (parked s c, none)) ∨
    (s.cur = none ∧ ¬ Parks c ∧ s.builders = [] ∧ execRun s c p n = (s, some true)) ∨
    (s.cur = none ∧ ¬ Parks c ∧ s.builders ≠ [] ∧ p = false ∧
      execRun s c p n = (s, some false)) ∨
    (s.cur = none ∧ ¬ Parks c ∧ s.builders ≠ [] ∧ p = true ∧
      execRun s c p n = (accepted s c n, none)) := by
  by_cases h1 : s.cur.isSome
  · left; refine ⟨h1, ?_⟩; unfold execRun; rw [if_pos h1]
  right
  have hc : s.cur = none := by simpa using h1
  by_cases h2 : Parks c
  · left
    refine ⟨hc, h2, ?_⟩
    unfold execRun; rw [if_neg h1, if_pos (by
      simp only [Bool.and_eq_true, decide_eq_true_eq, Bool.not_eq_true']
      exact ⟨⟨h2.1, h2.2.1⟩, h2.2.2⟩)]
    rfl
  right
  have h2' : ¬ ((c.start && decide (0 < c.oninit) && !c.verified) = true) := by
    simp only [Bool.and_eq_true, decide_eq_true_eq, Bool.not_eq_true']
    exact fun h => h2 ⟨h.1.1, h.1.2, h.2⟩
  by_cases h3 : s.builders = []
  · left
    refine ⟨hc, h2, h3, ?_⟩
    unfold execRun; rw [if_neg h1, if_neg h2', if_pos h3]
  right
  cases p with
  | false =>
    left
    refine ⟨hc, h2, h3, rfl, ?_⟩
    unfold execRun; rw [if_neg h1, if_neg h2', if_neg h3]; rfl
  | true =>
    right
    refine ⟨hc, h2, h3, rfl, ?_⟩
    unfold execRun; rw [if_neg h1, if_neg h2', if_neg h3]; rfl

/-- An event that is neither an order nor a reply to one. -/
def RunQuiet (e : Ev) : Prop :=
  match e with
  | .order .. => False
  | .got (.subReply ..) => False
  | _ => True

/-- An event that is neither a refresh order nor a reply to one. -/
def RefQuiet (e : Ev) : Prop :=
  match e with
  | .refreshOrder .. => False
  | .got (.refreshReply ..) => False
  | _ => True

theorem countP_quiet {p : Ev → Bool} (l es : List Ev) (h : ∀ e ∈ es, p e = false) :
    (l ++ es).countP p = l.countP p := by
  rw [List.countP_append, (List.countP_eq_zero (l := es)).2 (fun e he => by simp [h e he])]; rfl

theorem quiet_order {e : Ev} (h : RunQuiet e) (cnt : Nat) : isOrder cnt e = false := by
  cases e <;> first | rfl | exact h.elim

theorem quiet_reply {e : Ev} (h : RunQuiet e) (cnt : Nat) : isReply cnt e = false := by
  cases e with
  | got op => cases op <;> first | rfl | exact h.elim
  | _ => first | rfl | exact h.elim

theorem quiet_refOrder {e : Ev} (h : RefQuiet e) (cnt : Nat) : isRefreshOrder cnt e = false := by
  cases e <;> first | rfl | exact h.elim

theorem quiet_refReply {e : Ev} (h : RefQuiet e) (cnt : Nat) : isRefreshReply cnt e = false := by
  cases e with
  | got op => cases op <;> first | rfl | exact h.elim
  | _ => first | rfl | exact h.elim

theorem qualities_append (cnt : Nat) (a b : List Ev) :
    qualities cnt (a ++ b) = qualities cnt a ++ qualities cnt b := by
  induction a with
  | nil => rfl
  | cons e a ih =>
    cases e with
    | got op =>
      cases op with
      | subReply c ok q =>
        cases q with
        | none => simp [qualities, ih]
        | some q =>
          simp only [qualities, List.cons_append, ih]
          split <;> simp
      | _ => simp [qualities, ih]
    | _ => simp [qualities, ih]

theorem refreshQualities_append (cnt : Nat) (a b : List Ev) :
    refreshQualities cnt (a ++ b) = refreshQualities cnt a ++ refreshQualities cnt b := by
  induction a with
  | nil => rfl
  | cons e a ih =>
    cases e with
    | got op =>
      cases op with
      | refreshReply c ok q =>
        simp only [refreshQualities, List.cons_append, ih]
        split <;> simp
      | _ => simp [refreshQualities, ih]
    | _ => simp [refreshQualities, ih]

theorem qualities_quiet (cnt : Nat) (l es : List Ev) (h : ∀ e ∈ es, RunQuiet e) :
    qualities cnt (l ++ es) = qualities cnt l := by
  rw [qualities_append]
  have : qualities cnt es = [] := by
    induction es with
    | nil => rfl
    | cons e es ih =>
      have he := h e (by simp)
      have ih := ih (fun x hx => h x (by simp [hx]))
      cases e with
      | got op => cases op <;> first | exact ih | exact he.elim
      | _ => first | exact ih | exact he.elim
  rw [this, List.append_nil]

theorem refreshQualities_quiet (cnt : Nat) (l es : List Ev) (h : ∀ e ∈ es, RefQuiet e) :
    refreshQualities cnt (l ++ es) = refreshQualities cnt l := by
  rw [refreshQualities_append]
  have : refreshQualities cnt es = [] := by
    induction es with
    | nil => rfl
    | cons e es ih =>
      have he := h e (by simp)
      have ih := ih (fun x hx => h x (by simp [hx]))
      cases e with
      | got op => cases op <;> first | exact ih | exact he.elim
      | _ => first | exact ih | exact he.elim
  rw [this, List.append_nil]

theorem qualities_none (cnt : Nat) (l : List Ev) (h : l.countP (isReply cnt) = 0) :
    qualities cnt l = [] := by
  rw [List.countP_eq_zero] at h
  induction l with
  | nil => rfl
  | cons e l ih =>
    have ih := ih (fun x hx => h x (by simp [hx]))
    have he := h e (by simp)
    cases e with
    | got op =>
      cases op with
      | subReply c ok q =>
        cases q with
        | none => exact ih
        | some q =>
          simp only [qualities]
          rw [if_neg (by simpa [isReply] using he)]; exact ih
      | _ => exact ih
    | _ => exact ih

theorem refreshQualities_none (cnt : Nat) (l : List Ev) (h : l.countP (isRefreshReply cnt) = 0) :
    refreshQualities cnt l = [] := by
  rw [List.countP_eq_zero] at h
  induction l with
  | nil => rfl
  | cons e l ih =>
    have ih := ih (fun x hx => h x (by simp [hx]))
    have he := h e (by simp)
    cases e with
    | got op =>
      cases op with
      | refreshReply c ok q =>
        simp only [refreshQualities]
        rw [if_neg (by simpa [isRefreshReply] using he)]; exact ih
      | _ => exact ih
    | _ => exact ih

theorem lastRun_append (a b : List Ev) :
    lastRun (a ++ b) = b.foldl runAfter (lastRun a) := by
  unfold lastRun; rw [List.foldl_append]

theorem lastRun_quiet (l es : List Ev) (h : ∀ e ∈ es, RunQuiet e) :
    lastRun (l ++ es) = lastRun l := by
  rw [lastRun_append]
  generalize lastRun l = r
  induction es with
  | nil => rfl
  | cons e es ih =>
    have he := h e (by simp)
    have ih := ih (fun x hx => h x (by simp [hx]))
    cases e <;> first | exact ih | exact he.elim

theorem isMin_nil : IsMin 1 [] := ⟨by simp, by simp⟩

/-- What is true about the current run command. -/
structure CurInv (s : St) (c : RunCmd) : Prop where
  replies : s.replies =
    (s.log.countP (isOrder s.cmdCnt) : Int) - s.log.countP (isReply s.cmdCnt)
  left : 0 < s.replies
  own : ∀ i b n q, Ev.order i s.cmdCnt b n q ∈ s.log → i = c.id
  quality : stopCalibr c = true → IsMin s.quality (qualities s.cmdCnt s.log)
  calibr : ∀ i n q, Ev.order i s.cmdCnt false n q ∈ s.log →
    c.calibrRun = true ∧ (c.start = false → q = ⟨false, some c.calibrRunId, none⟩)

/-- What is true about run commands in every state. -/
structure RunInv (s : St) : Prop where
  nodes : s.builders = s.lastBuilders
  fresh : ∀ w, s.initCmd = some w → Fresh w
  late : ∀ i cnt b n q, Ev.order i cnt b n q ∈ s.log → cnt ≤ s.cmdCnt
  once : ∀ cnt, s.log.countP (isReply cnt) ≤ s.log.countP (isOrder cnt)
  master : s.masterRunId = lastRun s.log
  same : ∀ i j cnt n m q r, Ev.order i cnt true n q ∈ s.log → Ev.order j cnt true m r ∈ s.log →
    i = j ∧ q = r
  cur : ∀ c, s.cur = some c → CurInv s c

theorem mem_quiet {l es : List Ev} (h : ∀ e ∈ es, RunQuiet e) {i cnt : Nat} {b : Bool}
    {n : String} {q : Query} (hm : Ev.order i cnt b n q ∈ l ++ es) : Ev.order i cnt b n q ∈ l := by
  rcases List.mem_append.1 hm with h1 | h1
  · exact h1
  · exact (h _ h1).elim

/-- Nothing changed for run commands, except that the current one may be gone. -/
theorem runInv_congr {s t : St} (h : RunInv s) (hcur : t.cur = s.cur ∨ t.cur = none)
    (hc : t.cmdCnt = s.cmdCnt) (hr : t.replies = s.replies) (hq : t.quality = s.quality)
    (hm : t.masterRunId = s.masterRunId) (hn : t.builders = t.lastBuilders)
    (hi : ∀ w, t.initCmd = some w → Fresh w)
    (hl : ∃ es, t.log = s.log ++ es ∧ ∀ e ∈ es, RunQuiet e) : RunInv t := by
  obtain ⟨es, hl, hes⟩ := hl
  have c1 : ∀ cnt, t.log.countP (isOrder cnt) = s.log.countP (isOrder cnt) := fun cnt => by
    rw [hl]; exact countP_quiet _ _ (fun e he => quiet_order (hes e he) cnt)
  have c2 : ∀ cnt, t.log.countP (isReply cnt) = s.log.countP (isReply cnt) := fun cnt => by
    rw [hl]; exact countP_quiet _ _ (fun e he => quiet_reply (hes e he) cnt)
  have c3 : ∀ {i cnt : Nat} {b : Bool} {n : String} {q : Query},
      Ev.order i cnt b n q ∈ t.log → Ev.order i cnt b n q ∈ s.log := by
    intro i cnt b n q hmem; rw [hl] at hmem; exact mem_quiet hes hmem
  refine ⟨hn, hi, ?_, ?_, ?_, ?_, ?_⟩
  · intro i cnt b n q hmem; rw [hc]; exact h.late i cnt b n q (c3 hmem)
  · intro cnt; rw [c1, c2]; exact h.once cnt
  · rw [hm, h.master, hl, lastRun_quiet _ _ hes]
  · intro i j cnt n m q r h1 h2; exact h.same i j cnt n m q r (c3 h1) (c3 h2)
  · intro c hcc
    rcases hcur with hcur | hcur
    · have hs := h.cur c (by rw [← hcur]; exact hcc)
      refine ⟨?_, ?_, ?_, ?_, ?_⟩
      · rw [hr, hc, c1, c2]; exact hs.replies
      · rw [hr]; exact hs.left
      · intro i b n q hmem; rw [hc] at hmem; exact hs.own i b n q (c3 hmem)
      · intro hst; rw [hq, hc, hl, qualities_quiet _ _ _ hes]; exact hs.quality hst
      · intro i n q hmem; rw [hc] at hmem; exact hs.calibr i n q (c3 hmem)
    · rw [hcur] at hcc; cases hcc

theorem runInv_init (k : Nat) : RunInv (St.init k) where
  nodes := rfl
  fresh := by intro w hw; cases hw
  late := by intro i cnt b n q h; cases h
  once := by intro cnt; exact Nat.le_refl _
  master := rfl
  same := by intro i j cnt n m q r h; cases h
  cur := by intro c h; cases h

theorem mem_orders {s : St} {c : RunCmd} {n : Nat} {e : Ev} (h : e ∈ orders s c n) :
    (∃ b ∈ s.builders, e = .order c.id (s.cmdCnt + 1) true b (fileQuery c s.lastPfx n)) ∨
    (∃ b ∈ s.inputs, ∃ q, calibrQuery c s.lastPfx s.masterRunId n = some q ∧
      e = .order c.id (s.cmdCnt + 1) false b q) := by
  unfold orders at h
  rcases List.mem_append.1 h with h | h
  · obtain ⟨b, hb, rfl⟩ := List.mem_map.1 h
    exact Or.inl ⟨b, hb, rfl⟩
  · right
    cases hq : calibrQuery c s.lastPfx s.masterRunId n with
    | none => rw [hq] at h; simp at h
    | some q =>
      rw [hq] at h
      obtain ⟨b, hb, rfl⟩ := List.mem_map.1 h
      exact ⟨b, hb, q, rfl, rfl⟩

theorem countP_map_all {p : Ev → Bool} {f : String → Ev} (l : List String)
    (h : ∀ b, p (f b) = true) : (l.map f).countP p = l.length := by
  rw [List.countP_eq_length.2, List.length_map]
  intro e he
  obtain ⟨b, _, rfl⟩ := List.mem_map.1 he
  exact h b

theorem orders_count (s : St) (c : RunCmd) (n : Nat) :
    ((orders s c n).countP (isOrder (s.cmdCnt + 1)) : Int) = orderCnt s c n := by
  unfold orders orderCnt
  rw [List.countP_append, countP_map_all _ (fun b => by simp [isOrder])]
  split
  · rw [countP_map_all _ (fun b => by simp [isOrder])]; push_cast; rfl
  · simp

theorem orders_replies (s : St) (c : RunCmd) (n cnt : Nat) :
    (orders s c n).countP (isReply cnt) = 0 := by
  rw [List.countP_eq_zero]
  intro e he
  rcases mem_orders he with ⟨b, _, rfl⟩ | ⟨b, _, q, _, rfl⟩ <;> simp [isReply]

theorem orderCnt_pos {s : St} (c : RunCmd) (n : Nat) (h : s.builders ≠ []) :
    0 < orderCnt s c n := by
  have h1 := List.length_pos_iff.2 h
  unfold orderCnt
  generalize s.builders.length = a at h1
  split
  · have h2 : (0 : Int) ≤ (s.inputs.length : Int) := Int.natCast_nonneg _
    exact Int.lt_of_lt_of_le (by omega) (Int.add_le_add_left h2 _)
  · omega

theorem foldl_builders (f : String → Ev) (hf : ∀ b, ∃ i cnt q, f b = .order i cnt true b q ∧
    q.runid.getD 0 = k) (l : List String) (h : l ≠ []) (r : Nat) :
    (l.map f).foldl runAfter r = k := by
  induction l generalizing r with
  | nil => exact absurd rfl h
  | cons b l ih =>
    obtain ⟨i, cnt, q, hb, hq⟩ := hf b
    simp only [List.map_cons, List.foldl_cons, hb]
    by_cases hl : l = []
    · subst hl; exact hq
    · exact ih hl _

theorem foldl_inputs (f : String → Ev) (hf : ∀ b, ∃ i cnt q, f b = .order i cnt false b q)
    (l : List String) (r : Nat) :
    (l.map f).foldl runAfter r = r := by
  induction l generalizing r with
  | nil => rfl
  | cons b l ih =>
    obtain ⟨i, cnt, q, hb⟩ := hf b
    simp only [List.map_cons, List.foldl_cons, hb]
    exact ih r

theorem fileQuery_runid (c : RunCmd) (p : String) (n : Nat) :
    (fileQuery c p n).runid.getD 0 = newRunId c p n := by
  unfold fileQuery
  split
  · rfl
  · rename_i h; unfold newRunId; rw [if_neg h]; rfl

theorem lastRun_orders (s : St) (c : RunCmd) (n : Nat) (h : s.builders ≠ []) :
    lastRun (s.log ++ orders s c n) = newRunId c s.lastPfx n := by
  rw [lastRun_append]
  unfold orders
  rw [List.foldl_append, foldl_builders (k := newRunId c s.lastPfx n) _
    (fun b => ⟨_, _, _, rfl, fileQuery_runid _ _ _⟩) _ h]
  split
  · exact foldl_inputs _ (fun b => ⟨_, _, _, rfl⟩) _ _
  · rfl

theorem noOrder_count {l : List Ev} {cnt k : Nat} (h : ∀ i c b n q, Ev.order i c b n q ∈ l → c ≤ k)
    (hk : k < cnt) : l.countP (isOrder cnt) = 0 := by
  rw [List.countP_eq_zero]
  intro e he
  cases e with
  | order i c b n q =>
    have := h i c b n q he
    simp only [isOrder, beq_iff_eq]; omega
  | _ => simp [isOrder]

theorem marked_flags (s : St) (c : RunCmd) (n : Nat) (q : Query)
    (hq : calibrQuery c s.lastPfx s.masterRunId n = some q) :
    (marked s c n).calibrRun = true ∧ (marked s c n).start = c.start ∧
    ((marked s c n).start = false → q = ⟨false, some (marked s c n).calibrRunId, none⟩) := by
  unfold marked
  rw [hq]
  refine ⟨rfl, rfl, ?_⟩
  intro hs
  have hs : c.start = false := hs
  unfold calibrQuery goStart at hq
  rw [hs] at hq
  simp only [Bool.false_and, Bool.false_eq_true, if_false] at hq
  split at hq
  · cases hq; rfl
  · cases hq

theorem runInv_accepted {s : St} (c : RunCmd) (n : Nat) (h : RunInv s) (hb : s.builders ≠ []) :
    RunInv (accepted s c n) := by
  have z1 := noOrder_count (cnt := s.cmdCnt + 1) h.late (by omega)
  have z2 : s.log.countP (isReply (s.cmdCnt + 1)) = 0 := by
    have := h.once (s.cmdCnt + 1); omega
  have hm : ∀ e ∈ s.log ++ orders s c n, e ∈ s.log ∨ e ∈ orders s c n :=
    fun e he => List.mem_append.1 he
  refine ⟨h.nodes, h.fresh, ?_, ?_, ?_, ?_, ?_⟩
  · intro i cnt b m q hmem
    show cnt ≤ s.cmdCnt + 1
    rcases hm _ hmem with h1 | h1
    · have := h.late i cnt b m q h1; omega
    · rcases mem_orders h1 with ⟨_, _, he⟩ | ⟨_, _, _, _, he⟩ <;> cases he <;> exact Nat.le_refl _
  · intro cnt
    show (s.log ++ orders s c n).countP _ ≤ (s.log ++ orders s c n).countP _
    rw [List.countP_append, List.countP_append, orders_replies]
    have := h.once cnt; omega
  · exact (lastRun_orders s c n hb).symm
  · intro i j cnt a b q r h1 h2
    rcases hm _ h1 with h1 | h1 <;> rcases hm _ h2 with h2 | h2
    · exact h.same i j cnt a b q r h1 h2
    · have := h.late _ _ _ _ _ h1
      rcases mem_orders h2 with ⟨_, _, he⟩ | ⟨_, _, _, _, he⟩ <;> cases he <;> omega
    · have := h.late _ _ _ _ _ h2
      rcases mem_orders h1 with ⟨_, _, he⟩ | ⟨_, _, _, _, he⟩ <;> cases he <;> omega
    · rcases mem_orders h1 with ⟨_, _, he⟩ | ⟨_, _, _, _, he⟩ <;> cases he
      rcases mem_orders h2 with ⟨_, _, he⟩ | ⟨_, _, _, _, he⟩ <;> cases he
      exact ⟨rfl, rfl⟩
  · intro d hd
    have hd : marked s c n = d := Option.some.inj hd
    refine ⟨?_, ?_, ?_, ?_, ?_⟩
    · show orderCnt s c n = ((s.log ++ orders s c n).countP (isOrder (s.cmdCnt + 1)) : Int) -
        (s.log ++ orders s c n).countP (isReply (s.cmdCnt + 1))
      rw [List.countP_append, List.countP_append, orders_replies, z1, z2]
      have := orders_count s c n
      push_cast; omega
    · exact orderCnt_pos c n hb
    · intro i b m q hmem
      rw [← hd, marked_id]
      rcases hm _ hmem with h1 | h1
      · have := h.late _ _ _ _ _ h1
        have e : (accepted s c n).cmdCnt = s.cmdCnt + 1 := rfl
        omega
      · rcases mem_orders h1 with ⟨_, _, he⟩ | ⟨_, _, _, _, he⟩ <;> cases he <;> rfl
    · intro _
      show IsMin 1 (qualities (s.cmdCnt + 1) (s.log ++ orders s c n))
      rw [qualities_none _ _ (by rw [List.countP_append, orders_replies, z2])]
      exact isMin_nil
    · intro i m q hmem
      rcases hm _ hmem with h1 | h1
      · have := h.late _ _ _ _ _ h1
        have e : (accepted s c n).cmdCnt = s.cmdCnt + 1 := rfl
        omega
      · rcases mem_orders h1 with ⟨_, _, he⟩ | ⟨_, _, r, hr, he⟩ <;> cases he
        obtain ⟨m1, _, m3⟩ := marked_flags s c n q hr
        rw [hd] at m1 m3
        exact ⟨m1, m3⟩

/-- Nothing happened but quiet events. -/
theorem runInv_emits {s : St} (h : RunInv s) (es : List Ev) (hes : ∀ e ∈ es, RunQuiet e) :
    RunInv (s.emits es) :=
  runInv_congr h (.inl rfl) rfl rfl rfl rfl h.nodes h.fresh ⟨es, rfl, hes⟩

theorem runInv_emit {s : St} (h : RunInv s) (e : Ev) (he : RunQuiet e) : RunInv (s.emit e) :=
  runInv_emits h [e] (by simpa using he)

theorem runInv_parked {s : St} (h : RunInv s) (c : RunCmd) (hf : Fresh c) :
    RunInv (parked s c) := by
  unfold parked
  cases hi : s.initCmd with
  | none =>
    exact runInv_congr (t := { s with initCmd := some c, same := 0 }) h (.inl rfl) rfl rfl rfl rfl
      h.nodes (by intro w hw; cases hw; exact hf) ⟨[], by simp, by simp⟩
  | some w =>
    exact runInv_congr (t := { s.emit (.answer w.id false) with initCmd := some c, same := 0 }) h
      (.inl rfl) rfl rfl rfl rfl h.nodes (by intro w hw; cases hw; exact hf)
      ⟨[.answer w.id false], rfl, by simp [RunQuiet]⟩

theorem runInv_execRun {s : St} (h : RunInv s) (c : RunCmd) (hf : Parks c → Fresh c) (p : Bool)
    (n j : Nat) : RunInv (St.reply (execRun s c p n) j) := by
  rcases execRun_cases s c p n with ⟨_, e⟩ | ⟨_, h2, e⟩ | ⟨_, _, _, e⟩ | ⟨_, _, _, _, e⟩ |
    ⟨_, _, hb, _, e⟩ <;> rw [e]
  · exact runInv_emit h _ trivial
  · exact runInv_parked h c (hf h2)
  · exact runInv_emit h _ trivial
  · exact runInv_emit h _ trivial
  · exact runInv_accepted c n h hb

theorem runInv_checkInit {s : St} (h : RunInv s) (bs : List String) (p : Bool) (n : Nat) :
    RunInv (checkInit s bs p n) := by
  by_cases hb : s.lastBuilders ≠ [] ∧ s.lastBuilders = bs
  · cases hi : s.initCmd with
    | none =>
      rw [checkInit_none s bs p n hb hi]
      exact runInv_congr (t := { s with same := s.same + 1 }) h (.inl rfl) rfl rfl rfl rfl h.nodes
        h.fresh ⟨[], by simp, by simp⟩
    | some w =>
      rw [checkInit_some s bs p n w hb hi]
      have h1 : RunInv ({ s with same := s.same + 1 } : St) :=
        runInv_congr h (.inl rfl) rfl rfl rfl rfl h.nodes h.fresh ⟨[], by simp, by simp⟩
      have h2 := runInv_execRun h1 { w with verified := true }
        (by intro hp; cases hp.2.2) p n w.id
      exact runInv_congr h2 (.inl rfl) rfl rfl rfl rfl h2.nodes (by intro w hw; cases hw)
        ⟨[], by simp, by simp⟩
  · rw [checkInit_diff s bs p n hb]
    exact runInv_congr (t := { s with same := 0 }) h (.inl rfl) rfl rfl rfl rfl h.nodes
      h.fresh ⟨[], by simp, by simp⟩

/-- The events of a new cycle. -/
theorem newCycle_log (s : St) (bs is : List String) :
    ∃ es, (newCycle s bs is).log = s.log ++ es ∧ (∀ e ∈ es, RunQuiet e) ∧ ∀ e ∈ es, RefQuiet e := by
  unfold newCycle
  dsimp only
  generalize (if (s.ctrlError || decide (0 < s.ctrlCnt)) = true then s.ctrlErrorCnt + 1 else 0) = k
  split
  · refine ⟨(bs.map (fun b => Ev.ctrlOrder (s.ctrlId + 1) true b) ++
      is.map (fun b => Ev.ctrlOrder (s.ctrlId + 1) false b)) ++ [_],
      List.append_assoc _ _ _, ?_, ?_⟩
    · intro e he
      simp only [List.mem_append, List.mem_map, List.mem_singleton] at he
      rcases he with (⟨_, _, rfl⟩ | ⟨_, _, rfl⟩) | rfl <;> trivial
    · intro e he
      simp only [List.mem_append, List.mem_map, List.mem_singleton] at he
      rcases he with (⟨_, _, rfl⟩ | ⟨_, _, rfl⟩) | rfl <;> trivial
  · refine ⟨_, rfl, ?_, ?_⟩
    · intro e he
      simp only [List.mem_append, List.mem_map] at he
      rcases he with ⟨_, _, rfl⟩ | ⟨_, _, rfl⟩ <;> trivial
    · intro e he
      simp only [List.mem_append, List.mem_map] at he
      rcases he with ⟨_, _, rfl⟩ | ⟨_, _, rfl⟩ <;> trivial

/-- Everything a new cycle leaves alone. -/
theorem newCycle_keeps (s : St) (bs is : List String) :
    (newCycle s bs is).cur = s.cur ∧ (newCycle s bs is).cmdCnt = s.cmdCnt ∧
    (newCycle s bs is).replies = s.replies ∧ (newCycle s bs is).quality = s.quality ∧
    (newCycle s bs is).masterRunId = s.masterRunId ∧
    (newCycle s bs is).builders = s.builders ∧ (newCycle s bs is).lastBuilders = s.lastBuilders ∧
    (newCycle s bs is).initCmd = s.initCmd ∧ (newCycle s bs is).refreshCmd = s.refreshCmd ∧
    (newCycle s bs is).refreshCnt = s.refreshCnt ∧
    (newCycle s bs is).refreshReplies = s.refreshReplies ∧
    (newCycle s bs is).inputs = s.inputs := by
  unfold newCycle
  dsimp only
  generalize (if (s.ctrlError || decide (0 < s.ctrlCnt)) = true then s.ctrlErrorCnt + 1 else 0) = k
  split <;> exact ⟨rfl, rfl, rfl, rfl, rfl, rfl, rfl, rfl, rfl, rfl, rfl, rfl⟩

theorem runInv_namesReply {s : St} (h : RunInv s) (items : List NameItem) (o p : Bool) (n : Nat) :
    RunInv (namesReply s items o p n) := by
  unfold namesReply
  dsimp only
  have h1 := runInv_checkInit h ((collect "receiver" items).map Prod.fst) p n
  generalize checkInit s ((collect "receiver" items).map Prod.fst) p n = t at h1
  have h2 : RunInv ({ t with
      lastBuilders := (collect "receiver" items).map Prod.fst,
      builders := (collect "receiver" items).map Prod.fst,
      inputs := (collect "sender" items).map Prod.fst } : St) :=
    runInv_congr h1 (.inl rfl) rfl rfl rfl rfl rfl h1.fresh ⟨[], by simp, by simp⟩
  split
  · exact h2
  · obtain ⟨es, e1, e2, _⟩ := newCycle_log ({ t with
      lastBuilders := (collect "receiver" items).map Prod.fst,
      builders := (collect "receiver" items).map Prod.fst,
      inputs := (collect "sender" items).map Prod.fst } : St)
      ((collect "receiver" items).map Prod.fst) ((collect "sender" items).map Prod.fst)
    obtain ⟨k1, k2, k3, k4, k5, k6, k7, k8, _⟩ := newCycle_keeps ({ t with
      lastBuilders := (collect "receiver" items).map Prod.fst,
      builders := (collect "receiver" items).map Prod.fst,
      inputs := (collect "sender" items).map Prod.fst } : St)
      ((collect "receiver" items).map Prod.fst) ((collect "sender" items).map Prod.fst)
    exact runInv_congr h2 (.inl k1) k2 k3 k4 k5 (by rw [k6, k7]) (by rw [k8]; exact h2.fresh)
      ⟨es, e1, e2⟩

/-- Events and kept fields of a control reply. -/
theorem ctrlReply_keeps (cfg : Cfg) (s : St) (id : Nat) (ok : Bool) (items : List CtrlItem)
    (over : Bool) :
    (ctrlReply cfg s id ok items over).cur = s.cur ∧
    (ctrlReply cfg s id ok items over).cmdCnt = s.cmdCnt ∧
    (ctrlReply cfg s id ok items over).replies = s.replies ∧
    (ctrlReply cfg s id ok items over).quality = s.quality ∧
    (ctrlReply cfg s id ok items over).masterRunId = s.masterRunId ∧
    (ctrlReply cfg s id ok items over).builders = s.builders ∧
    (ctrlReply cfg s id ok items over).lastBuilders = s.lastBuilders ∧
    (ctrlReply cfg s id ok items over).initCmd = s.initCmd ∧
    (ctrlReply cfg s id ok items over).refreshCmd = s.refreshCmd ∧
    (ctrlReply cfg s id ok items over).refreshCnt = s.refreshCnt ∧
    (ctrlReply cfg s id ok items over).refreshReplies = s.refreshReplies ∧
    ∃ es, (ctrlReply cfg s id ok items over).log = s.log ++ es ∧
      (∀ e ∈ es, RunQuiet e) ∧ (∀ e ∈ es, RefQuiet e) ∧
      ∀ i b, Ev.answer i b ∉ es := by
  unfold ctrlReply
  split
  · dsimp only
    split
    · split
      · exact ⟨rfl, rfl, rfl, rfl, rfl, rfl, rfl, rfl, rfl, rfl, rfl, [_, _],
          List.append_assoc _ _ _, by simp [RunQuiet], by simp [RefQuiet], by simp⟩
      · exact ⟨rfl, rfl, rfl, rfl, rfl, rfl, rfl, rfl, rfl, rfl, rfl, [_], rfl,
          by simp [RunQuiet], by simp [RefQuiet], by simp⟩
    · exact ⟨rfl, rfl, rfl, rfl, rfl, rfl, rfl, rfl, rfl, rfl, rfl, [], by simp, by simp, by simp,
        by simp⟩
  · exact ⟨rfl, rfl, rfl, rfl, rfl, rfl, rfl, rfl, rfl, rfl, rfl, [], by simp, by simp, by simp,
        by simp⟩

theorem runInv_timer {s : St} (h : RunInv s) (a b : Bool) : RunInv (timer s a b) := by
  rw [timer_eq]
  have h1 : RunInv (timerCur s a) := by
    unfold timerCur
    split
    · split
      · exact runInv_congr h (.inr rfl) rfl rfl rfl rfl h.nodes h.fresh
          ⟨[_], rfl, by simp [RunQuiet]⟩
      · exact h
    · exact h
  generalize timerCur s a = t at h1
  unfold timerInit
  split
  · split
    · exact runInv_congr h1 (.inl rfl) rfl rfl rfl rfl h1.nodes (by intro w hw; cases hw)
        ⟨[_], rfl, by simp [RunQuiet]⟩
    · exact h1
  · exact h1

theorem refreshReply_keeps (s : St) (cnt : Nat) (q : Option Rat) :
    (refreshReply s cnt q).cur = s.cur ∧ (refreshReply s cnt q).cmdCnt = s.cmdCnt ∧
    (refreshReply s cnt q).replies = s.replies ∧ (refreshReply s cnt q).quality = s.quality ∧
    (refreshReply s cnt q).masterRunId = s.masterRunId ∧
    (refreshReply s cnt q).builders = s.builders ∧
    (refreshReply s cnt q).lastBuilders = s.lastBuilders ∧
    (refreshReply s cnt q).initCmd = s.initCmd ∧
    ∃ es, (refreshReply s cnt q).log = s.log ++ es ∧ ∀ e ∈ es, RunQuiet e := by
  unfold refreshReply
  split
  · exact ⟨rfl, rfl, rfl, rfl, rfl, rfl, rfl, rfl, [], by simp, by simp⟩
  · split
    · dsimp only
      split
      · exact ⟨rfl, rfl, rfl, rfl, rfl, rfl, rfl, rfl, [_, _], List.append_assoc _ _ _,
          by simp [RunQuiet]⟩
      · exact ⟨rfl, rfl, rfl, rfl, rfl, rfl, rfl, rfl, [], by simp, by simp⟩
    · exact ⟨rfl, rfl, rfl, rfl, rfl, rfl, rfl, rfl, [], by simp, by simp⟩

theorem isMin_cons_end {m : Rat} {l : List Rat} (h : IsMin m l) (q : Rat) :
    IsMin (if q < m then q else m) (l ++ [q]) := by
  obtain ⟨h1, h2⟩ := h
  split
  · rename_i hq
    refine ⟨by simp, ?_⟩
    intro x hx
    simp only [List.mem_cons, List.mem_append, List.not_mem_nil, or_false] at hx
    rcases hx with hx | hx | hx
    · exact Rat.le_trans (Rat.le_of_lt hq) (h2 x (by simp [hx]))
    · exact Rat.le_trans (Rat.le_of_lt hq) (h2 x (by simp [hx]))
    · subst hx; exact Rat.le_refl
  · rename_i hq
    refine ⟨?_, ?_⟩
    · simp only [List.mem_cons, List.mem_append, List.not_mem_nil, or_false] at h1 ⊢
      rcases h1 with h1 | h1
      · exact .inl h1
      · exact .inr (.inl h1)
    intro x hx
    simp only [List.mem_cons, List.mem_append, List.not_mem_nil, or_false] at hx
    rcases hx with hx | hx | hx
    · exact h2 x (by simp [hx])
    · exact h2 x (by simp [hx])
    · subst hx; exact Rat.not_lt.1 hq

/-- A reply to an order came in: the current command gets nearer to its end. -/
theorem subReply_curInv {s : St} (h : RunInv s) (c : RunCmd) (hc : s.cur = some c) (ok : Bool)
    (q : Option Rat) :
    let l := s.log ++ [Ev.got (.subReply s.cmdCnt ok q)]
    s.replies - 1 = (l.countP (isOrder s.cmdCnt) : Int) - l.countP (isReply s.cmdCnt) ∧
    (stopCalibr c = true → IsMin (lowerQuality c s.quality q) (qualities s.cmdCnt l)) := by
  have hs := h.cur c hc
  refine ⟨?_, ?_⟩
  · rw [hs.replies]
    simp only [List.countP_append, List.countP_cons, List.countP_nil, isOrder, isReply, beq_self_eq_true]
    push_cast
    simp
    omega
  · intro hst
    rw [qualities_append]
    cases q with
    | none => simpa [qualities, lowerQuality] using hs.quality hst
    | some q =>
      have := isMin_cons_end (hs.quality hst) q
      simpa [qualities, lowerQuality, hst] using this

theorem runInv_got {s : St} (h : RunInv s) (cnt : Nat) (ok : Bool) (q : Option Rat)
    (hv : Valid s.log (.subReply cnt ok q)) (hcnt : s.cur = none ∨ cnt ≠ s.cmdCnt) :
    RunInv (s.emit (.got (.subReply cnt ok q))) := by
  have o : ∀ k, (s.log ++ [Ev.got (.subReply cnt ok q)]).countP (isOrder k) =
      s.log.countP (isOrder k) := fun k => countP_quiet _ _ (by simp [isOrder])
  have r : ∀ k, k ≠ cnt → (s.log ++ [Ev.got (.subReply cnt ok q)]).countP (isReply k) =
      s.log.countP (isReply k) := fun k hk => countP_quiet _ _ (by
        intro e he; simp only [List.mem_singleton] at he; subst he
        simp only [isReply, beq_eq_false_iff_ne]; exact fun hh => hk hh.symm)
  have m : ∀ {i k b n x}, Ev.order i k b n x ∈ s.log ++ [Ev.got (.subReply cnt ok q)] →
      Ev.order i k b n x ∈ s.log := by
    intro i k b n x hm; simpa using hm
  refine ⟨h.nodes, h.fresh, ?_, ?_, ?_, ?_, ?_⟩
  · intro i k b n x hm; exact h.late i k b n x (m hm)
  · intro k
    show (s.log ++ [Ev.got (.subReply cnt ok q)]).countP _ ≤
      (s.log ++ [Ev.got (.subReply cnt ok q)]).countP _
    rw [o]
    by_cases hk : k = cnt
    · subst hk
      have hv : s.log.countP (isReply k) < s.log.countP (isOrder k) := hv
      rw [List.countP_append]
      simp only [List.countP_cons, List.countP_nil, isReply, beq_self_eq_true, if_true]
      omega
    · rw [r k hk]; exact h.once k
  · show s.masterRunId = lastRun (s.log ++ [_])
    rw [lastRun_append]; exact h.master
  · intro i j k a b x y h1 h2; exact h.same i j k a b x y (m h1) (m h2)
  · intro c hc
    have hs := h.cur c hc
    rcases hcnt with hcnt | hcnt
    · have hc : s.cur = some c := hc
      rw [hcnt] at hc; cases hc
    refine ⟨?_, hs.left, ?_, ?_, ?_⟩
    · show s.replies = ((s.log ++ [Ev.got (.subReply cnt ok q)]).countP (isOrder s.cmdCnt) : Int) -
        (s.log ++ [Ev.got (.subReply cnt ok q)]).countP (isReply s.cmdCnt)
      rw [o, r _ (Ne.symm hcnt)]; exact hs.replies
    · intro i b n x hm; exact hs.own i b n x (m hm)
    · intro hst
      show IsMin s.quality (qualities s.cmdCnt (s.log ++ [_]))
      rw [qualities_append]
      have : qualities s.cmdCnt [Ev.got (.subReply cnt ok q)] = [] := by
        cases q with
        | none => rfl
        | some q => simp [qualities, hcnt]
      rw [this, List.append_nil]; exact hs.quality hst
    · intro i n x hm; exact hs.calibr i n x (m hm)

theorem runInv_clear {s : St} (l : List Ev) (s' : St) (h : RunInv s')
    (h1 : s.cur = none) (h2 : s.cmdCnt = s'.cmdCnt) (h3 : s.masterRunId = s'.masterRunId)
    (h4 : s.builders = s.lastBuilders) (h5 : ∀ w, s.initCmd = some w → Fresh w)
    (h6 : s.log = s'.log ++ l) (h7 : ∀ e ∈ l, RunQuiet e) : RunInv s := by
  have h' := runInv_congr (t := { s' with cur := none, log := s'.log ++ l }) h (.inr rfl) rfl rfl
    rfl rfl h.nodes h.fresh ⟨l, rfl, h7⟩
  refine ⟨h4, h5, ?_, ?_, ?_, ?_, ?_⟩
  · rw [h6, h2]; exact h'.late
  · rw [h6]; exact h'.once
  · rw [h6, h3]; exact h'.master
  · rw [h6]; exact h'.same
  · intro c hc; rw [h1] at hc; cases hc

/-- Invariant after a reply when the current command is dropped from it. -/
theorem runInv_got_none {s : St} (h : RunInv s) (cnt : Nat) (ok : Bool) (q : Option Rat)
    (hv : Valid s.log (.subReply cnt ok q)) :
    RunInv ({ s with cur := none, log := s.log ++ [.got (.subReply cnt ok q)] } : St) := by
  have h1 : RunInv ({ s with cur := none } : St) :=
    runInv_congr h (.inr rfl) rfl rfl rfl rfl h.nodes h.fresh ⟨[], by simp, by simp⟩
  exact runInv_got h1 cnt ok q hv (.inl rfl)

theorem runInv_subReply {s : St} (h : RunInv s) (cnt : Nat) (ok : Bool) (q : Option Rat)
    (hv : Valid s.log (.subReply cnt ok q)) :
    RunInv (subReply (s.emit (.got (.subReply cnt ok q))) cnt q) := by
  have hn := runInv_got_none h cnt ok q hv
  unfold subReply
  split
  · rename_i hc
    exact runInv_got h cnt ok q hv (.inl hc)
  · rename_i c hc
    have hc : s.cur = some c := hc
    split
    · rename_i hcnt
      have hcnt : cnt = s.cmdCnt := hcnt
      subst hcnt
      have hs := h.cur c hc
      obtain ⟨k1, k2⟩ := subReply_curInv h c hc ok q
      dsimp only
      split
      · split
        · exact runInv_clear [.answer c.id true, .calibrFile _ _] _ hn rfl rfl rfl h.nodes h.fresh
            (List.append_assoc _ [_] [_]) (by simp [RunQuiet])
        · exact runInv_clear [.answer c.id true] _ hn rfl rfl rfl h.nodes h.fresh
            rfl (by simp [RunQuiet])
      · rename_i hpos
        have hpos : ¬ s.replies - 1 ≤ 0 := hpos
        refine ⟨hn.nodes, hn.fresh, hn.late, hn.once, hn.master, hn.same, ?_⟩
        intro d hd
        have hd : s.cur = some d := hd
        have hcd : c = d := Option.some.inj (Eq.trans (Eq.symm (show s.cur = some c from hc)) hd)
        subst hcd
        have m : ∀ {i k b n x}, Ev.order i k b n x ∈
            s.log ++ [Ev.got (.subReply s.cmdCnt ok q)] → Ev.order i k b n x ∈ s.log := by
          intro i k b n x hm; simpa using hm
        refine ⟨k1, ?_, ?_, k2, ?_⟩
        · show 0 < s.replies - 1
          omega
        · intro i b n x hm; exact hs.own i b n x (m hm)
        · intro i n x hm; exact hs.calibr i n x (m hm)
    · rename_i hcnt
      exact runInv_got h cnt ok q hv (.inr hcnt)

theorem execRefresh_keeps (s : St) (j : Nat) (p : Bool) :
    let t := St.reply (execRefresh s j p) j
    t.cur = s.cur ∧ t.cmdCnt = s.cmdCnt ∧ t.replies = s.replies ∧ t.quality = s.quality ∧
    t.masterRunId = s.masterRunId ∧ t.builders = s.builders ∧ t.lastBuilders = s.lastBuilders ∧
    t.initCmd = s.initCmd ∧ ∃ es, t.log = s.log ++ es ∧ ∀ e ∈ es, RunQuiet e := by
  unfold execRefresh
  split
  · exact ⟨rfl, rfl, rfl, rfl, rfl, rfl, rfl, rfl, [_], rfl, by simp [RunQuiet]⟩
  split
  · exact ⟨rfl, rfl, rfl, rfl, rfl, rfl, rfl, rfl, [_], rfl, by simp [RunQuiet]⟩
  · refine ⟨rfl, rfl, rfl, rfl, rfl, rfl, rfl, rfl, _, rfl, ?_⟩
    intro e he; obtain ⟨b, _, rfl⟩ := List.mem_map.1 he; trivial

theorem execReset_keeps (s : St) (j : Nat) (p : Bool) :
    ∃ es, St.reply (execReset s p) j = s.emits es ∧ (∀ e ∈ es, RunQuiet e) ∧
      (∀ e ∈ es, RefQuiet e) ∧ ∀ i b, Ev.answer i b ∈ es → i = j ∧ b = p := by
  unfold execReset
  cases p with
  | false =>
    exact ⟨[.answer j false], rfl, by simp [RunQuiet], by simp [RefQuiet], by simp⟩
  | true =>
    refine ⟨s.inputs.map Ev.drop ++ s.builders.map Ev.drop ++ [.answer j true], ?_, ?_, ?_, ?_⟩
    · simp [St.reply, St.emits, St.emit]
    · intro e he
      simp only [List.mem_append, List.mem_map, List.mem_singleton] at he
      rcases he with (⟨_, _, rfl⟩ | ⟨_, _, rfl⟩) | rfl <;> trivial
    · intro e he
      simp only [List.mem_append, List.mem_map, List.mem_singleton] at he
      rcases he with (⟨_, _, rfl⟩ | ⟨_, _, rfl⟩) | rfl <;> trivial
    · intro i b he
      simp only [List.mem_append, List.mem_map, List.mem_singleton] at he
      rcases he with (⟨_, _, h⟩ | ⟨_, _, h⟩) | h <;> cases h
      exact ⟨rfl, rfl⟩

theorem runInv_step {cfg : Cfg} {s : St} (h : RunInv s) (op : Op) (hv : Valid s.log op) :
    RunInv (step cfg s op) := by
  unfold step
  cases op with
  | run c p n =>
    have h1 : RunInv (s.emit (.got (.run c p n))) := runInv_emit h _ trivial
    exact runInv_execRun h1 c (fun _ => hv) p n c.id
  | refresh j p =>
    obtain ⟨k1, k2, k3, k4, k5, k6, k7, k8, k9⟩ := execRefresh_keeps
      (s.emit (.got (.refresh j p))) j p
    have h1 : RunInv (s.emit (.got (.refresh j p))) := runInv_emit h _ trivial
    simp only [act]
    exact runInv_congr h1 (.inl k1) k2 k3 k4 k5 (by rw [k6, k7]; exact h1.nodes)
      (by rw [k8]; exact h1.fresh) k9
  | reset j p =>
    obtain ⟨es, e1, e2, _⟩ := execReset_keeps (s.emit (.got (.reset j p))) j p
    simp only [act]
    rw [e1]
    have h1 : RunInv (s.emit (.got (.reset j p))) := runInv_emit h _ trivial
    exact runInv_emits h1 es e2
  | other j =>
    have h1 : RunInv (s.emit (.got (.other j))) := runInv_emit h _ trivial
    exact runInv_emit h1 (.answer j true) trivial
  | subReply c k q => exact runInv_subReply h c k q hv
  | refreshReply c k q =>
    obtain ⟨k1, k2, k3, k4, k5, k6, k7, k8, k9⟩ := refreshReply_keeps
      (s.emit (.got (.refreshReply c k q))) c q
    have h1 : RunInv (s.emit (.got (.refreshReply c k q))) := runInv_emit h _ trivial
    simp only [act]
    exact runInv_congr h1 (.inl k1) k2 k3 k4 k5 (by rw [k6, k7]; exact h1.nodes)
      (by rw [k8]; exact h1.fresh) k9
  | names a b c d =>
    have h1 : RunInv (s.emit (.got (.names a b c d))) := runInv_emit h _ trivial
    exact runInv_namesReply h1 a b c d
  | ctrlReply a b c d =>
    obtain ⟨k1, k2, k3, k4, k5, k6, k7, k8, _, _, _, es, e1, e2, _⟩ := ctrlReply_keeps cfg
      (s.emit (.got (.ctrlReply a b c d))) a b c d
    have h1 : RunInv (s.emit (.got (.ctrlReply a b c d))) := runInv_emit h _ trivial
    simp only [act]
    exact runInv_congr h1 (.inl k1) k2 k3 k4 k5 (by rw [k6, k7]; exact h1.nodes)
      (by rw [k8]; exact h1.fresh) ⟨es, e1, e2⟩
  | timer a b =>
    have h1 : RunInv (s.emit (.got (.timer a b))) := runInv_emit h _ trivial
    exact runInv_timer h1 a b

theorem runInv_reach {cfg : Cfg} {s : St} (h : Reach cfg s) : RunInv s := by
  induction h with
  | init k => exact runInv_init k
  | step s op _ hv ih => exact runInv_step ih op hv

end Verif.BnetMaster
