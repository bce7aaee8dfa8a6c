import Verif.BnetMasterState
import Verif.BnetMasterAnswer

/-!
# Lemmas about the master of a builder network: the control cycle
-/

namespace Verif.BnetMaster

open Spec

theorem like_refl (a : Ctrl) : Like a a := rfl

theorem like_trans {a b c : Ctrl} (h : Like a b) (k : Like b c) : Like a c := Eq.trans h k

/-- An event that is neither a control request nor a reply to one. -/
def CtrlQuiet (e : Ev) : Prop :=
  match e with
  | .ctrlOrder .. => False
  | .got (.ctrlReply ..) => False
  | _ => True

theorem quiet_ctrlOrder {e : Ev} (h : CtrlQuiet e) (cnt : Nat) : isCtrlOrder cnt e = false := by
  cases e <;> first | rfl | exact h.elim

theorem quiet_ctrlReply {e : Ev} (h : CtrlQuiet e) (cnt : Nat) : isCtrlReply cnt e = false := by
  cases e with
  | got op => cases op <;> first | rfl | exact h.elim
  | _ => first | rfl | exact h.elim

theorem reports_append (id : Nat) (a b : List Ev) :
    reports id (a ++ b) = reports id a ++ reports id b := by
  induction a with
  | nil => rfl
  | cons e a ih =>
    cases e with
    | got op =>
      cases op with
      | ctrlReply c ok items over =>
        simp only [reports, List.cons_append, ih]
        split <;> simp
      | _ => exact ih
    | _ => exact ih

theorem reports_quiet (id : Nat) (l es : List Ev) (h : ∀ e ∈ es, CtrlQuiet e) :
    reports id (l ++ es) = reports id l := by
  rw [reports_append]
  have : reports id es = [] := by
    induction es with
    | nil => rfl
    | cons e es ih =>
      have he := h e (by simp)
      have ih := ih (fun x hx => h x (by simp [hx]))
      cases e with
      | got op => cases op <;> first | exact ih | exact he.elim
      | _ => first | exact ih | exact he.elim
  rw [this, List.append_nil]

theorem reports_none (id : Nat) (l : List Ev) (h : l.countP (isCtrlReply id) = 0) :
    reports id l = [] := by
  rw [List.countP_eq_zero] at h
  induction l with
  | nil => rfl
  | cons e l ih =>
    have ih := ih (fun x hx => h x (by simp [hx]))
    have he := h e (by simp)
    cases e with
    | got op =>
      cases op with
      | ctrlReply c ok items over =>
        simp only [isCtrlReply, beq_iff_eq] at he
        simp only [reports, if_neg he]; exact ih
      | _ => exact ih
    | _ => exact ih

/-- Nothing changed for the control cycle, but for the size limit. -/
structure Keeps (s t : St) : Prop where
  id : t.ctrlId = s.ctrlId
  cnt : t.ctrlCnt = s.ctrlCnt
  err : t.ctrlErrorCnt = s.ctrlErrorCnt
  ctrl : Like t.ctrl s.ctrl
  log : ∃ es, t.log = s.log ++ es ∧ ∀ e ∈ es, CtrlQuiet e

theorem keeps_refl (s : St) : Keeps s s := ⟨rfl, rfl, rfl, rfl, [], by simp, by simp⟩

theorem keeps_trans {a b c : St} (h : Keeps a b) (k : Keeps b c) : Keeps a c := by
  obtain ⟨h1, h2, h3, h4, es, h5, h6⟩ := h
  obtain ⟨k1, k2, k3, k4, fs, k5, k6⟩ := k
  refine ⟨k1.trans h1, k2.trans h2, k3.trans h3, like_trans k4 h4, es ++ fs, ?_, ?_⟩
  · rw [k5, h5, List.append_assoc]
  · intro e he
    rcases List.mem_append.1 he with he | he
    · exact h6 e he
    · exact k6 e he

theorem keeps_emit (s : St) (e : Ev) (h : CtrlQuiet e) : Keeps s (s.emit e) :=
  ⟨rfl, rfl, rfl, rfl, [e], rfl, by simpa using h⟩

theorem keeps_emits (s : St) (es : List Ev) (h : ∀ e ∈ es, CtrlQuiet e) : Keeps s (s.emits es) :=
  ⟨rfl, rfl, rfl, rfl, es, rfl, h⟩

theorem keeps_parked (s : St) (c : RunCmd) : Keeps s (parked s c) := by
  unfold parked
  cases s.initCmd with
  | none => exact ⟨rfl, rfl, rfl, rfl, [], by simp, by simp⟩
  | some i => exact ⟨rfl, rfl, rfl, rfl, [_], rfl, by intro e he; simp only [List.mem_singleton] at he; subst he; trivial⟩

theorem keeps_accepted (s : St) (c : RunCmd) (n : Nat) : Keeps s (accepted s c n) := by
  refine ⟨rfl, rfl, rfl, ?_, orders s c n, rfl, ?_⟩
  · show Like (if c.start then { s.ctrl with szLimit := 1 } else s.ctrl) s.ctrl
    split <;> rfl
  · intro e he
    rcases mem_orders he with ⟨b, _, rfl⟩ | ⟨b, _, q, _, rfl⟩ <;> trivial

theorem keeps_execRun (s : St) (c : RunCmd) (p : Bool) (n j : Nat) :
    Keeps s (St.reply (execRun s c p n) j) := by
  rcases execRun_cases s c p n with ⟨_, e⟩ | ⟨_, _, e⟩ | ⟨_, _, _, e⟩ | ⟨_, _, _, _, e⟩ |
    ⟨_, _, _, _, e⟩ <;> rw [e]
  · exact keeps_emit s _ trivial
  · exact keeps_parked s c
  · exact keeps_emit s _ trivial
  · exact keeps_emit s _ trivial
  · exact keeps_accepted s c n

theorem keeps_execRefresh (s : St) (id : Nat) (p : Bool) (j : Nat) :
    Keeps s (St.reply (execRefresh s id p) j) := by
  unfold execRefresh
  split
  · exact keeps_emit s _ trivial
  split
  · exact keeps_emit s _ trivial
  · refine ⟨rfl, rfl, rfl, rfl, s.inputs.map (fun b => Ev.refreshOrder id (s.refreshCnt + 1) b), rfl, ?_⟩
    intro e he
    obtain ⟨b, _, rfl⟩ := List.mem_map.1 he
    trivial

theorem keeps_execReset (s : St) (p : Bool) (j : Nat) :
    Keeps s (St.reply (execReset s p) j) := by
  unfold execReset
  split
  · exact keeps_emit s _ trivial
  · refine keeps_trans (keeps_emits s _ ?_) (keeps_emit _ _ trivial)
    intro e he
    rcases List.mem_append.1 he with he | he <;>
    · obtain ⟨b, _, rfl⟩ := List.mem_map.1 he
      trivial

theorem keeps_subReply (s : St) (cnt : Nat) (q : Option Rat) : Keeps s (subReply s cnt q) := by
  unfold subReply
  split
  · exact keeps_refl s
  · rename_i c hc
    split
    · dsimp only
      split
      · split
        · exact ⟨rfl, rfl, rfl, rfl, [_, _], List.append_assoc _ _ _, by
            intro e he
            simp only [List.mem_cons, List.not_mem_nil, or_false] at he
            rcases he with rfl | rfl <;> trivial⟩
        · exact ⟨rfl, rfl, rfl, rfl, [_], rfl, by
            intro e he
            simp only [List.mem_singleton] at he
            subst he; trivial⟩
      · exact ⟨rfl, rfl, rfl, rfl, [], by simp, by simp⟩
    · exact keeps_refl s

theorem keeps_refreshReply (s : St) (cnt : Nat) (q : Option Rat) :
    Keeps s (refreshReply s cnt q) := by
  rcases refreshReply_cases s cnt q with ⟨e, _⟩ | ⟨id, q0, _, _, _, e⟩ | ⟨id, q0, _, _, _, e⟩ <;>
    rw [e]
  · exact keeps_refl s
  · exact ⟨rfl, rfl, rfl, rfl, [_, _], rfl, by
      intro e he
      simp only [List.mem_cons, List.not_mem_nil, or_false] at he
      rcases he with rfl | rfl <;> trivial⟩
  · exact ⟨rfl, rfl, rfl, rfl, [], by simp, by simp⟩

theorem keeps_timer (s : St) (a b : Bool) : Keeps s (timer s a b) := by
  rw [timer_eq]
  have h1 : Keeps s (timerCur s a) := by
    unfold timerCur
    split
    · split
      · exact ⟨rfl, rfl, rfl, rfl, [_], rfl, by
          intro e he
          simp only [List.mem_singleton] at he
          subst he; trivial⟩
      · exact keeps_refl s
    · exact keeps_refl s
  refine keeps_trans h1 ?_
  generalize timerCur s a = t
  unfold timerInit
  split
  · split
    · exact ⟨rfl, rfl, rfl, rfl, [_], rfl, by
        intro e he
        simp only [List.mem_singleton] at he
        subst he; trivial⟩
    · exact keeps_refl t
  · exact keeps_refl t

theorem keeps_checkInit (s : St) (bs : List String) (p : Bool) (n : Nat) :
    Keeps s (checkInit s bs p n) := by
  by_cases h : s.lastBuilders ≠ [] ∧ s.lastBuilders = bs
  · cases hi : s.initCmd with
    | none => rw [checkInit_none s bs p n h hi]; exact ⟨rfl, rfl, rfl, rfl, [], by simp, by simp⟩
    | some w =>
      rw [checkInit_some s bs p n w h hi]
      have k := keeps_execRun ({ s with same := s.same + 1 } : St) { w with verified := true } p n w.id
      exact ⟨k.id, k.cnt, k.err, k.ctrl, k.log⟩
  · rw [checkInit_diff s bs p n h]
    exact ⟨rfl, rfl, rfl, rfl, [], by simp, by simp⟩

/-! ### The invariant -/

/-- What is true about the control cycle in every state. -/
structure CycleInv (cfg : Cfg) (s : St) : Prop where
  late : ∀ i b n, Ev.ctrlOrder i b n ∈ s.log → i ≤ s.ctrlId
  once : ∀ id, s.log.countP (isCtrlReply id) ≤ s.log.countP (isCtrlOrder id)
  cnt : s.ctrlCnt =
    (s.log.countP (isCtrlOrder s.ctrlId) : Int) - s.log.countP (isCtrlReply s.ctrlId)
  cycle : ∃ c0, Start c0 ∧
    (0 < s.ctrlCnt → Like s.ctrl ((reports s.ctrlId s.log).foldl (report cfg) c0)) ∧
    ((∃ n, Ev.ctrlOrder s.ctrlId true n ∈ s.log) → (∃ n, Ev.ctrlOrder s.ctrlId false n ∈ s.log) →
      s.ctrlErrorCnt ≤ 5 → c0.name = "")

theorem mem_ctrlQuiet {l es : List Ev} (h : ∀ e ∈ es, CtrlQuiet e) {i : Nat} {b : Bool} {n : String}
    (hm : Ev.ctrlOrder i b n ∈ l ++ es) : Ev.ctrlOrder i b n ∈ l := by
  rcases List.mem_append.1 hm with h1 | h1
  · exact h1
  · exact (h _ h1).elim

theorem cycleInv_keeps {cfg : Cfg} {s t : St} (h : CycleInv cfg s) (k : Keeps s t) :
    CycleInv cfg t := by
  obtain ⟨k1, k2, k3, k4, es, hl, hes⟩ := k
  have c1 : ∀ cnt, t.log.countP (isCtrlOrder cnt) = s.log.countP (isCtrlOrder cnt) := fun cnt => by
    rw [hl]; exact countP_quiet _ _ (fun e he => quiet_ctrlOrder (hes e he) cnt)
  have c2 : ∀ cnt, t.log.countP (isCtrlReply cnt) = s.log.countP (isCtrlReply cnt) := fun cnt => by
    rw [hl]; exact countP_quiet _ _ (fun e he => quiet_ctrlReply (hes e he) cnt)
  have c3 : ∀ {i b n}, Ev.ctrlOrder i b n ∈ t.log → Ev.ctrlOrder i b n ∈ s.log := fun hm => by
    rw [hl] at hm; exact mem_ctrlQuiet hes hm
  obtain ⟨c0, a1, a2, a3⟩ := h.cycle
  refine ⟨?_, ?_, ?_, c0, a1, ?_, ?_⟩
  · intro i b n hm; rw [k1]; exact h.late i b n (c3 hm)
  · intro id; rw [c1, c2]; exact h.once id
  · rw [k1, k2, c1, c2]; exact h.cnt
  · intro hp
    rw [k1, hl, reports_quiet _ _ _ hes]
    exact like_trans k4 (a2 (by rw [← k2]; exact hp))
  · rw [k1, k3]
    rintro ⟨n, hn⟩ ⟨m, hm⟩ he
    exact a3 ⟨n, c3 hn⟩ ⟨m, c3 hm⟩ he

theorem start_cycleStart (s : St) (bs is : List String) (k : Nat) : Start (cycleStart s bs is k) := by
  unfold cycleStart
  split
  · exact ⟨rfl, rfl, rfl, rfl, rfl, rfl⟩
  split
  · exact ⟨rfl, rfl, rfl, rfl, rfl, rfl⟩
  split
  · exact ⟨rfl, rfl, rfl, rfl, rfl, rfl⟩
  split
  · exact ⟨rfl, rfl, rfl, rfl, rfl, rfl⟩
  · exact ⟨rfl, rfl, rfl, rfl, rfl, rfl⟩

theorem cycleStart_name (s : St) (bs is : List String) (k : Nat) (hb : bs ≠ []) (hi : is ≠ [])
    (hk : k ≤ 5) : (cycleStart s bs is k).name = "" := by
  unfold cycleStart
  rw [if_neg (fun h => hb h.1), if_neg hi, if_neg hb, if_neg (by omega)]

/-- The requests of a new cycle. -/
def requests (k : Nat) (bs is : List String) : List Ev :=
  bs.map (fun b => Ev.ctrlOrder k true b) ++ is.map (fun b => Ev.ctrlOrder k false b)

theorem mem_requests {k : Nat} {bs is : List String} {e : Ev} (h : e ∈ requests k bs is) :
    (∃ b ∈ bs, e = .ctrlOrder k true b) ∨ (∃ b ∈ is, e = .ctrlOrder k false b) := by
  rcases List.mem_append.1 h with h | h <;> obtain ⟨b, hb, rfl⟩ := List.mem_map.1 h
  · exact .inl ⟨b, hb, rfl⟩
  · exact .inr ⟨b, hb, rfl⟩

theorem requests_count (k : Nat) (bs is : List String) :
    (requests k bs is).countP (isCtrlOrder k) = bs.length + is.length := by
  unfold requests
  rw [List.countP_append, countP_map_all _ (fun b => by simp [isCtrlOrder]),
    countP_map_all _ (fun b => by simp [isCtrlOrder])]

theorem noCtrlOrder_count {l : List Ev} {id k : Nat} (h : ∀ i b n, Ev.ctrlOrder i b n ∈ l → i ≤ k)
    (hk : k < id) : l.countP (isCtrlOrder id) = 0 := by
  rw [List.countP_eq_zero]
  intro e he
  cases e with
  | ctrlOrder i b n =>
    have := h i b n he
    simp only [isCtrlOrder, beq_iff_eq]; omega
  | _ => simp [isCtrlOrder]

/-- Fields after a new cycle was started. -/
theorem newCycle_facts (s : St) (bs is : List String) :
    ∃ k, (newCycle s bs is).ctrlId = s.ctrlId + 1 ∧
    (newCycle s bs is).ctrlCnt = (bs.length : Int) + is.length ∧
    (newCycle s bs is).ctrlErrorCnt = k ∧ (newCycle s bs is).ctrl = cycleStart s bs is k ∧
    ∃ es, (newCycle s bs is).log = s.log ++ requests (s.ctrlId + 1) bs is ++ es ∧
      ∀ e ∈ es, ∃ q, e = .shown "NoNodes" q none ∧ (cycleStart s bs is k).name ≠ "" ∧
        q = (cycleStart s bs is k).quality := by
  unfold newCycle
  dsimp only
  generalize (if (s.ctrlError || decide (0 < s.ctrlCnt)) = true then s.ctrlErrorCnt + 1 else 0) = k
  refine ⟨k, ?_⟩
  split
  · rename_i hn
    refine ⟨rfl, rfl, rfl, rfl, [_], rfl, ?_⟩
    intro e he
    simp only [List.mem_singleton] at he
    exact ⟨_, he, hn, rfl⟩
  · exact ⟨rfl, rfl, rfl, rfl, [], by simp [requests], by simp⟩

theorem cycleInv_newCycle {cfg : Cfg} {s : St} (h : CycleInv cfg s) (bs is : List String) :
    CycleInv cfg (newCycle s bs is) := by
  obtain ⟨k, f1, f2, f3, f4, es, hl, hes⟩ := newCycle_facts s bs is
  generalize newCycle s bs is = t at f1 f2 f3 f4 hl
  have z1 := noCtrlOrder_count (id := s.ctrlId + 1) h.late (by omega)
  have z2 : s.log.countP (isCtrlReply (s.ctrlId + 1)) = 0 := by
    have := h.once (s.ctrlId + 1); omega
  have hq : ∀ e ∈ es, CtrlQuiet e := by
    intro e he; obtain ⟨q, rfl, _⟩ := hes e he; trivial
  have hrep : ∀ id, t.log.countP (isCtrlReply id) = s.log.countP (isCtrlReply id) := by
    intro id
    rw [hl, countP_quiet _ _ (fun e he => quiet_ctrlReply (hq e he) id),
      countP_quiet _ _ (fun e he => ?_)]
    rcases mem_requests he with ⟨b, _, rfl⟩ | ⟨b, _, rfl⟩ <;> rfl
  have hord : ∀ id, t.log.countP (isCtrlOrder id) =
      s.log.countP (isCtrlOrder id) + (requests (s.ctrlId + 1) bs is).countP (isCtrlOrder id) := by
    intro id
    rw [hl, countP_quiet _ _ (fun e he => quiet_ctrlOrder (hq e he) id), List.countP_append]
  refine ⟨?_, ?_, ?_, cycleStart s bs is k, start_cycleStart s bs is k, ?_, ?_⟩
  · intro i b n hm
    rw [f1]
    rw [hl] at hm
    rcases List.mem_append.1 (mem_ctrlQuiet hq hm) with hm | hm
    · have := h.late i b n hm; omega
    · rcases mem_requests hm with ⟨b, _, e⟩ | ⟨b, _, e⟩ <;> cases e <;> exact Nat.le_refl _
  · intro id
    rw [hrep, hord]
    have := h.once id; omega
  · rw [f1, f2, hrep, hord, z1, z2, requests_count]; omega
  · intro _
    rw [f1, reports_none _ _ (by rw [hrep]; exact z2), f4]
    exact like_refl _
  · rw [f1, f3]
    rintro ⟨n, hn⟩ ⟨m, hm⟩ he
    rw [hl] at hn hm
    have hb : bs ≠ [] := by
      rcases List.mem_append.1 (mem_ctrlQuiet hq hn) with hn | hn
      · have := h.late _ _ _ hn; omega
      · rcases mem_requests hn with ⟨b, hb, e⟩ | ⟨b, hb, e⟩
        · exact List.ne_nil_of_mem hb
        · cases e
    have hi : is ≠ [] := by
      rcases List.mem_append.1 (mem_ctrlQuiet hq hm) with hm | hm
      · have := h.late _ _ _ hm; omega
      · rcases mem_requests hm with ⟨b, hb, e⟩ | ⟨b, hb, e⟩
        · cases e
        · exact List.ne_nil_of_mem hb
    exact cycleStart_name s bs is k hb hi he

theorem cycleEnd_like {a b : Ctrl} (h : Like a b) : Like (cycleEnd a) (cycleEnd b) := by
  obtain ⟨k, rfl⟩ := (like_iff a b).1 h
  refine (like_iff _ _).2 ⟨k, ?_⟩
  have e1 : ∀ c : Ctrl, ready { c with szLimit := k } = { ready c with szLimit := k } := by
    intro c; unfold ready; dsimp only; split <;> rfl
  have e2 : ∀ (p : Prop) [Decidable p] (n : String) (c : Ctrl),
      endCheck p n { c with szLimit := k } = { endCheck p n c with szLimit := k } := by
    intro p _ n c; unfold endCheck; dsimp only; split <;> rfl
  rw [cycleEnd_eq, cycleEnd_eq]
  dsimp only
  rw [e1 b]
  dsimp only
  rw [e2]
  dsimp only
  rw [e2]
  dsimp only
  rw [e2]
  dsimp only
  rw [e2]

/-- A control reply: not for this cycle, not the last of it, the last of it. -/
theorem ctrlReply_cases (cfg : Cfg) (s : St) (id : Nat) (ok : Bool) (items : List CtrlItem)
    (over : Bool) :
    let c := ctrlItems cfg over s.ctrl false items
    let d := cycleEnd c
    (id ≠ s.ctrlId ∧ ctrlReply cfg s id ok items over = s) ∨
    (id = s.ctrlId ∧ s.ctrlCnt - 1 ≠ 0 ∧ ctrlReply cfg s id ok items over =
      { s with ctrlCnt := s.ctrlCnt - 1, ctrlError := s.ctrlError || !ok, ctrl := c }) ∨
    (id = s.ctrlId ∧ s.ctrlCnt - 1 = 0 ∧
      ¬ (cfg.control = true ∧ 1 < d.szLimit ∧ s.cur = none) ∧ ctrlReply cfg s id ok items over =
      { s with ctrlCnt := s.ctrlCnt - 1, ctrlError := s.ctrlError || !ok, ctrl := d,
               lastPfx := d.runPfx,
               log := s.log ++ [.shown d.name d.quality (some (d.runId, d.runPfx))] }) ∨
    (id = s.ctrlId ∧ s.ctrlCnt - 1 = 0 ∧ cfg.control = true ∧ 1 < d.szLimit ∧ s.cur = none ∧
      ctrlReply cfg s id ok items over =
      { s with ctrlCnt := s.ctrlCnt - 1, ctrlError := s.ctrlError || !ok,
               ctrl := { d with szLimit := 0 }, lastPfx := d.runPfx,
               log := s.log ++ [.shown d.name d.quality (some (d.runId, d.runPfx)),
                 .autoStart] }) := by
  dsimp only
  by_cases h : id = s.ctrlId
  rotate_left
  · left; refine ⟨h, ?_⟩; unfold ctrlReply; rw [if_neg h]
  right
  by_cases h1 : s.ctrlCnt - 1 = 0
  rotate_left
  · left; refine ⟨h, h1, ?_⟩; unfold ctrlReply; rw [if_pos h]; dsimp only; rw [if_neg h1]
  right
  by_cases h2 : cfg.control = true ∧
      1 < (cycleEnd (ctrlItems cfg over s.ctrl false items)).szLimit ∧ s.cur = none
  rotate_left
  · left
    refine ⟨h, h1, h2, ?_⟩
    unfold ctrlReply; rw [if_pos h]; dsimp only; rw [if_pos h1, if_neg ?_]
    · rfl
    · simp only [Bool.and_eq_true, decide_eq_true_eq]
      intro hh
      refine h2 ⟨hh.1.1, hh.1.2, ?_⟩
      have := hh.2
      simpa [St.emit] using this
  · right
    refine ⟨h, h1, h2.1, h2.2.1, h2.2.2, ?_⟩
    unfold ctrlReply; rw [if_pos h]; dsimp only; rw [if_pos h1, if_pos ?_]
    · simp [St.emit]
    · simp only [Bool.and_eq_true, decide_eq_true_eq]
      exact ⟨⟨h2.1, h2.2.1⟩, by simp [St.emit, h2.2.2]⟩

theorem reports_got (id : Nat) (l : List Ev) (ok : Bool) (items : List CtrlItem) (over : Bool) :
    reports id (l ++ [.got (.ctrlReply id ok items over)]) =
      reports id l ++ (roles false items).map (fun p => (over, p.1, p.2)) := by
  rw [reports_append]; simp [reports]

/-- The data of the cycle after a reply. -/
theorem ctrl_next {cfg : Cfg} {s : St} (h : CycleInv cfg s) (ok : Bool) (items : List CtrlItem)
    (over : Bool) (hp : 0 < s.ctrlCnt) {c0 : Ctrl}
    (hc : 0 < s.ctrlCnt → Like s.ctrl ((reports s.ctrlId s.log).foldl (report cfg) c0)) :
    Like (ctrlItems cfg over s.ctrl false items)
      ((reports s.ctrlId (s.log ++ [.got (.ctrlReply s.ctrlId ok items over)])).foldl
        (report cfg) c0) := by
  rw [reports_got, List.foldl_append, ctrlItems_eq]
  exact reports_like cfg _ (hc hp)

theorem ctrlReply_pos {cfg : Cfg} {s : St} (h : CycleInv cfg s) {ok : Bool} {items : List CtrlItem}
    {over : Bool} (hv : Valid s.log (.ctrlReply s.ctrlId ok items over)) : 0 < s.ctrlCnt := by
  have := h.cnt
  simp only [Valid] at hv
  omega

theorem cycleInv_ctrlReply {cfg : Cfg} {s : St} (h : CycleInv cfg s) (id : Nat) (ok : Bool)
    (items : List CtrlItem) (over : Bool) (hv : Valid s.log (.ctrlReply id ok items over)) :
    CycleInv cfg (ctrlReply cfg (s.emit (.got (.ctrlReply id ok items over))) id ok items over) := by
  obtain ⟨c0, a1, a2, a3⟩ := h.cycle
  have hv' := hv
  simp only [Valid] at hv'
  have gen : ∀ t : St, t.ctrlId = s.ctrlId → t.ctrlErrorCnt = s.ctrlErrorCnt →
      (∃ es, t.log = s.log ++ .got (.ctrlReply id ok items over) :: es ∧ ∀ e ∈ es, CtrlQuiet e) →
      t.ctrlCnt = (if id = s.ctrlId then s.ctrlCnt - 1 else s.ctrlCnt) →
      (0 < t.ctrlCnt → Like t.ctrl ((reports s.ctrlId t.log).foldl (report cfg) c0)) →
      CycleInv cfg t := by
    intro t t1 t2 ⟨es, t3, hes⟩ t4 t5
    have t3 : t.log = (s.log ++ [.got (.ctrlReply id ok items over)]) ++ es := by simp [t3]
    have c1 : ∀ cnt, t.log.countP (isCtrlOrder cnt) = s.log.countP (isCtrlOrder cnt) := by
      intro cnt
      rw [t3, countP_quiet _ _ (fun e he => quiet_ctrlOrder (hes e he) cnt),
        countP_quiet _ _ (by intro e he; simp only [List.mem_singleton] at he; subst he; rfl)]
    have c2 : ∀ cnt, t.log.countP (isCtrlReply cnt) =
        s.log.countP (isCtrlReply cnt) + if id = cnt then 1 else 0 := by
      intro cnt
      rw [t3, countP_quiet _ _ (fun e he => quiet_ctrlReply (hes e he) cnt), List.countP_append]
      simp [List.countP_cons, isCtrlReply]
    have c3 : ∀ {i b n}, Ev.ctrlOrder i b n ∈ t.log → Ev.ctrlOrder i b n ∈ s.log := fun hm => by
      rw [t3] at hm; simpa using mem_ctrlQuiet hes hm
    refine ⟨?_, ?_, ?_, c0, a1, ?_, ?_⟩
    · intro i b n hm; rw [t1]; exact h.late i b n (c3 hm)
    · intro cnt
      rw [c1, c2]
      have := h.once cnt
      split
      · rename_i he; subst he; omega
      · omega
    · rw [t1, c1, c2, t4]
      have := h.cnt
      split <;> simp <;> omega
    · rw [t1]; exact t5
    · rw [t1, t2]
      rintro ⟨n, hn⟩ ⟨m, hm⟩ he
      exact a3 ⟨n, c3 hn⟩ ⟨m, c3 hm⟩ he
  rcases ctrlReply_cases cfg (s.emit (.got (.ctrlReply id ok items over))) id ok items over with
    ⟨hn, e⟩ | ⟨he, hc, e⟩ | ⟨he, hc, _, e⟩ | ⟨he, hc, _, _, _, e⟩ <;> rw [e]
  · have hn' : id ≠ s.ctrlId := hn
    refine gen _ rfl rfl ⟨[], rfl, by simp⟩ (by rw [if_neg hn']; rfl) ?_
    intro hp
    have hr : reports s.ctrlId (s.log ++ [.got (.ctrlReply id ok items over)]) =
        reports s.ctrlId s.log := by
      rw [reports_append]; simp [reports, hn']
    show Like s.ctrl ((reports s.ctrlId (s.log ++ [.got (.ctrlReply id ok items over)])).foldl
      (report cfg) c0)
    rw [hr]
    exact a2 hp
  · have he' : id = s.ctrlId := he
    refine gen _ rfl rfl ⟨[], rfl, by simp⟩ (by rw [if_pos he']; rfl) ?_
    intro hp
    subst he'
    exact ctrl_next h ok items over (ctrlReply_pos h hv) a2
  · have he' : id = s.ctrlId := he
    refine gen _ rfl rfl ⟨[_], List.append_assoc _ _ _, ?_⟩ (by rw [if_pos he']; rfl) ?_
    · intro e he; simp only [List.mem_singleton] at he; subst he; trivial
    · intro hp
      have hc' : s.ctrlCnt - 1 = 0 := hc
      have hp' : 0 < s.ctrlCnt - 1 := hp
      omega
  · have he' : id = s.ctrlId := he
    refine gen _ rfl rfl ⟨[_, _], List.append_assoc _ _ _, ?_⟩ (by rw [if_pos he']; rfl) ?_
    · intro e he
      simp only [List.mem_cons, List.not_mem_nil, or_false] at he
      rcases he with rfl | rfl <;> trivial
    · intro hp
      have hc' : s.ctrlCnt - 1 = 0 := hc
      have hp' : 0 < s.ctrlCnt - 1 := hp
      omega

theorem cycleInv_init (cfg : Cfg) (k : Nat) : CycleInv cfg (St.init k) where
  late := by intro i b n h; cases h
  once := by intro id; exact Nat.le_refl _
  cnt := rfl
  cycle := ⟨{}, ⟨rfl, rfl, rfl, rfl, rfl, rfl⟩, fun _ => rfl, fun _ _ _ => rfl⟩

theorem cycleInv_step {cfg : Cfg} {s : St} (h : CycleInv cfg s) (op : Op) (hv : Valid s.log op) :
    CycleInv cfg (step cfg s op) := by
  unfold step
  cases op with
  | run c p n =>
    exact cycleInv_keeps h (keeps_trans (keeps_emit s (.got (.run c p n)) trivial) (keeps_execRun _ c p n c.id))
  | refresh j p =>
    exact cycleInv_keeps h (keeps_trans (keeps_emit s (.got (.refresh j p)) trivial) (keeps_execRefresh _ j p j))
  | reset j p =>
    exact cycleInv_keeps h (keeps_trans (keeps_emit s (.got (.reset j p)) trivial) (keeps_execReset _ p j))
  | other j =>
    exact cycleInv_keeps h (keeps_trans (keeps_emit s (.got (.other j)) trivial) (keeps_emit _ _ trivial))
  | subReply cnt ok q =>
    exact cycleInv_keeps h (keeps_trans (keeps_emit s (.got (.subReply cnt ok q)) trivial) (keeps_subReply _ cnt q))
  | refreshReply cnt ok q =>
    exact cycleInv_keeps h (keeps_trans (keeps_emit s (.got (.refreshReply cnt ok q)) trivial) (keeps_refreshReply _ cnt q))
  | timer a b =>
    exact cycleInv_keeps h (keeps_trans (keeps_emit s (.got (.timer a b)) trivial) (keeps_timer _ a b))
  | names items o p n =>
    have h1 : CycleInv cfg (checkInit (s.emit (.got (.names items o p n)))
        ((collect "receiver" items).map Prod.fst) p n) :=
      cycleInv_keeps h (keeps_trans (keeps_emit s (.got (.names items o p n)) trivial) (keeps_checkInit _ _ p n))
    simp only [act]
    unfold namesReply
    dsimp only
    generalize checkInit (s.emit (.got (.names items o p n)))
        ((collect "receiver" items).map Prod.fst) p n = t at h1
    have h2 : CycleInv cfg ({ t with
        lastBuilders := (collect "receiver" items).map Prod.fst,
        builders := (collect "receiver" items).map Prod.fst,
        inputs := (collect "sender" items).map Prod.fst } : St) :=
      cycleInv_keeps h1 ⟨rfl, rfl, rfl, rfl, [], by simp, by simp⟩
    split
    · exact h2
    · exact cycleInv_newCycle h2 _ _
  | ctrlReply id ok items over => exact cycleInv_ctrlReply h id ok items over hv

theorem cycleInv_reach {cfg : Cfg} {s : St} (h : Reach cfg s) : CycleInv cfg s := by
  induction h with
  | init k => exact cycleInv_init cfg k
  | step s op _ hv ih => exact cycleInv_step ih op hv

/-! ### The end of a cycle -/

/-- What is shown when the last reply comes in. -/
theorem shown_end {cfg : Cfg} {s : St} (h : CycleInv cfg s) (id : Nat) (ok : Bool)
    (items : List CtrlItem) (over : Bool) (hv : Valid s.log (.ctrlReply id ok items over))
    (es : List Ev)
    (hl : (step cfg s (.ctrlReply id ok items over)).log =
      s.log ++ .got (.ctrlReply id ok items over) :: es) (hes : es ≠ []) :
    ∃ c0, Start c0 ∧
      ((∃ n, Ev.ctrlOrder id true n ∈ s.log) → (∃ n, Ev.ctrlOrder id false n ∈ s.log) →
        s.ctrlErrorCnt ≤ 5 → c0.name = "") ∧
      (s.log ++ [Ev.got (.ctrlReply id ok items over)]).countP (isCtrlReply id) =
        (s.log ++ [Ev.got (.ctrlReply id ok items over)]).countP (isCtrlOrder id) ∧
      let d := cycleEnd
        ((reports id (s.log ++ [.got (.ctrlReply id ok items over)])).foldl (report cfg) c0)
      es = [.shown d.name d.quality (some (d.runId, d.runPfx))] ∨
      es = [.shown d.name d.quality (some (d.runId, d.runPfx)), .autoStart] := by
  obtain ⟨c0, a1, a2, a3⟩ := h.cycle
  have base : ∀ fs, (step cfg s (.ctrlReply id ok items over)).log =
      (s.emit (.got (.ctrlReply id ok items over))).log ++ fs → fs = es := by
    intro fs hf
    have : (s.log ++ [Ev.got (.ctrlReply id ok items over)]) ++ fs =
        (s.log ++ [Ev.got (.ctrlReply id ok items over)]) ++ es := by
      rw [← show (step cfg s (.ctrlReply id ok items over)).log =
        (s.log ++ [Ev.got (.ctrlReply id ok items over)]) ++ fs from hf, hl]; simp
    exact List.append_cancel_left this
  have main : id = s.ctrlId → s.ctrlCnt - 1 = 0 →
      (s.log ++ [Ev.got (.ctrlReply id ok items over)]).countP (isCtrlReply id) =
        (s.log ++ [Ev.got (.ctrlReply id ok items over)]).countP (isCtrlOrder id) ∧
      Like (cycleEnd (ctrlItems cfg over s.ctrl false items)) (cycleEnd
        ((reports id (s.log ++ [.got (.ctrlReply id ok items over)])).foldl (report cfg) c0)) := by
    intro he hc
    subst he
    refine ⟨?_, cycleEnd_like (ctrl_next h ok items over (ctrlReply_pos h hv) a2)⟩
    have := h.cnt
    simp only [List.countP_append, List.countP_cons, List.countP_nil, isCtrlReply, isCtrlOrder]
    simp
    omega
  have like : ∀ {a b : Ctrl}, Like a b → a.name = b.name ∧ a.quality = b.quality ∧
      a.runId = b.runId ∧ a.runPfx = b.runPfx := by
    intro a b hab
    obtain ⟨k, rfl⟩ := (like_iff a b).1 hab
    exact ⟨rfl, rfl, rfl, rfl⟩
  unfold step at base
  rcases ctrlReply_cases cfg (s.emit (.got (.ctrlReply id ok items over))) id ok items over with
    ⟨hn, e⟩ | ⟨he, hc, e⟩ | ⟨he, hc, _, e⟩ | ⟨he, hc, _, _, _, e⟩
  · exact absurd (base [] (by simp only [act]; rw [e]; simp)).symm hes
  · exact absurd (base [] (by simp only [act]; rw [e]; simp)).symm hes
  · obtain ⟨m1, m2⟩ := main he hc
    obtain ⟨l1, l2, l3, l4⟩ := like m2
    refine ⟨c0, a1, (by have he' : id = s.ctrlId := he; rw [he']; exact a3), m1, .inl ?_⟩
    rw [← base _ (by simp only [act]; rw [e])]
    simp only [← l1, ← l2, ← l3, ← l4]; rfl
  · obtain ⟨m1, m2⟩ := main he hc
    obtain ⟨l1, l2, l3, l4⟩ := like m2
    refine ⟨c0, a1, (by have he' : id = s.ctrlId := he; rw [he']; exact a3), m1, .inr ?_⟩
    rw [← base _ (by simp only [act]; rw [e])]
    simp only [← l1, ← l2, ← l3, ← l4]; rfl

end Verif.BnetMaster
