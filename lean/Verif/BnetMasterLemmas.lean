import Verif.Spec.BnetMaster

/-!
# Lemmas about the master of a builder network: every command is answered once
-/

namespace Verif.BnetMaster

open Spec

theorem received_append (a b : List Ev) : received (a ++ b) = received a ++ received b := by
  induction a with
  | nil => rfl
  | cons e a ih => cases e <;> simp [received, ih]

theorem answered_append (a b : List Ev) : answered (a ++ b) = answered a ++ answered b := by
  induction a with
  | nil => rfl
  | cons e a ih => cases e <;> simp [answered, ih]

/-- How often command `i` was received less how often it was answered or is pending. -/
def owed (s : St) (i : Nat) : Int :=
  ((received s.log).count i : Int) - (answered s.log).count i - (pending s).count i

/-- 1 for command `i`. -/
def one (i j : Nat) : Int := if j = i then 1 else 0

theorem received_orders (s : St) (c : RunCmd) (n : Nat) : received (orders s c n) = [] := by
  have h : ∀ (f : String → Ev) (l : List String), (∀ b, received [f b] = []) →
      received (l.map f) = [] := by
    intro f l hf
    induction l with
    | nil => rfl
    | cons b l ih =>
      rw [List.map_cons, ← List.singleton_append, received_append, hf, ih]; rfl
  unfold orders
  rw [received_append, h _ _ (fun _ => rfl)]
  split
  · rw [h _ _ (fun _ => rfl)]; rfl
  · rfl

theorem received_map {f : String → Ev} {l : List String} (hf : ∀ b, received [f b] = []) :
    received (l.map f) = [] := by
  induction l with
  | nil => rfl
  | cons b l ih =>
    rw [List.map_cons, ← List.singleton_append, received_append, hf, ih]; rfl

theorem answered_map {f : String → Ev} {l : List String} (hf : ∀ b, answered [f b] = []) :
    answered (l.map f) = [] := by
  induction l with
  | nil => rfl
  | cons b l ih =>
    rw [List.map_cons, ← List.singleton_append, answered_append, hf, ih]; rfl

theorem answered_orders (s : St) (c : RunCmd) (n : Nat) : answered (orders s c n) = [] := by
  unfold orders
  rw [answered_append, answered_map (fun _ => rfl)]
  split
  · rw [answered_map (fun _ => rfl)]; rfl
  · rfl

theorem owed_answer (s : St) (i j : Nat) (r : Bool) :
    owed (s.emit (.answer j r)) i = owed s i - one i j := by
  unfold owed
  have h1 : (s.emit (.answer j r)).log = s.log ++ [.answer j r] := rfl
  have h2 : pending (s.emit (.answer j r)) = pending s := rfl
  rw [h1, h2, received_append, answered_append]
  simp only [received, answered, List.count_append, List.append_nil, List.count_singleton, one,
    beq_iff_eq]
  split <;> push_cast <;> omega

theorem owed_got (s : St) (i : Nat) (op : Op) :
    owed (s.emit (.got op)) i = owed s i + ((cmdOf op).toList.count i : Int) := by
  unfold owed
  have h1 : (s.emit (.got op)).log = s.log ++ [.got op] := rfl
  have h2 : pending (s.emit (.got op)) = pending s := rfl
  rw [h1, h2, received_append, answered_append]
  simp only [received, answered, List.count_append, List.append_nil]
  push_cast; omega

/-- Same log and same pending commands. -/
theorem owed_congr {s t : St} (i : Nat) (hr : received t.log = received s.log)
    (ha : answered t.log = answered s.log) (hp : (pending t).count i = (pending s).count i) :
    owed t i = owed s i := by
  unfold owed; rw [hr, ha, hp]

theorem marked_id (s : St) (c : RunCmd) (n : Nat) : (marked s c n).id = c.id := by
  unfold marked; split <;> rfl

theorem count_one (i j : Nat) : (([j] : List Nat).count i : Int) = one i j := by
  simp only [one, List.count_singleton, beq_iff_eq]; split <;> simp

theorem owed_execRun (s : St) (c : RunCmd) (p : Bool) (n i : Nat) :
    owed (St.reply (execRun s c p n) c.id) i = owed s i - one i c.id := by
  unfold execRun
  split
  · exact owed_answer _ _ _ _
  rename_i hcur
  split
  · cases hi : s.initCmd with
    | none =>
      show owed ({ s with initCmd := some c, same := 0 } : St) i = _
      unfold owed
      have : pending ({ s with initCmd := some c, same := 0 } : St) =
        s.cur.toList.map RunCmd.id ++ [c.id] ++ s.refreshCmd.toList.map Prod.fst := rfl
      rw [this]
      simp only [pending, hi, List.count_append, Option.toList_none, List.map_nil, List.count_nil]
      have := count_one i c.id
      push_cast
      rw [this]; omega
    | some w =>
      show owed ({ s.emit (.answer w.id false) with initCmd := some c, same := 0 } : St) i = _
      have h1 := owed_answer s i w.id false
      rw [← count_one] at h1
      rw [← count_one]
      unfold owed at h1 ⊢
      have h2 : pending ({ s.emit (.answer w.id false) with initCmd := some c, same := 0 } : St) =
        s.cur.toList.map RunCmd.id ++ [c.id] ++ s.refreshCmd.toList.map Prod.fst := rfl
      have h3 : pending (s.emit (.answer w.id false)) =
        s.cur.toList.map RunCmd.id ++ [w.id] ++ s.refreshCmd.toList.map Prod.fst := by
        show s.cur.toList.map RunCmd.id ++ s.initCmd.toList.map RunCmd.id ++ _ = _
        rw [hi]; rfl
      have h4 : pending s =
        s.cur.toList.map RunCmd.id ++ [w.id] ++ s.refreshCmd.toList.map Prod.fst := by
        rw [← h3]; rfl
      rw [h2]
      rw [h3, h4] at h1
      rw [h4]
      simp only [List.count_append] at h1 ⊢
      push_cast at h1 ⊢
      show _ - _ - _ = _
      have e : ({ s.emit (.answer w.id false) with initCmd := some c, same := 0 } : St).log =
        (s.emit (.answer w.id false)).log := rfl
      rw [e]
      omega
  split
  · exact owed_answer _ _ _ _
  split
  · exact owed_answer _ _ _ _
  · have hc : s.cur = none := by simpa using hcur
    rw [← count_one]
    unfold owed
    show ((received (s.log ++ orders s c n)).count i : Int) -
      (answered (s.log ++ orders s c n)).count i -
      (([(marked s c n).id] ++ s.initCmd.toList.map RunCmd.id ++
        s.refreshCmd.toList.map Prod.fst).count i : Nat) = _
    rw [received_append, answered_append, received_orders, answered_orders, marked_id]
    simp only [pending, hc, List.count_append, Option.toList_none, List.map_nil, List.count_nil,
      List.append_nil]
    push_cast; omega

theorem owed_execRefresh (s : St) (j : Nat) (p : Bool) (i : Nat) :
    owed (St.reply (execRefresh s j p) j) i = owed s i - one i j := by
  unfold execRefresh
  split
  · exact owed_answer _ _ _ _
  rename_i hcur
  split
  · exact owed_answer _ _ _ _
  · have hc : s.refreshCmd = none := by simpa using hcur
    rw [← count_one]
    unfold owed
    show ((received (s.log ++ _)).count i : Int) - (answered (s.log ++ _)).count i -
      ((s.cur.toList.map RunCmd.id ++ s.initCmd.toList.map RunCmd.id ++ [j]).count i : Nat) = _
    rw [received_append, answered_append, received_map (fun _ => rfl), answered_map (fun _ => rfl)]
    simp only [pending, hc, List.count_append, Option.toList_none, List.map_nil, List.count_nil,
      List.append_nil]
    push_cast; omega

theorem owed_execReset (s : St) (j : Nat) (p : Bool) (i : Nat) :
    owed (St.reply (execReset s p) j) i = owed s i - one i j := by
  unfold execReset
  split
  · exact owed_answer _ _ _ _
  · show owed ((s.emits _).emit (.answer j true)) i = _
    rw [owed_answer]
    congr 1
    refine owed_congr i ?_ ?_ rfl
    · show received (s.log ++ _) = _
      rw [received_append, received_append, received_map (fun _ => rfl),
        received_map (fun _ => rfl)]; simp
    · show answered (s.log ++ _) = _
      rw [answered_append, answered_append, answered_map (fun _ => rfl),
        answered_map (fun _ => rfl)]; simp

theorem owed_quiet (s : St) (i : Nat) (e : Ev) (hr : received [e] = []) (ha : answered [e] = []) :
    owed (s.emit e) i = owed s i := by
  refine owed_congr i ?_ ?_ rfl
  · show received (s.log ++ [e]) = _
    rw [received_append, hr]; simp
  · show answered (s.log ++ [e]) = _
    rw [answered_append, ha]; simp

theorem owed_subReply (s : St) (cnt : Nat) (q : Option Rat) (i : Nat) :
    owed (subReply s cnt q) i = owed s i := by
  unfold subReply
  cases hc : s.cur with
  | none => rfl
  | some c =>
    dsimp only
    split
    rotate_left
    · rfl
    split
    · have h3 : owed (({ s with
            quality := lowerQuality c s.quality q, replies := s.replies - 1,
            calibrRunId := c.calibrRunId, cur := none,
            running := false } : St).emit (.answer c.id true)) i = owed s i := by
        rw [owed_answer, ← count_one]
        unfold owed
        show ((received s.log).count i : Int) - (answered s.log).count i -
          (([] ++ s.initCmd.toList.map RunCmd.id ++ s.refreshCmd.toList.map Prod.fst).count i
            : Nat) - _ = _
        simp only [pending, hc, List.count_append, Option.toList_some, List.map_cons,
          List.map_nil, List.count_nil]
        push_cast; omega
      split
      · rw [owed_quiet _ _ _ rfl rfl]; exact h3
      · exact h3
    · refine owed_congr i rfl rfl ?_
      simp only [pending, hc]

theorem owed_refreshReply (s : St) (cnt : Nat) (q : Option Rat) (i : Nat) :
    owed (refreshReply s cnt q) i = owed s i := by
  unfold refreshReply
  cases hc : s.refreshCmd with
  | none => rfl
  | some w =>
    obtain ⟨id, q0⟩ := w
    dsimp only
    split
    rotate_left
    · rfl
    split
    · rw [owed_quiet _ _ _ rfl rfl, owed_answer, ← count_one]
      unfold owed
      show ((received s.log).count i : Int) - (answered s.log).count i -
        ((s.cur.toList.map RunCmd.id ++ s.initCmd.toList.map RunCmd.id ++ []).count i : Nat) - _ = _
      simp only [pending, hc, List.count_append, Option.toList_some, List.map_cons,
        List.map_nil, List.count_nil]
      push_cast; omega
    · refine owed_congr i rfl rfl ?_
      simp only [pending, hc, Option.toList_some, List.map_cons]

theorem execRun_verified_init (s : St) (c : RunCmd) (p : Bool) (n : Nat) (hv : c.verified = true) :
    (execRun s c p n).1.initCmd = s.initCmd := by
  unfold execRun
  split
  · rfl
  split
  · simp_all
  split
  · rfl
  split <;> rfl

theorem reply_initCmd (p : St × Option Bool) (j : Nat) : (St.reply p j).initCmd = p.1.initCmd := by
  unfold St.reply; split <;> rfl

theorem checkInit_diff (s : St) (bs : List String) (p : Bool) (n : Nat)
    (h : ¬ (s.lastBuilders ≠ [] ∧ s.lastBuilders = bs)) :
    checkInit s bs p n = { s with same := 0 } := by
  unfold checkInit; rw [if_neg h]

theorem checkInit_none (s : St) (bs : List String) (p : Bool) (n : Nat)
    (h : s.lastBuilders ≠ [] ∧ s.lastBuilders = bs) (hi : s.initCmd = none) :
    checkInit s bs p n = { s with same := s.same + 1 } := by
  unfold checkInit; rw [if_pos h]; dsimp only
  split
  · rename_i w hw; rw [hi] at hw; cases hw
  · rfl

theorem checkInit_some (s : St) (bs : List String) (p : Bool) (n : Nat) (w : RunCmd)
    (h : s.lastBuilders ≠ [] ∧ s.lastBuilders = bs) (hi : s.initCmd = some w) :
    checkInit s bs p n = { St.reply (execRun ({ s with same := s.same + 1 } : St)
      { w with verified := true } p n) w.id with initCmd := none } := by
  unfold checkInit; rw [if_pos h]; dsimp only
  split
  · rename_i v hv; rw [hi] at hv; cases hv
    rw [if_pos (by omega)]
  · rename_i hv; rw [hi] at hv; cases hv

theorem owed_checkInit (s : St) (bs : List String) (p : Bool) (n i : Nat) :
    owed (checkInit s bs p n) i = owed s i := by
  by_cases h : s.lastBuilders ≠ [] ∧ s.lastBuilders = bs
  · cases hi : s.initCmd with
    | none => rw [checkInit_none s bs p n h hi]; rfl
    | some w =>
      rw [checkInit_some s bs p n w h hi]
      generalize hs1 : ({ s with same := s.same + 1 } : St) = s1
      have hi1 : s1.initCmd = some w := by rw [← hs1]; exact hi
      have h1 := owed_execRun s1 { w with verified := true } p n i
      have h2 := execRun_verified_init s1 { w with verified := true } p n rfl
      have h3 : owed s1 i = owed s i := by rw [← hs1]; rfl
      rw [← h3]
      generalize ht : St.reply (execRun s1 { w with verified := true } p n) w.id = t
      have ht2 : t.initCmd = some w := by rw [← ht, reply_initCmd, h2, hi1]
      have h4 : owed t i = owed s1 i - one i w.id := by rw [← ht]; exact h1
      rw [← count_one] at h4
      unfold owed at h4 ⊢
      have h5 : pending ({ t with initCmd := none } : St) =
        t.cur.toList.map RunCmd.id ++ [] ++ t.refreshCmd.toList.map Prod.fst := rfl
      have h6 : pending t =
        t.cur.toList.map RunCmd.id ++ [w.id] ++ t.refreshCmd.toList.map Prod.fst := by
        unfold pending; rw [ht2]; rfl
      rw [h5]
      rw [h6] at h4
      show ((received t.log).count i : Int) - (answered t.log).count i - _ = _
      simp only [List.count_append, List.count_nil] at h4 ⊢
      push_cast at h4 ⊢
      omega
  · rw [checkInit_diff s bs p n h]; rfl

theorem owed_newCycle (s : St) (bs is : List String) (i : Nat) :
    owed (newCycle s bs is) i = owed s i := by
  unfold newCycle
  dsimp only
  generalize (if (s.ctrlError || decide (0 < s.ctrlCnt)) = true then s.ctrlErrorCnt + 1 else 0) = k
  split
  · rw [owed_quiet _ _ _ rfl rfl]
    refine owed_congr i ?_ ?_ rfl
    · show received (s.log ++ _) = _
      rw [received_append, received_append, received_map (fun _ => rfl), received_map (fun _ => rfl)]
      simp
    · show answered (s.log ++ _) = _
      rw [answered_append, answered_append, answered_map (fun _ => rfl), answered_map (fun _ => rfl)]
      simp
  · refine owed_congr i ?_ ?_ rfl
    · show received (s.log ++ _) = _
      rw [received_append, received_append, received_map (fun _ => rfl), received_map (fun _ => rfl)]
      simp
    · show answered (s.log ++ _) = _
      rw [answered_append, answered_append, answered_map (fun _ => rfl), answered_map (fun _ => rfl)]
      simp

theorem owed_namesReply (s : St) (items : List NameItem) (o p : Bool) (n i : Nat) :
    owed (namesReply s items o p n) i = owed s i := by
  unfold namesReply
  dsimp only
  split
  · rw [← owed_checkInit s ((collect "receiver" items).map Prod.fst) p n i]; rfl
  · rw [owed_newCycle, ← owed_checkInit s ((collect "receiver" items).map Prod.fst) p n i]; rfl

theorem owed_ctrlReply (cfg : Cfg) (s : St) (id : Nat) (ok : Bool) (items : List CtrlItem)
    (over : Bool) (i : Nat) : owed (ctrlReply cfg s id ok items over) i = owed s i := by
  unfold ctrlReply
  split
  rotate_left
  · rfl
  dsimp only
  split
  · split
    · rw [owed_quiet _ _ _ rfl rfl]
      exact owed_quiet ({ s with ctrl := _, lastPfx := _, ctrlCnt := _, ctrlError := _ } : St)
        i _ rfl rfl
    · exact owed_quiet ({ s with ctrl := _, lastPfx := _, ctrlCnt := _, ctrlError := _ } : St)
        i _ rfl rfl
  · rfl

/-- First half of the timer. -/
def timerCur (s : St) (a : Bool) : St :=
  match s.cur with
  | some c => if a then
      ({ s with cur := none, running := false } : St).emit (.answer c.id false) else s
  | none => s

/-- Second half of the timer. -/
def timerInit (s : St) (b : Bool) : St :=
  match s.initCmd with
  | some i => if b then ({ s with initCmd := none } : St).emit (.answer i.id false) else s
  | none => s

theorem timer_eq (s : St) (a b : Bool) : timer s a b = timerInit (timerCur s a) b := rfl

theorem owed_timerCur (s : St) (a : Bool) (i : Nat) : owed (timerCur s a) i = owed s i := by
  unfold timerCur
  split
  · rename_i c hc
    split
    · rw [owed_answer, ← count_one]
      unfold owed
      show ((received s.log).count i : Int) - (answered s.log).count i -
        (([] ++ s.initCmd.toList.map RunCmd.id ++ s.refreshCmd.toList.map Prod.fst).count i
          : Nat) - _ = _
      simp only [pending, hc, List.count_append, Option.toList_some, List.map_cons,
        List.map_nil, List.count_nil]
      push_cast; omega
    · rfl
  · rfl

theorem owed_timerInit (s : St) (b : Bool) (i : Nat) : owed (timerInit s b) i = owed s i := by
  unfold timerInit
  split
  · rename_i w hi
    split
    · rw [owed_answer, ← count_one]
      unfold owed
      show ((received s.log).count i : Int) - (answered s.log).count i -
        ((s.cur.toList.map RunCmd.id ++ [] ++ s.refreshCmd.toList.map Prod.fst).count i
          : Nat) - _ = _
      simp only [pending, hi, List.count_append, Option.toList_some, List.map_cons,
        List.map_nil, List.count_nil]
      push_cast; omega
    · rfl
  · rfl

theorem owed_timer (s : St) (a b : Bool) (i : Nat) : owed (timer s a b) i = owed s i := by
  rw [timer_eq, owed_timerInit, owed_timerCur]

theorem owed_step (cfg : Cfg) (s : St) (op : Op) (i : Nat) :
    owed (step cfg s op) i = owed s i := by
  unfold step
  have h := owed_got s i op
  cases op with
  | run c p n =>
    simp only [act]
    rw [owed_execRun, h]
    simp only [cmdOf, Option.toList_some]; rw [count_one]; omega
  | refresh j p =>
    simp only [act]
    rw [owed_execRefresh, h]
    simp only [cmdOf, Option.toList_some]; rw [count_one]; omega
  | reset j p =>
    simp only [act]
    rw [owed_execReset, h]
    simp only [cmdOf, Option.toList_some]; rw [count_one]; omega
  | other j =>
    simp only [act]
    rw [owed_answer, h]
    simp only [cmdOf, Option.toList_some]; rw [count_one]; omega
  | subReply c k q => simp only [act]; rw [owed_subReply, h]; simp [cmdOf]
  | refreshReply c k q => simp only [act]; rw [owed_refreshReply, h]; simp [cmdOf]
  | names a b c d => simp only [act]; rw [owed_namesReply, h]; simp [cmdOf]
  | ctrlReply a b c d => simp only [act]; rw [owed_ctrlReply, h]; simp [cmdOf]
  | timer a b => simp only [act]; rw [owed_timer, h]; simp [cmdOf]

theorem owed_reach {cfg : Cfg} {s : St} (h : Reach cfg s) (i : Nat) : owed s i = 0 := by
  induction h with
  | init k => rfl
  | step s op _ _ ih => rw [owed_step, ih]

end Verif.BnetMaster
