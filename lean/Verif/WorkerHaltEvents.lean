import Verif.WorkerHaltInv

/-!
# Events and answers of halted workers
-/

namespace Verif.WorkerHalt

open Spec

/-! ## Answers -/

def ansCnt (c : Nat) (s : S) : Nat := (s.answers.map (·.1)).count c

theorem flatMap_set (c : Nat) {l : List Rec} {id : Nat} {r r' : Rec} (hr : l[id]? = some r) :
    ((l.set id r').flatMap (·.cmds)).count c + r.cmds.count c = (l.flatMap (·.cmds)).count c + r'.cmds.count c := by
  induction l generalizing id with
  | nil => simp at hr
  | cons a t ih =>
    cases id with
    | zero =>
      obtain rfl : a = r := by simpa using hr
      simp only [List.set_cons_zero, List.flatMap_cons, List.count_append]
      omega
    | succ n =>
      have := ih (id := n) (by simpa using hr)
      simp only [List.set_cons_succ, List.flatMap_cons, List.count_append]
      omega

/-- Executed commands are answered or wait. -/
def Bal (c : Nat) (s : S) : Prop := s.done.count c = ansCnt c s + (waiting s).count c

theorem count_waiting (c : Nat) (s : S) :
    (waiting s).count c = (waitRecs s).count c + (waitChk s).count c + (s.stack.flatMap waitFrame).count c := by
  unfold waiting
  rw [List.count_append, List.count_append]

theorem check_bal {s : S} (hi : s.chk = .idle) (c id : Nat) (a : Act) (cmd : Option Nat) :
    ansCnt c (s.check id a cmd) + (waiting (s.check id a cmd)).count c
      = ansCnt c s + (waiting s).count c + cmd.toList.count c ∧ (s.check id a cmd).done = s.done := by
  have hans : ansCnt c (s.answer cmd false) + (waiting (s.answer cmd false)).count c
      = ansCnt c s + (waiting s).count c + cmd.toList.count c ∧ (s.answer cmd false).done = s.done := by
    cases cmd with
    | none => exact ⟨rfl, rfl⟩
    | some d =>
      refine ⟨?_, rfl⟩
      show ansCnt c { s with answers := s.answers ++ [(d, false)] } + (waiting s).count c = _
      unfold ansCnt
      simp only [List.map_append, List.map_cons, List.map_nil, List.count_append, Option.toList_some]
      omega
  unfold S.check
  cases hl : s.live id with
  | none => exact hans
  | some p =>
    obtain ⟨r, w⟩ := p
    obtain ⟨hr, hw⟩ := live_some.1 hl
    dsimp only
    split
    · exact hans
    · split
      · refine ⟨?_, rfl⟩
        have := flatMap_set c hr (r' := { r.ask a with cmds := (r.ask a).cmds ++ cmd.toList })
        rw [count_waiting, count_waiting]
        unfold waitRecs waitChk ansCnt
        dsimp only at this ⊢
        have h2 : ((r.ask a).cmds ++ cmd.toList).count c = r.cmds.count c + cmd.toList.count c := by
          rw [ask_cmds, List.count_append]
        omega
      · refine ⟨?_, rfl⟩
        have := flatMap_set c hr (r' := r.ask a)
        rw [count_waiting, count_waiting]
        unfold waitRecs waitChk ansCnt
        dsimp only at this ⊢
        rw [ask_cmds] at this
        rw [hi]
        simp only [List.count_nil]
        omega

/-- A step of a record which keeps its commands. -/
theorem bal_set {s s' : S} {c : Nat} (h : Bal c s) {id : Nat} {r r' : Rec} (hr : s.recs[id]? = some r)
    (hc : r'.cmds = r.cmds) (hrecs : s'.recs = s.recs.set id r') (hchk : s'.chk = s.chk) (hdone : s'.done = s.done)
    (hans : s'.answers = s.answers)
    (hst : (s'.stack.flatMap waitFrame).count c = (s.stack.flatMap waitFrame).count c) : Bal c s' := by
  have := flatMap_set c hr (r' := r')
  rw [hc] at this
  unfold Bal at h ⊢
  rw [count_waiting] at h ⊢
  unfold waitRecs waitChk ansCnt at h ⊢
  rw [hrecs, hchk, hdone, hans, hst]
  omega

theorem shrink_cmds {l : List Rec} (h : ∀ r ∈ l, r.work = none → r.cmds = []) :
    (shrink l).flatMap (·.cmds) = l.flatMap (·.cmds) := by
  induction l with
  | nil => rfl
  | cons a t ih =>
    have iht := ih fun r hr => h r (List.mem_cons_of_mem _ hr)
    unfold shrink
    split
    · rename_i he
      rw [he] at iht
      split
      · rename_i hn
        rw [List.flatMap_cons, ← iht, h a List.mem_cons_self hn]
        rfl
      · rw [List.flatMap_cons, List.flatMap_cons, ← iht]
    · rw [List.flatMap_cons, List.flatMap_cons, ← iht]

theorem bal_empty {s : S} {c : Nat} (h : Bal c s) (b : Bool) : Bal c { s with empty := b } := h

theorem bal_own {s : S} {c : Nat} (hinv : Inv s) (h : Bal c s) (f : S → S)
    (hf : ∀ s, Inv s → Bal c s → s.chk = .idle → Bal c (f s)) : Bal c (s.own f) := by
  rcases own_cases s f with ⟨h1, h2⟩ | ⟨h1, h2⟩
  · rw [h2]; exact hf _ (inv_empty hinv false) (bal_empty h false) h1
  · rw [h2]; exact h

theorem bal_check {s : S} {c : Nat} (h : Bal c s) (hi : s.chk = .idle) (id : Nat) (a : Act) : Bal c (s.check id a none) := by
  obtain ⟨h1, h2⟩ := check_bal hi c id a none
  unfold Bal at h ⊢
  simp only [Option.toList_none, List.count_nil] at h1
  rw [h2]
  omega

theorem bal_step {s : S} {c : Nat} (hinv : Inv s) (h : Bal c s) (o : Op) : Bal c (step s o) := by
  cases o with
  | fire w =>
    unfold step
    dsimp only
    split
    · exact h
    · exact h
  | magic w =>
    unfold step
    dsimp only
    split
    · exact h
    · exact h
  | assign w =>
    unfold step
    dsimp only
    split
    · exact h
    · exact h
  | ask w a cc =>
    unfold step
    dsimp only
    split
    · exact h
    · exact h
  | next =>
    unfold step
    dsimp only
    split
    · exact h
    · rename_i id cmd hc
      obtain ⟨r, w, hr, hw, _⟩ : ∃ r w, s.recs[id]? = some r ∧ r.work = some w ∧ r.recursion = 0 ∧ r.doing = true := by
        have := hinv.chk
        unfold ChkOk at this
        rw [hc] at this
        exact this
      unfold S.remove
      rw [live_some.2 ⟨hr, hw⟩]
      have := flatMap_set c hr (r' := Rec.new none)
      unfold Bal at h ⊢
      rw [count_waiting] at h ⊢
      unfold waitRecs waitChk ansCnt at h ⊢
      rw [hc] at h
      dsimp only at h this ⊢
      rw [List.count_append]
      simp only [Rec.new, List.count_nil] at this ⊢
      omega
    · rename_i w d cs hc
      unfold S.clear
      unfold Bal at h ⊢
      rw [count_waiting] at h ⊢
      unfold waitRecs waitChk ansCnt at h ⊢
      rw [hc] at h
      dsimp only at h ⊢
      rw [List.flatMap_cons, List.count_append]
      simp only [waitFrame, List.count_nil]
      omega
  | add k =>
    unfold step
    refine bal_own hinv h _ fun s hinv h hi => ?_
    split
    · exact h
    · unfold Bal at h ⊢
      rw [count_waiting] at h ⊢
      unfold waitRecs waitChk ansCnt at h ⊢
      dsimp only at h ⊢
      rw [List.flatMap_append, List.count_append]
      simp only [List.flatMap_cons, List.flatMap_nil, Rec.new, List.append_nil, List.count_nil]
      omega
  | exec k =>
    unfold step
    refine bal_own hinv h _ fun s hinv h hi => ?_
    split
    · exact h
    · rename_i q hq
      obtain ⟨h1, h2⟩ := check_bal (s := { s with reqs := s.reqs.eraseIdx k, done := s.done ++ q.cmd.toList }) hi c q.id q.act q.cmd
      unfold Bal at h ⊢
      rw [h1, h2]
      show (s.done ++ q.cmd.toList).count c = ansCnt c s + (waiting s).count c + _
      rw [List.count_append]
      omega
  | event k =>
    unfold step
    refine bal_own hinv h _ fun s hinv h hi => ?_
    split
    · exact h
    · rename_i e he
      unfold S.begin
      split
      · exact h
      · split
        · exact h
        · rename_i r w hl
          obtain ⟨hr, hw⟩ := live_some.1 hl
          exact bal_set h hr (r' := { r with processed := r.processed + 1, recursion := r.recursion + 1 }) rfl rfl rfl rfl rfl rfl
  | guard w =>
    unfold step
    refine bal_own hinv h _ fun s hinv h hi => ?_
    unfold S.enter
    split
    · exact h
    · rename_i r v hl
      obtain ⟨hr, hw⟩ := live_some.1 hl
      exact bal_set h hr (r' := { r with recursion := r.recursion + 1 }) rfl rfl rfl rfl rfl rfl
  | raw id =>
    unfold step
    refine bal_own hinv h _ fun s hinv h hi => ?_
    split
    · exact h
    · exact h
  | pop =>
    unfold step
    refine bal_own hinv h _ fun s hinv h hi => ?_
    unfold S.pop
    split
    · exact h
    · rename_i id w t hs
      have h' : Bal c { s with stack := t } := by
        unfold Bal at h ⊢
        rw [count_waiting] at h ⊢
        rw [hs] at h
        exact h
      unfold S.endEvent
      split
      · exact h'
      · rename_i r hr
        have h2 : Bal c { s with stack := t, recs := s.recs.set id { r with recursion := r.recursion - 1 } } :=
          bal_set h' hr (r' := { r with recursion := r.recursion - 1 }) rfl rfl rfl rfl rfl rfl
        dsimp only
        split
        · exact bal_check h2 (by exact hi) _ _
        · exact h2
    · rename_i id w t hs
      have h' : Bal c { s with stack := t } := by
        unfold Bal at h ⊢
        rw [count_waiting] at h ⊢
        rw [hs] at h
        exact h
      unfold S.leave
      split
      · exact h'
      · rename_i r v hl
        obtain ⟨hr, hw⟩ := live_some.1 hl
        have h2 : Bal c { s with stack := t, recs := s.recs.set id { r with recursion := r.recursion - 1 } } :=
          bal_set h' hr (r' := { r with recursion := r.recursion - 1 }) rfl rfl rfl rfl rfl rfl
        dsimp only
        split
        · exact bal_check h2 (by exact hi) _ _
        · exact h2
    · rename_i id w t hs
      unfold Bal at h ⊢
      rw [count_waiting] at h ⊢
      rw [hs] at h
      exact h
    · rename_i w d cs t hs
      unfold Bal at h ⊢
      rw [count_waiting] at h ⊢
      rw [hs, List.flatMap_cons, List.count_append] at h
      unfold waitRecs waitChk ansCnt at h ⊢
      dsimp only at h ⊢
      simp only [waitFrame] at h
      rw [List.map_append, List.count_append, List.map_map]
      have : cs.map ((fun x : Nat × Bool => x.1) ∘ fun x => (x, true)) = cs := by
        rw [show ((fun x : Nat × Bool => x.1) ∘ fun x => (x, true)) = id from rfl, List.map_id]
      rw [this]
      omega
  | wait =>
    unfold step
    exact bal_own hinv h _ fun s hinv h hi => h
  | none =>
    unfold step
    dsimp only
    split
    · refine bal_own hinv h _ fun s hinv h hi => ?_
      unfold S.none
      split
      · unfold Bal at h ⊢
        rw [count_waiting] at h ⊢
        cases hrs : s.recs with
        | nil =>
          unfold waitRecs waitChk ansCnt at h ⊢
          rw [hrs] at h
          exact h
        | cons a t =>
          have hfree : ∀ r ∈ t, r.work = none → r.cmds = [] := by
            intro r hr hn
            obtain ⟨i, hi2⟩ := List.getElem?_of_mem hr
            have := (hinv.recs (i + 1) r (by rw [hrs]; simpa using hi2)).free hn
            rw [this]
            rfl
          unfold waitRecs waitChk ansCnt at h ⊢
          rw [hrs] at h
          dsimp only at h ⊢
          rw [List.flatMap_cons, shrink_cmds hfree, ← List.flatMap_cons]
          exact h
      · exact h
    · exact h

theorem bal_run (c : Nat) (l : List Op) : Bal c (run init l) := by
  have : ∀ (l : List Op) (s : S), Inv s → Bal c s → Bal c (run s l) := by
    intro l
    induction l with
    | nil => exact fun s _ h => h
    | cons o t ih => exact fun s hi h => ih _ (inv_step hi o) (bal_step hi h o)
  refine this l _ inv_init ?_
  unfold Bal
  rw [count_waiting]
  rfl

end Verif.WorkerHalt
