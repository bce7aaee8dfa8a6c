import Verif.ConnMgrLemmas

/-! # Connection manager: every command is answered once -/

namespace Verif.ConnMgr

open Spec

@[simp] theorem answered_append (c : Nat) (a b : List Out) : answered c (a ++ b) = answered c a + answered c b := by
  simp [answered, List.countP_append]
@[simp] theorem answered_nil (c : Nat) : answered c [] = 0 := rfl
@[simp] theorem answered_progress (c k p) : answered c [.progress k p] = 0 := rfl
@[simp] theorem answered_state (c k s) : answered c [.state k s] = 0 := rfl
@[simp] theorem answered_handle (c k) : answered c [.handle k] = 0 := rfl
@[simp] theorem answered_connect (c k a b d t) : answered c [.connect k a b d t] = 0 := rfl
@[simp] theorem answered_filled (c k i) : answered c [.filled k i] = 0 := rfl
@[simp] theorem answered_answer (c k r) : answered c [.answer k r] = if k = c then 1 else 0 := by
  by_cases h : k = c <;> simp [answered, h]
theorem answered_answers (c : Nat) (o : Option Nat) (r) : answered c (answers o r) = if o = some c then 1 else 0 := by
  cases o with
  | none => rfl
  | some k => simp [answers]

/-- Answered and waiting commands. -/
def bal (m : Mgr) (c : Nat) : Nat := answered c m.out + waiting m c

/-- The record holds the command. -/
def holds (m : Mgr) (id c : Nat) : Nat := if (m.objs id).remote = some c then 1 else 0

theorem count_congr {m n : Mgr} (c : Nat) (l : List Nat) (h : ∀ k ∈ l, (n.objs k).remote = (m.objs k).remote) :
    l.countP (fun id => (n.objs id).remote == some c) = l.countP (fun id => (m.objs id).remote == some c) := by
  induction l with
  | nil => rfl
  | cons a l ih =>
    rw [List.countP_cons, List.countP_cons, ih fun k hk => h k (List.mem_cons_of_mem _ hk),
      h a (List.mem_cons_self ..)]

theorem count_change {m n : Mgr} (c id : Nat) : ∀ (l : List Nat), l.Nodup → id ∈ l →
    (∀ k, k ≠ id → n.objs k = m.objs k) →
    l.countP (fun k => (n.objs k).remote == some c) + holds m id c =
      l.countP (fun k => (m.objs k).remote == some c) + holds n id c
  | [], _, h, _ => by simp at h
  | a :: l, hn, h, ho => by
    have hn' := List.nodup_cons.mp hn
    rw [List.countP_cons, List.countP_cons]
    by_cases ha : a = id
    · subst ha
      rw [count_congr c l (m := m) (n := n) fun k hk => by
        rw [ho k (fun e => hn'.1 (e ▸ hk))]]
      simp only [holds, beq_iff_eq]
      omega
    · have hm : id ∈ l := by
        rcases List.mem_cons.mp h with e | e
        · exact absurd e.symm ha
        · exact e
      have IH := count_change c id l hn'.2 hm ho
      rw [ho a ha]
      omega

/-- Nothing is answered, the held command stays. -/
theorem bal_same {m n : Mgr} {id : Nat} (L : Local m n id) {l : List Out} (hl : n.out = m.out ++ l) (c : Nat)
    (ha : answered c l = 0) (hr : (n.objs id).remote = (m.objs id).remote) : bal n c = bal m c := by
  unfold bal waiting
  rw [hl, answered_append, ha, L.cmd, L.recs, count_congr c m.recs (m := m) (n := n)]
  · omega
  · intro k _
    by_cases hk : k = id
    · rw [hk]; exact hr
    · rw [L.other k hk]

theorem bal_change {m n : Mgr} {id : Nat} (L : Local m n id) {l : List Out} (hl : n.out = m.out ++ l) (c : Nat)
    (hn : m.recs.Nodup) (hid : id ∈ m.recs) : bal n c + holds m id c = bal m c + answered c l + holds n id c := by
  unfold bal waiting
  rw [hl, answered_append, L.cmd, L.recs]
  have := count_change (n := n) (m := m) c id m.recs hn hid L.other
  omega

/-- The held command is answered. -/
theorem bal_reply {m n : Mgr} {id : Nat} (L : Local m n id) {l : List Out} (hl : n.out = m.out ++ l) (c : Nat)
    (hn : m.recs.Nodup) (ha : answered c l = holds m id c) (hr : (n.objs id).remote = none)
    (hid : id ∉ m.recs → (m.objs id).remote = none) : bal n c = bal m c := by
  by_cases h : id ∈ m.recs
  · have := bal_change L hl c hn h
    have h0 : holds n id c = 0 := by simp [holds, hr]
    omega
  · have e := hid h
    refine bal_same L hl c ?_ (hr.trans e.symm)
    rw [ha]; simp [holds, e]

theorem reset_bal {m : Mgr} (hn : m.recs.Nodup) (id c : Nat) (hid : id ∉ m.recs → (m.objs id).remote = none) :
    bal (m.reset id) c = bal m c := by
  refine bal_reply (Local.reset m id) (l := [.progress id .init] ++ answers (m.objs id).remote .no)
    (by rw [reset_out, List.append_assoc]) c hn ?_ ?_ hid
  · rw [answered_append, answered_answers]
    simp [holds]
  · rw [reset_obj]

theorem changeState_bal (m : Mgr) (id : Nat) (s : St) (c : Nat) : bal (m.changeState id s) c = bal m c := by
  unfold Mgr.changeState
  split
  · rfl
  · refine bal_same (id := id) ((Local.upd m id _).trans (Local.emit _ id _)) (l := [.state id s]) rfl c rfl ?_
    rw [emit_objs, upd_self]

theorem leave_bal {m : Mgr} (hn : m.recs.Nodup) (id : Nat) (s : St) (c : Nat) (hid : id ∈ m.recs) :
    bal (leave m id s) c = bal m c :=
  (changeState_bal _ _ _ _).trans (reset_bal hn id c fun h => absurd hid h)

theorem checkLoop_bal (c : Nat) : ∀ (ids : List Nat) (m : Mgr) (err only : Bool), m.recs.Nodup →
    (∀ k ∈ ids, k ∈ m.recs) → bal (checkLoop ids m err only).1 c = bal m c
  | [], _, _, _, _, _ => rfl
  | id :: ids, m, err, only, hn, hm => by
    by_cases ho : over (m.objs id).progress
    · rw [checkLoop_over id ids m err only ho]
      have L := Local.leave m id (final (m.objs id).progress)
      rw [checkLoop_bal c ids _ _ _ (by rw [L.recs]; exact hn)
        (fun k hk => by rw [L.recs]; exact hm k (List.mem_cons_of_mem _ hk))]
      exact leave_bal hn id _ c (hm id (List.mem_cons_self ..))
    · rw [checkLoop_other id ids m err only ho]
      exact checkLoop_bal c ids m err _ hn (fun k hk => hm k (List.mem_cons_of_mem _ hk))

theorem answer_bal (m : Mgr) (r : Res) (c : Nat) : bal (m.answer r) c = bal m c := by
  unfold bal waiting
  show answered c (m.out ++ answers m.cmd r) + (_ + _) = _
  rw [answered_append, answered_answers]
  simp only [Mgr.answer, emit_recs, emit_objs, reduceCtorEq, if_false]
  omega

theorem idle_bal (m : Mgr) (c : Nat) : bal m.idle c = bal m c := rfl

theorem conclude_bal (m : Mgr) (a b d : Bool) (c : Nat) : bal (conclude m a b d) c = bal m c := by
  unfold conclude
  split
  · rw [idle_bal, answer_bal]
  · split
    · rw [answer_bal, idle_bal]
    · split
      · rw [answer_bal]
      · rfl

theorem countP_filter_eq (p q : Nat → Bool) (l : List Nat) (h : ∀ k ∈ l, q k = false → p k = false) :
    (l.filter q).countP p = l.countP p := by
  induction l with
  | nil => rfl
  | cons a l ih =>
    have IH := ih fun k hk => h k (List.mem_cons_of_mem _ hk)
    rw [List.filter_cons]
    cases hq : q a
    · rw [List.countP_cons, h a (List.mem_cons_self ..) hq]
      simpa using IH
    · simp only [if_true]
      rw [List.countP_cons, List.countP_cons, IH]

theorem checkRecs_bal {m : Mgr} (h : Mid m) (f : Bool) (c : Nat) : bal (checkRecs m f) c = bal m c := by
  unfold checkRecs
  dsimp only
  rw [conclude_bal, ← checkLoop_bal c m.recs m false true h.nodup (fun _ h => h)]
  have L := checkLoop_loop m.recs m false true h.nodup
  have F := (checkLoop_flags m.recs m false true h.nodup).1
  unfold bal waiting
  dsimp only
  rw [F, L.recs, countP_filter_eq]
  intro k hk hq
  have ho : over (m.objs k).progress := by
    rw [← isOver_iff]
    simpa using hq
  simp [(L.gone k hk ho).2.1]

theorem act_out (devs addrs : Nat → Bool) (m : Mgr) (id : Nat) :
    ∃ l, (act devs addrs m id).out = m.out ++ l ∧ (∀ c, answered c l = 0) ∧ given l = [] := by
  unfold act
  dsimp only
  split
  · split
    · exact ⟨[.progress id .failed], rfl, fun _ => rfl, rfl⟩
    · exact ⟨[.progress id .doingInit, .handle id], by simp [Mgr.setProgress], fun _ => rfl, rfl⟩
  · exact ⟨[.progress id .failed], rfl, fun _ => rfl, rfl⟩
  · split
    · exact ⟨[], by simp, fun _ => rfl, rfl⟩
    · split
      · exact ⟨[.progress id .failed], rfl, fun _ => rfl, rfl⟩
      · exact ⟨[.progress id .waitReply, _], by simp [Mgr.setProgress]; rfl, fun _ => rfl, rfl⟩
  · exact ⟨[], by simp, fun _ => rfl, rfl⟩

theorem act_bal (devs addrs : Nat → Bool) (m : Mgr) (id c : Nat) : bal (act devs addrs m id) c = bal m c := by
  obtain ⟨l, h1, h2, _⟩ := act_out devs addrs m id
  exact bal_same (Local.act devs addrs m id) h1 c (h2 c) (act_same _ _ _ _)

theorem upd_bal (m : Mgr) (id : Nat) (f : Rec → Rec) (c : Nat) (h : (f (m.objs id)).remote = (m.objs id).remote) :
    bal (m.upd id f) c = bal m c :=
  bal_same (Local.upd m id f) (l := []) (by simp) c rfl (by rw [upd_self]; exact h)

theorem turn_bal (devs addrs : Nat → Bool) (d : Int) (m : Mgr) (id c : Nat) :
    bal (turn devs addrs d m id) c = bal m c := by
  unfold turn
  dsimp only
  split
  · exact upd_bal _ _ _ _ (by simp)
  · rw [act_bal]; exact upd_bal _ _ _ _ (by simp)

theorem turns_bal (devs addrs : Nat → Bool) (d : Int) (c : Nat) : ∀ (ids : List Nat) (m : Mgr),
    bal (ids.foldl (turn devs addrs d) m) c = bal m c
  | [], _ => rfl
  | id :: ids, m => (turns_bal devs addrs d c ids _).trans (turn_bal devs addrs d m id c)

theorem timeout_bal {m : Mgr} (h : Inv m) (devs addrs : Nat → Bool) (d t : Int) (c : Nat) :
    bal (timeout devs addrs d t m) c = bal m c := by
  unfold timeout
  split
  · rfl
  · rw [checkRecs_bal (Inv.turns devs addrs d m.recs h (fun _ h => h)).1.toMid, turns_bal]

theorem emit_answer_bal (m : Mgr) (k : Nat) (r : Res) (c : Nat) :
    bal (m.emit [.answer k r]) c = bal m c + if k = c then 1 else 0 := by
  unfold bal waiting
  show answered c (m.out ++ [.answer k r]) +
    ((if m.cmd = some c then 1 else 0) + m.recs.countP fun id => (m.objs id).remote == some c) = _
  rw [answered_append, answered_answer]
  omega

theorem fill_out (m : Mgr) (c id cl : Nat) : ∃ l, (fill m c id cl).out = m.out ++ l ∧ (∀ k, answered k l = 0) ∧
    ((m.objs id).server = true → given l = [(m.objs id).connId]) ∧ ((m.objs id).server = false → given l = []) := by
  unfold fill
  dsimp only
  split
  next h => exact ⟨[_], rfl, fun _ => rfl, fun _ => rfl, fun e => by rw [h] at e; cases e⟩
  next h => exact ⟨[], by simp, fun _ => rfl, fun e => absurd e h, fun _ => rfl⟩

theorem fillAnswer_out (m : Mgr) (c id cl : Nat) : ∃ l, (fillAnswer m c id cl).out = m.out ++ l ∧
    (∀ k, answered k l = 0) ∧
    ((m.objs id).server = true → given l = [(m.objs id).connId]) ∧ ((m.objs id).server = false → given l = []) := by
  obtain ⟨l, h1, h2, h3, h4⟩ := fill_out m c id cl
  refine ⟨l ++ [.progress id .doingConnect, .handle id], ?_, ?_, ?_, ?_⟩
  · simp [fillAnswer, Mgr.setProgress, h1]
  · intro k; rw [answered_append, h2]; rfl
  · intro e
    have := h3 e
    simp only [given] at this ⊢
    rw [List.filterMap_append, this]; rfl
  · intro e
    have := h4 e
    simp only [given] at this ⊢
    rw [List.filterMap_append, this]; rfl

theorem globalConnect_bal {m : Mgr} (h : Inv m) (devs : Nat → Bool) (k u1 u2 cl c : Nat) :
    bal (globalConnect devs m k u1 u2 cl) c = bal m c + if k = c then 1 else 0 := by
  unfold globalConnect
  split
  · exact emit_answer_bal _ _ _ _
  next id hf =>
    split
    · exact emit_answer_bal _ _ _ _
    · exact emit_answer_bal _ _ _ _
    next hp =>
      split
      · obtain ⟨l, h1, h2, _⟩ := fillAnswer_out m k id cl
        have := bal_change (Local.fillAnswer m k id cl) h1 c h.nodup (find_mem hf).1
        have e1 : holds m id c = 0 := by
          unfold holds
          rw [if_neg]
          intro e
          have := h.remote' (id := id) (by rw [e]; simp)
          rw [hp] at this; cases this
        have e2 : holds (fillAnswer m k id cl) id c = if k = c then 1 else 0 := by
          unfold holds
          simp [fillAnswer, Mgr.setProgress]
        rw [h2 c, e1, e2] at this
        omega
      · exact emit_answer_bal _ _ _ _
    · exact emit_answer_bal _ _ _ _

theorem activate_bal (m : Mgr) (k : Nat) (d : Int) (c : Nat) :
    bal (activate m k d) c = bal m c + if k = c then 1 else 0 := by
  have h1 := answer_bal m .no c
  unfold bal waiting at h1 ⊢
  have e : (m.answer .no).cmd = none := rfl
  simp only [activate, Option.some.injEq]
  rw [e] at h1
  simp only [reduceCtorEq, if_false] at h1
  omega

theorem setProgress_bal (m : Mgr) (id : Nat) (p : Progress) (c : Nat) : bal (m.setProgress id p) c = bal m c := by
  refine bal_same (Local.setProgress m id p) (l := [.progress id p]) rfl c rfl ?_
  simp [Mgr.setProgress]

theorem emit_bal (m : Mgr) (l : List Out) (c : Nat) (h : answered c l = 0) : bal (m.emit l) c = bal m c :=
  bal_same (Local.emit m 0 l) rfl c h rfl

theorem connectReply_bal (devs : Nat → Bool) (m : Mgr) (u1 u2 : Nat) (res : Res) (i : Info) (c : Nat) :
    bal (connectReply devs m u1 u2 res i) c = bal m c := by
  unfold connectReply
  split
  · rfl
  · split
    · split
      · rw [upd_bal _ _ _ _ (by simp), setProgress_bal]
      · dsimp only
        split
        · exact upd_bal _ _ _ _ (by simp)
        · rw [emit_bal _ _ _ rfl, setProgress_bal, upd_bal _ _ _ _ (by simp), upd_bal _ _ _ _ (by simp)]
    · rfl

theorem Inv.free {m : Mgr} (h : Inv m) {id : Nat} (hid : id ∉ m.recs) : (m.objs id).remote = none := by
  cases hr : (m.objs id).remote with
  | none => rfl
  | some k =>
    have := h.remote' (id := id) (by rw [hr]; simp)
    rcases h.outside id hid with e | e <;> rw [e] at this <;> cases this

theorem replyRemote_bal {m : Mgr} (h : Inv m) (id : Nat) (ok : Bool) (c : Nat) :
    bal (m.replyRemote id ok) c = bal m c := by
  refine bal_reply (Local.replyRemote m id ok) rfl c h.nodup ?_ (by simp [Mgr.replyRemote]) (fun hn => h.free hn)
  rw [answered_answers]; rfl

theorem fail_bal {m : Mgr} (h : Inv m) (id c : Nat) :
    bal ((m.setProgress id .failed).replyRemote id false) c = bal m c := by
  refine bal_reply ((Local.setProgress m id .failed).trans (Local.replyRemote _ id false))
    (l := [.progress id .failed] ++ answers (m.objs id).remote .no) ?_ c h.nodup ?_ ?_ (fun hn => h.free hn)
  · simp [Mgr.replyRemote, Mgr.setProgress]
  · rw [answered_append, answered_answers]; simp [holds]
  · simp [Mgr.replyRemote]

theorem handleReply_bal {m : Mgr} (h : Inv m) (id : Nat) (ok : Bool) (c : Nat) :
    bal (handleReply m id ok) c = bal m c := by
  unfold handleReply
  split
  · exact fail_bal h id c
  · split
    · rw [upd_bal _ _ _ _ (by simp), setProgress_bal]
    next hp =>
      have hid : id ∈ m.recs := h.mem (by simp [hp]) (by simp [hp])
      rw [checkRecs_bal, setProgress_bal]
      refine h.toMid.local (Local.setProgress _ _ _) (h.traced.setProgress ?_) (fun hn => absurd hid hn) ?_
      · rw [hp]; exact .done
      · intro _; exact Or.inr (by simp [Mgr.setProgress])
    · rfl

theorem register_bal {m : Mgr} (h : Inv m) {id : Nat} (hid : id ∉ m.recs) (b : Bool) (c : Nat) :
    bal (register m id b) c = bal m c := by
  rw [← reset_bal h.nodup id c (fun _ => h.free hid)]
  have N := number_facts (m.reset id) id
  unfold register bal waiting
  dsimp only
  rw [N.2.1, N.2.2.1, N.1, List.countP_append]
  have e0 : (((m.reset id).number id).objs id).remote = none := by
    rw [N.2.2.2.2.2.2.2, reset_obj]
  have e1 : [id].countP (fun k => (((m.reset id).number id).objs k).remote == some c) = 0 := by
    simp [e0]
  rw [e1, count_congr c (m.reset id).recs (m := m.reset id) (n := (m.reset id).number id)]
  · omega
  · intro k _
    by_cases hk : k = id
    · subst hk; exact N.2.2.2.2.2.2.2
    · rw [N.2.2.2.2.2.1 k hk]

theorem step_bal {m : Mgr} (h : Inv m) (op : Op) (c : Nat) :
    bal (step m op) c = bal m c + if brings op = some c then 1 else 0 := by
  cases op with
  | event id v t =>
    show bal (paramEvent m id v t) c = _
    unfold paramEvent
    simp only [brings, reduceCtorEq, if_false, Nat.add_zero]
    split
    · rfl
    · split
      · rfl
      · split
        · rfl
        next hid => exact register_bal h hid _ c
  | timeout devs addrs d t => exact timeout_bal h devs addrs d t c
  | globalConnect devs k u1 u2 cl =>
    show bal (globalConnect devs m k u1 u2 cl) c = _
    rw [globalConnect_bal h]; simp [brings]
  | activate k =>
    show bal (activate m k 1) c = _
    rw [activate_bal]; simp [brings]
  | shutdown k =>
    show bal (activate m k (-1)) c = _
    rw [activate_bal]; simp [brings]
  | connectReply devs u1 u2 r i => exact connectReply_bal devs m u1 u2 r i c
  | handleReply id ok => exact handleReply_bal h id ok c
  | answerRemote id ok => exact replyRemote_bal h id ok c
  | setIds id s k => exact upd_bal _ _ _ _ rfl
  | setState id s => exact upd_bal _ _ _ _ rfl

theorem run_bal (c : Nat) : ∀ (ops : List Op) {m : Mgr}, Inv m → bal (run m ops) c = bal m c + received c ops
  | [], _, _ => rfl
  | op :: ops, m, h => by
    have IH := run_bal c ops (h.step op)
    have S := step_bal h op c
    show bal (run (step m op) ops) c = _
    rw [IH, S]
    unfold received
    rw [List.countP_cons]
    simp only [beq_iff_eq]
    omega

end Verif.ConnMgr
