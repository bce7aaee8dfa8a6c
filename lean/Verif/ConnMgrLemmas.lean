import Verif.Spec.ConnMgr

namespace Verif.ConnMgr

open Spec

/-! ### Primitive changes -/

@[simp] theorem upd_recs (m : Mgr) (id f) : (m.upd id f).recs = m.recs := rfl
@[simp] theorem upd_cmd (m : Mgr) (id f) : (m.upd id f).cmd = m.cmd := rfl
@[simp] theorem upd_out (m : Mgr) (id f) : (m.upd id f).out = m.out := rfl
@[simp] theorem upd_doing (m : Mgr) (id f) : (m.upd id f).doing = m.doing := rfl
@[simp] theorem upd_counter (m : Mgr) (id f) : (m.upd id f).counter = m.counter := rfl
@[simp] theorem upd_addr (m : Mgr) (id f) : (m.upd id f).addr = m.addr := rfl
theorem upd_objs (m : Mgr) (id f k) : (m.upd id f).objs k = if k = id then f (m.objs k) else m.objs k := rfl
@[simp] theorem upd_self (m : Mgr) (id f) : (m.upd id f).objs id = f (m.objs id) := by simp [upd_objs]
theorem upd_other (m : Mgr) (id f) {k} (h : k ≠ id) : (m.upd id f).objs k = m.objs k := by simp [upd_objs, h]

@[simp] theorem emit_recs (m : Mgr) (l) : (m.emit l).recs = m.recs := rfl
@[simp] theorem emit_cmd (m : Mgr) (l) : (m.emit l).cmd = m.cmd := rfl
@[simp] theorem emit_out (m : Mgr) (l) : (m.emit l).out = m.out ++ l := rfl
@[simp] theorem emit_doing (m : Mgr) (l) : (m.emit l).doing = m.doing := rfl
@[simp] theorem emit_counter (m : Mgr) (l) : (m.emit l).counter = m.counter := rfl
@[simp] theorem emit_addr (m : Mgr) (l) : (m.emit l).addr = m.addr := rfl
@[simp] theorem emit_objs (m : Mgr) (l) : (m.emit l).objs = m.objs := rfl

/-! ### Effects on one record -/

/-- What an operation on record `id` leaves unchanged. -/
structure Local (m n : Mgr) (id : Nat) : Prop where
  recs : n.recs = m.recs
  cmd : n.cmd = m.cmd
  doing : n.doing = m.doing
  counter : n.counter = m.counter
  addr : n.addr = m.addr
  other : ∀ k, k ≠ id → n.objs k = m.objs k

theorem Local.refl (m : Mgr) (id) : Local m m id := ⟨rfl, rfl, rfl, rfl, rfl, fun _ _ => rfl⟩
theorem Local.trans {a b c : Mgr} {id} (h : Local a b id) (g : Local b c id) : Local a c id :=
  ⟨g.recs.trans h.recs, g.cmd.trans h.cmd, g.doing.trans h.doing, g.counter.trans h.counter, g.addr.trans h.addr,
    fun k hk => (g.other k hk).trans (h.other k hk)⟩
theorem Local.upd (m : Mgr) (id f) : Local m (m.upd id f) id := ⟨rfl, rfl, rfl, rfl, rfl, fun _ h => upd_other m id f h⟩
theorem Local.emit (m : Mgr) (id l) : Local m (m.emit l) id := ⟨rfl, rfl, rfl, rfl, rfl, fun _ _ => rfl⟩
theorem Local.setProgress (m : Mgr) (id p) : Local m (m.setProgress id p) id :=
  (Local.upd m id _).trans (Local.emit _ id _)
theorem Local.replyRemote (m : Mgr) (id ok) : Local m (m.replyRemote id ok) id :=
  (Local.upd m id _).trans (Local.emit _ id _)
theorem Local.changeState (m : Mgr) (id s) : Local m (m.changeState id s) id := by
  unfold Mgr.changeState
  split
  · exact Local.refl m id
  · exact (Local.upd m id _).trans (Local.emit _ id _)
theorem Local.reset (m : Mgr) (id) : Local m (m.reset id) id :=
  (((Local.emit m id _).trans (Local.upd _ id _)).trans (Local.replyRemote _ id _)).trans (Local.upd _ id _)
theorem Local.leave (m : Mgr) (id s) : Local m (leave m id s) id :=
  (Local.reset m id).trans (Local.changeState _ id s)
theorem Local.act (devs addrs : Nat → Bool) (m : Mgr) (id) : Local m (act devs addrs m id) id := by
  unfold ConnMgr.act
  dsimp only
  split
  · split
    · exact Local.setProgress _ _ _
    · exact ((Local.setProgress _ _ _).trans (Local.upd _ _ _)).trans (Local.emit _ _ _)
  · exact Local.setProgress _ _ _
  · split
    · exact Local.upd _ _ _
    · split
      · exact Local.setProgress _ _ _
      · exact ((Local.setProgress _ _ _).trans (Local.upd _ _ _)).trans (Local.emit _ _ _)
  · exact Local.refl _ _
theorem Local.turn (devs addrs : Nat → Bool) (d : Int) (m : Mgr) (id) : Local m (turn devs addrs d m id) id := by
  unfold ConnMgr.turn
  dsimp only
  split
  · exact Local.upd _ _ _
  · exact (Local.upd _ _ _).trans (Local.act _ _ _ _)
theorem Local.fill (m : Mgr) (c id cl) : Local m (fill m c id cl) id := by
  unfold ConnMgr.fill
  dsimp only
  split
  · exact (Local.upd _ _ _).trans (Local.emit _ _ _)
  · exact Local.refl _ _
theorem Local.fillAnswer (m : Mgr) (c id cl) : Local m (fillAnswer m c id cl) id :=
  (((Local.fill m c id cl).trans (Local.upd _ _ _)).trans (Local.setProgress _ _ _)).trans (Local.emit _ _ _)

/-! ### The output of one record -/

@[simp] theorem progressOf_append (id : Nat) (a b : List Out) :
    progressOf id (a ++ b) = progressOf id a ++ progressOf id b := by
  simp [progressOf, List.filterMap_append]

@[simp] theorem progressOf_answers (id : Nat) (c : Option Nat) (r) : progressOf id (answers c r) = [] := by
  cases c <;> rfl

@[simp] theorem progressOf_nil (id : Nat) : progressOf id [] = [] := rfl
@[simp] theorem progressOf_progress (id k : Nat) (p) : progressOf id [.progress k p] = if k = id then [p] else [] := by
  by_cases h : k = id <;> simp [progressOf, h]
@[simp] theorem progressOf_state (id k : Nat) (s) : progressOf id [.state k s] = [] := rfl
@[simp] theorem progressOf_handle (id k : Nat) : progressOf id [.handle k] = [] := rfl
@[simp] theorem progressOf_connect (id k a b c t) : progressOf id [.connect k a b c t] = [] := rfl
@[simp] theorem progressOf_filled (id k i) : progressOf id [.filled k i] = [] := rfl
@[simp] theorem progressOf_answer (id k r) : progressOf id [.answer k r] = [] := rfl

/-! ### Invariant: progress of the records -/

/-- Every record has gone on as allowed. -/
def Traced (m : Mgr) : Prop := ∀ id, Legal .init (progressOf id m.out) (m.objs id).progress

theorem Traced.emit {m : Mgr} (h : Traced m) {l : List Out} (hl : ∀ id, progressOf id l = []) : Traced (m.emit l) := by
  intro id
  simpa [hl id] using h id

theorem Traced.upd {m : Mgr} (h : Traced m) {id : Nat} {f : Rec → Rec}
    (hf : (f (m.objs id)).progress = (m.objs id).progress) : Traced (m.upd id f) := by
  intro k
  rw [upd_objs]
  split
  · subst k; rw [hf]; exact h id
  · exact h k

theorem Traced.setProgress {m : Mgr} (h : Traced m) {id : Nat} {p : Progress} (hp : Next (m.objs id).progress p) :
    Traced (m.setProgress id p) := by
  intro k
  unfold Mgr.setProgress
  rw [emit_out, emit_objs, upd_out, progressOf_append, progressOf_progress, upd_objs]
  by_cases hk : id = k
  · subst hk
    simp only [if_pos]
    exact .snoc (h id) hp
  · rw [if_neg hk, if_neg (fun e => hk e.symm), List.append_nil]
    exact h k

theorem Traced.replyRemote {m : Mgr} (h : Traced m) (id : Nat) (ok : Bool) : Traced (m.replyRemote id ok) :=
  Traced.emit (Traced.upd h rfl) (fun _ => progressOf_answers _ _ _)

theorem Traced.changeState {m : Mgr} (h : Traced m) (id : Nat) (s : St) : Traced (m.changeState id s) := by
  unfold Mgr.changeState
  split
  · exact h
  · exact Traced.emit (Traced.upd h rfl) (fun _ => rfl)

@[simp] theorem delay_progress (r : Rec) (v b) : (r.delay v b).progress = r.progress := by
  unfold Rec.delay; split <;> rfl
@[simp] theorem delay_remote (r : Rec) (v b) : (r.delay v b).remote = r.remote := by
  unfold Rec.delay; split <;> rfl
@[simp] theorem delay_server (r : Rec) (v b) : (r.delay v b).server = r.server := by
  unfold Rec.delay; split <;> rfl
@[simp] theorem delay_opt (r : Rec) (v b) : (r.delay v b).opt = r.opt := by
  unfold Rec.delay; split <;> rfl
@[simp] theorem delay_connId (r : Rec) (v b) : (r.delay v b).connId = r.connId := by
  unfold Rec.delay; split <;> rfl
@[simp] theorem delay_state (r : Rec) (v b) : (r.delay v b).state = r.state := by
  unfold Rec.delay; split <;> rfl
@[simp] theorem delay_localUrl (r : Rec) (v b) : (r.delay v b).localUrl = r.localUrl := by
  unfold Rec.delay; split <;> rfl
@[simp] theorem delay_remoteUrl (r : Rec) (v b) : (r.delay v b).remoteUrl = r.remoteUrl := by
  unfold Rec.delay; split <;> rfl
@[simp] theorem check_progress (r : Rec) (d) : (r.check d).1.progress = r.progress := by
  unfold Rec.check; split <;> rfl
@[simp] theorem check_remote (r : Rec) (d) : (r.check d).1.remote = r.remote := by
  unfold Rec.check; split <;> rfl
@[simp] theorem check_server (r : Rec) (d) : (r.check d).1.server = r.server := by
  unfold Rec.check; split <;> rfl
@[simp] theorem check_opt (r : Rec) (d) : (r.check d).1.opt = r.opt := by
  unfold Rec.check; split <;> rfl
@[simp] theorem check_connId (r : Rec) (d) : (r.check d).1.connId = r.connId := by
  unfold Rec.check; split <;> rfl
@[simp] theorem check_localUrl (r : Rec) (d) : (r.check d).1.localUrl = r.localUrl := by
  unfold Rec.check; split <;> rfl
@[simp] theorem check_remoteUrl (r : Rec) (d) : (r.check d).1.remoteUrl = r.remoteUrl := by
  unfold Rec.check; split <;> rfl
@[simp] theorem take_progress (r : Rec) (i) : (r.take i).progress = r.progress := by
  unfold Rec.take; split <;> rfl
@[simp] theorem take_remote (r : Rec) (i) : (r.take i).remote = r.remote := by
  unfold Rec.take; split <;> rfl
@[simp] theorem take_server (r : Rec) (i) : (r.take i).server = r.server := by
  unfold Rec.take; split <;> rfl
@[simp] theorem take_opt (r : Rec) (i) : (r.take i).opt = r.opt := by
  unfold Rec.take; split <;> rfl
@[simp] theorem take_localUrl (r : Rec) (i) : (r.take i).localUrl = r.localUrl := by
  unfold Rec.take; split <;> rfl
@[simp] theorem take_remoteUrl (r : Rec) (i) : (r.take i).remoteUrl = r.remoteUrl := by
  unfold Rec.take; split <;> rfl

theorem reset_obj (m : Mgr) (id : Nat) :
    (m.reset id).objs id = { (m.objs id).clear with remote := none, set := 0, acc := 0 } := by
  simp [Mgr.reset, Mgr.replyRemote, Rec.delay]

theorem reset_out (m : Mgr) (id : Nat) :
    (m.reset id).out = m.out ++ [.progress id .init] ++ answers (m.objs id).remote .no := by
  simp [Mgr.reset, Mgr.replyRemote, Rec.clear]

theorem Traced.reset {m : Mgr} (h : Traced m) {id : Nat} (hp : Next (m.objs id).progress .init) :
    Traced (m.reset id) := by
  intro k
  rw [reset_out, progressOf_append, progressOf_append, progressOf_progress, progressOf_answers, List.append_nil]
  by_cases hk : id = k
  · subst hk
    rw [if_pos rfl, reset_obj]
    exact .snoc (h id) hp
  · rw [if_neg hk, List.append_nil, (Local.reset m id).other k (fun e => hk e.symm)]
    exact h k

theorem leave_progress (m : Mgr) (id s) : ((leave m id s).objs id).progress = .init := by
  unfold leave Mgr.changeState
  split <;> simp [reset_obj, Rec.clear]

theorem leave_remote (m : Mgr) (id s) : ((leave m id s).objs id).remote = none := by
  unfold leave Mgr.changeState
  split <;> simp [reset_obj]

theorem leave_state (m : Mgr) (id s) : ((leave m id s).objs id).state = s := by
  unfold leave Mgr.changeState
  split
  · assumption
  · simp

theorem Traced.leave {m : Mgr} (h : Traced m) {id : Nat} (s : St) (hp : Next (m.objs id).progress .init) :
    Traced (leave m id s) := Traced.changeState (Traced.reset h hp) id s

/-! ### The loop over the records -/

/-- Decidable form of `over`. -/
def isOver (p : Progress) : Bool := p == .failed || p == .connected

theorem isOver_iff (p : Progress) : isOver p = true ↔ over p := by cases p <;> simp [isOver, over]

theorem leave_other (m : Mgr) (id s) {k} (h : k ≠ id) : (leave m id s).objs k = m.objs k :=
  (Local.leave m id s).other k h

theorem over_next {p : Progress} (h : over p) : Next p .init := by
  rcases h with h | h <;> subst h
  · exact .again
  · exact .rest

theorem checkLoop_other (id : Nat) (ids : List Nat) (m : Mgr) (err only : Bool)
    (h : ¬ over (m.objs id).progress) :
    checkLoop (id :: ids) m err only =
      ((checkLoop ids m err (only && (m.objs id).opt)).1, id :: (checkLoop ids m err (only && (m.objs id).opt)).2.1,
        (checkLoop ids m err (only && (m.objs id).opt)).2.2) := by
  rw [checkLoop]
  cases hp : (m.objs id).progress <;> simp_all [over]

theorem checkLoop_failed (id : Nat) (ids : List Nat) (m : Mgr) (err only : Bool)
    (h : (m.objs id).progress = .failed) :
    checkLoop (id :: ids) m err only = checkLoop ids (leave m id .failed) (err || !(m.objs id).opt) only := by
  rw [checkLoop, h]

theorem checkLoop_connected (id : Nat) (ids : List Nat) (m : Mgr) (err only : Bool)
    (h : (m.objs id).progress = .connected) :
    checkLoop (id :: ids) m err only = checkLoop ids (leave m id .connected) err only := by
  rw [checkLoop, h]

/-- State in which a record leaves. -/
def final : Progress → St
  | .failed => .failed
  | _ => .connected

theorem checkLoop_over (id : Nat) (ids : List Nat) (m : Mgr) (err only : Bool) (h : over (m.objs id).progress) :
    checkLoop (id :: ids) m err only =
      checkLoop ids (leave m id (final (m.objs id).progress))
        (err || ((m.objs id).progress == .failed && !(m.objs id).opt)) only := by
  rcases h with h | h
  · rw [checkLoop_failed id ids m err only h, h]; rfl
  · rw [checkLoop_connected id ids m err only h, h]
    have e : (Progress.connected == Progress.failed) = false := rfl
    rw [e, Bool.false_and, Bool.or_false]
    rfl

/-- Facts about the state behind the loop. -/
structure Loop (ids : List Nat) (m n : Mgr) : Prop where
  recs : n.recs = m.recs
  cmd : n.cmd = m.cmd
  doing : n.doing = m.doing
  counter : n.counter = m.counter
  addr : n.addr = m.addr
  same : ∀ k, (k ∉ ids ∨ ¬ over (m.objs k).progress) → n.objs k = m.objs k
  gone : ∀ k, k ∈ ids → over (m.objs k).progress →
    (n.objs k).progress = .init ∧ (n.objs k).remote = none ∧ (n.objs k).state = final (m.objs k).progress

theorem checkLoop_loop : ∀ (ids : List Nat) (m : Mgr) (err only : Bool), ids.Nodup →
    Loop ids m (checkLoop ids m err only).1
  | [], m, _, _, _ => ⟨rfl, rfl, rfl, rfl, rfl, fun _ _ => rfl, fun _ h _ => by simp at h⟩
  | id :: ids, m, err, only, hn => by
    have hid : id ∉ ids := (List.nodup_cons.mp hn).1
    have hns : ids.Nodup := (List.nodup_cons.mp hn).2
    by_cases ho : over (m.objs id).progress
    · rw [checkLoop_over id ids m err only ho]
      have L := Local.leave m id (final (m.objs id).progress)
      have IH := checkLoop_loop ids (leave m id (final (m.objs id).progress))
        (err || ((m.objs id).progress == .failed && !(m.objs id).opt)) only hns
      refine ⟨IH.recs.trans L.recs, IH.cmd.trans L.cmd, IH.doing.trans L.doing, IH.counter.trans L.counter,
        IH.addr.trans L.addr, ?_, ?_⟩
      · intro k hk
        have hkid : k ≠ id := by
          rintro rfl
          rcases hk with hk | hk
          · exact hk (List.mem_cons_self ..)
          · exact hk ho
        rw [IH.same k ?_, L.other k hkid]
        rw [L.other k hkid]
        rcases hk with hk | hk
        · exact Or.inl fun h => hk (List.mem_cons_of_mem _ h)
        · exact Or.inr hk
      · intro k hk hok
        by_cases hkid : k = id
        · subst hkid
          rw [IH.same k (Or.inl hid)]
          exact ⟨leave_progress _ _ _, leave_remote _ _ _, leave_state _ _ _⟩
        · have hk' : k ∈ ids := by
            rcases List.mem_cons.mp hk with h | h
            · exact absurd h hkid
            · exact h
          have := IH.gone k hk' (by rw [L.other k hkid]; exact hok)
          rw [L.other k hkid] at this
          exact this
    · rw [checkLoop_other id ids m err only ho]
      have IH := checkLoop_loop ids m err (only && (m.objs id).opt) hns
      refine ⟨IH.recs, IH.cmd, IH.doing, IH.counter, IH.addr, ?_, ?_⟩
      · intro k hk
        apply IH.same k
        rcases hk with hk | hk
        · exact Or.inl fun h => hk (List.mem_cons_of_mem _ h)
        · exact Or.inr hk
      · intro k hk hok
        have hkid : k ≠ id := fun e => ho (e ▸ hok)
        have hk' : k ∈ ids := by
          rcases List.mem_cons.mp hk with h | h
          · exact absurd h hkid
          · exact h
        exact IH.gone k hk' hok

theorem checkLoop_traced : ∀ (ids : List Nat) (m : Mgr) (err only : Bool), Traced m →
    Traced (checkLoop ids m err only).1
  | [], _, _, _, h => h
  | id :: ids, m, err, only, h => by
    by_cases ho : over (m.objs id).progress
    · rw [checkLoop_over id ids m err only ho]
      exact checkLoop_traced ids _ _ _ (Traced.leave h _ (over_next ho))
    · rw [checkLoop_other id ids m err only ho]
      exact checkLoop_traced ids _ _ _ h

/-- Records which stay, a required record which failed, all staying records optional. -/
theorem checkLoop_flags : ∀ (ids : List Nat) (m : Mgr) (err only : Bool), ids.Nodup →
    (checkLoop ids m err only).2.1 = ids.filter (fun k => !isOver (m.objs k).progress) ∧
    (checkLoop ids m err only).2.2.1 = (err || ids.any fun k => (m.objs k).progress == .failed && !(m.objs k).opt) ∧
    (checkLoop ids m err only).2.2.2 =
      (only && (ids.filter (fun k => !isOver (m.objs k).progress)).all fun k => (m.objs k).opt)
  | [], m, err, only, _ => by simp [checkLoop]
  | id :: ids, m, err, only, hn => by
    have hid : id ∉ ids := (List.nodup_cons.mp hn).1
    have hns : ids.Nodup := (List.nodup_cons.mp hn).2
    by_cases ho : over (m.objs id).progress
    · rw [checkLoop_over id ids m err only ho]
      have hoth : ∀ k ∈ ids, (leave m id (final (m.objs id).progress)).objs k = m.objs k := fun k hk =>
        leave_other m id _ (fun e => hid (e ▸ hk))
      have IH := checkLoop_flags ids (leave m id (final (m.objs id).progress))
        (err || ((m.objs id).progress == .failed && !(m.objs id).opt)) only hns
      have hf : ids.filter (fun k => !isOver ((leave m id (final (m.objs id).progress)).objs k).progress) =
          ids.filter (fun k => !isOver (m.objs k).progress) := by
        apply List.filter_congr
        intro k hk
        rw [hoth k hk]
      have hov : isOver (m.objs id).progress = true := (isOver_iff _).mpr ho
      rw [hf] at IH
      refine ⟨?_, ?_, ?_⟩
      · rw [IH.1, List.filter_cons, hov]; simp
      · rw [IH.2.1, List.any_cons, ← Bool.or_assoc]
        congr 1
        rw [Bool.eq_iff_iff, List.any_eq_true, List.any_eq_true]
        constructor
        · rintro ⟨k, hk, h⟩
          exact ⟨k, hk, by rw [hoth k hk] at h; exact h⟩
        · rintro ⟨k, hk, h⟩
          exact ⟨k, hk, by rw [hoth k hk]; exact h⟩
      · rw [IH.2.2, List.filter_cons, hov]
        simp only [Bool.not_true, Bool.false_eq_true, if_false]
        congr 1
        rw [Bool.eq_iff_iff, List.all_eq_true, List.all_eq_true]
        constructor
        · intro h k hk
          have := h k hk
          rwa [hoth k (List.mem_filter.mp hk).1] at this
        · intro h k hk
          rw [hoth k (List.mem_filter.mp hk).1]
          exact h k hk
    · rw [checkLoop_other id ids m err only ho]
      have IH := checkLoop_flags ids m err (only && (m.objs id).opt) hns
      have hov : isOver (m.objs id).progress = false := by
        cases h : isOver (m.objs id).progress
        · rfl
        · exact absurd ((isOver_iff _).mp h) ho
      have hnf : ((m.objs id).progress == Progress.failed) = false := by
        cases hp : (m.objs id).progress <;> simp_all [over]
      refine ⟨?_, ?_, ?_⟩
      · simp only [IH.1, List.filter_cons, hov]; simp
      · simp only [IH.2.1, List.any_cons, hnf]; simp
      · simp only [IH.2.2, List.filter_cons, hov]; simp [Bool.and_assoc]

/-! ### Invariant -/

/-- Holds also inside of the operations. -/
structure Mid (m : Mgr) : Prop where
  nodup : m.recs.Nodup
  outside : ∀ id, id ∉ m.recs → (m.objs id).progress = .init ∨ (m.objs id).progress = .failed
  remote : ∀ id, (m.objs id).remote ≠ none → (m.objs id).progress = .doingConnect ∨ (m.objs id).progress = .connected
  traced : Traced m

/-- Holds between the operations. -/
structure Inv (m : Mgr) : Prop extends Mid m where
  connected : ∀ id, (m.objs id).progress ≠ .connected

/-- An operation on one record keeps the invariant when it does so for this record. -/
theorem Mid.local {m n : Mgr} {id : Nat} (h : Mid m) (L : Local m n id) (t : Traced n)
    (ho : id ∉ m.recs → (n.objs id).progress = .init ∨ (n.objs id).progress = .failed)
    (hr : (n.objs id).remote ≠ none → (n.objs id).progress = .doingConnect ∨ (n.objs id).progress = .connected) :
    Mid n := by
  refine ⟨by rw [L.recs]; exact h.nodup, ?_, ?_, t⟩
  · intro k hk
    rw [L.recs] at hk
    by_cases hkid : k = id
    · subst hkid; exact ho hk
    · rw [L.other k hkid]; exact h.outside k hk
  · intro k hk
    by_cases hkid : k = id
    · subst hkid; exact hr hk
    · rw [L.other k hkid] at hk ⊢; exact h.remote k hk

theorem Inv.local {m n : Mgr} {id : Nat} (h : Inv m) (L : Local m n id) (t : Traced n)
    (ho : id ∉ m.recs → (n.objs id).progress = .init ∨ (n.objs id).progress = .failed)
    (hr : (n.objs id).remote ≠ none → (n.objs id).progress = .doingConnect)
    (hc : (n.objs id).progress ≠ .connected) : Inv n := by
  refine ⟨h.toMid.local L t ho (fun h => Or.inl (hr h)), ?_⟩
  intro k
  by_cases hkid : k = id
  · subst hkid; exact hc
  · rw [L.other k hkid]; exact h.connected k

theorem Inv.remote' {m : Mgr} (h : Inv m) {id : Nat} (hr : (m.objs id).remote ≠ none) :
    (m.objs id).progress = .doingConnect := (h.remote id hr).resolve_right (h.connected id)

theorem Inv.mem {m : Mgr} (h : Inv m) {id : Nat} (h1 : (m.objs id).progress ≠ .init)
    (h2 : (m.objs id).progress ≠ .failed) : id ∈ m.recs := by
  by_cases hm : id ∈ m.recs
  · exact hm
  · rcases h.outside id hm with h | h
    · exact absurd h h1
    · exact absurd h h2

/-- Changes beside the objects. -/
theorem Inv.outer {m n : Mgr} (h : Inv m) (ho : n.objs = m.objs) (hr : n.recs = m.recs)
    (ht : ∀ id, progressOf id n.out = progressOf id m.out) : Inv n := by
  refine ⟨⟨by rw [hr]; exact h.nodup, ?_, ?_, ?_⟩, ?_⟩
  · rw [ho, hr]; exact h.outside
  · rw [ho]; exact h.remote
  · intro id; rw [ho, ht]; exact h.traced id
  · rw [ho]; exact h.connected

theorem Inv.answer {m : Mgr} (h : Inv m) (r : Res) : Inv (m.answer r) := by
  refine h.outer rfl rfl fun id => ?_
  simp [Mgr.answer]

theorem Inv.idle {m : Mgr} (h : Inv m) : Inv m.idle := h.outer rfl rfl fun _ => rfl

theorem Inv.conclude {m : Mgr} (h : Inv m) (a b c : Bool) : Inv (conclude m a b c) := by
  unfold ConnMgr.conclude
  split
  · exact (h.answer _).idle
  · split
    · exact h.idle.answer _
    · split
      · exact h.answer _
      · exact h

theorem Mid.loop {m : Mgr} (h : Mid m) :
    Inv { (checkLoop m.recs m false true).1 with recs := (checkLoop m.recs m false true).2.1 } := by
  have L := checkLoop_loop m.recs m false true h.nodup
  have F := (checkLoop_flags m.recs m false true h.nodup).1
  have T := checkLoop_traced m.recs m false true h.traced
  have key : ∀ k, (k ∈ m.recs ∧ over (m.objs k).progress) ∨ (k ∉ m.recs ∨ ¬ over (m.objs k).progress) := by
    intro k
    by_cases h1 : k ∈ m.recs <;> by_cases h2 : over (m.objs k).progress <;> simp [h1, h2]
  refine ⟨⟨?_, ?_, ?_, T⟩, ?_⟩
  · show (checkLoop m.recs m false true).2.1.Nodup
    rw [F]; exact h.nodup.filter _
  · intro k hk
    change k ∉ (checkLoop m.recs m false true).2.1 at hk
    rw [F] at hk
    rcases key k with ⟨h1, h2⟩ | h1
    · exact Or.inl (L.gone k h1 h2).1
    · have e := L.same k h1
      show ((checkLoop m.recs m false true).1.objs k).progress = _ ∨ _
      rw [e]
      refine h.outside k fun hm => ?_
      rcases h1 with h1 | h1
      · exact h1 hm
      · refine hk (List.mem_filter.mpr ⟨hm, ?_⟩)
        simp only [Bool.not_eq_true']
        cases hh : isOver (m.objs k).progress
        · rfl
        · exact absurd ((isOver_iff _).mp hh) h1
  · intro k hk
    rcases key k with ⟨h1, h2⟩ | h1
    · exact absurd (L.gone k h1 h2).2.1 hk
    · have e := L.same k h1
      have hk' : ((checkLoop m.recs m false true).1.objs k).remote ≠ none := hk
      show ((checkLoop m.recs m false true).1.objs k).progress = _ ∨ _
      rw [e] at hk' ⊢
      exact h.remote k hk'
  · intro k
    show ((checkLoop m.recs m false true).1.objs k).progress ≠ _
    rcases key k with ⟨h1, h2⟩ | h1
    · rw [(L.gone k h1 h2).1]; decide
    · rw [L.same k h1]
      intro hc
      rcases h1 with h1 | h1
      · rcases h.outside k h1 with h | h <;> rw [h] at hc <;> cases hc
      · exact h1 (Or.inr hc)

theorem Mid.checkRecs {m : Mgr} (h : Mid m) (f : Bool) : Inv (checkRecs m f) := h.loop.conclude _ _ _

theorem act_same (devs addrs : Nat → Bool) (m : Mgr) (id : Nat) :
    ((act devs addrs m id).objs id).remote = (m.objs id).remote := by
  unfold act
  dsimp only
  split
  · split <;> simp [Mgr.setProgress]
  · simp [Mgr.setProgress]
  · split
    · simp
    · split <;> simp [Mgr.setProgress]
  · rfl

theorem act_progress (devs addrs : Nat → Bool) (m : Mgr) (id : Nat) :
    ((act devs addrs m id).objs id).progress = (m.objs id).progress ∨
    ((m.objs id).progress = .init ∨ (m.objs id).progress = .doingInit ∨ (m.objs id).progress = .pending) ∧
      ((act devs addrs m id).objs id).progress ≠ .connected := by
  unfold act
  dsimp only
  split
  · split <;> simp [Mgr.setProgress, *]
  · simp [Mgr.setProgress, *]
  · split
    · simp
    · split <;> simp [Mgr.setProgress, *]
  · simp

theorem act_traced (devs addrs : Nat → Bool) {m : Mgr} (h : Traced m) (id : Nat) :
    Traced (act devs addrs m id) := by
  unfold act
  dsimp only
  split
  next hp =>
    split
    · exact h.setProgress (.fail _)
    · refine Traced.emit (Traced.upd (h.setProgress ?_) ?_) (fun _ => rfl)
      · rw [hp]; exact .prepare
      · simp
  next => exact h.setProgress (.fail _)
  next hp =>
    split
    · exact h.upd (by simp)
    · split
      · exact h.setProgress (.fail _)
      · refine Traced.emit (Traced.upd (h.setProgress ?_) ?_) (fun _ => rfl)
        · rw [hp]; exact .ask
        · simp
  next => exact h

theorem Inv.act {m : Mgr} (h : Inv m) (devs addrs : Nat → Bool) {id : Nat} (hid : id ∈ m.recs) :
    Inv (act devs addrs m id) := by
  refine h.local (Local.act _ _ _ _) (act_traced _ _ h.traced _) (fun hn => absurd hid hn) ?_ ?_
  · intro hr
    rw [act_same] at hr
    have hd := h.remote' hr
    rcases act_progress devs addrs m id with e | ⟨e, _⟩
    · rw [e]; exact hd
    · rw [hd] at e; simp at e
  · rcases act_progress devs addrs m id with e | ⟨_, e⟩
    · rw [e]; exact h.connected id
    · exact e

theorem Inv.upd {m : Mgr} (h : Inv m) (id : Nat) {f : Rec → Rec}
    (hp : (f (m.objs id)).progress = (m.objs id).progress)
    (hr : (f (m.objs id)).remote = (m.objs id).remote ∨ (f (m.objs id)).remote = none) : Inv (m.upd id f) := by
  refine h.local (Local.upd _ _ _) (h.traced.upd hp) ?_ ?_ ?_
  · rw [upd_self, hp]; exact h.outside id
  · rw [upd_self, hp]
    intro hn
    rcases hr with hr | hr
    · rw [hr] at hn; exact h.remote' hn
    · exact absurd hr hn
  · rw [upd_self, hp]; exact h.connected id

theorem Inv.turn {m : Mgr} (h : Inv m) (devs addrs : Nat → Bool) (d : Int) {id : Nat} (hid : id ∈ m.recs) :
    Inv (turn devs addrs d m id) := by
  unfold ConnMgr.turn
  dsimp only
  have h1 : Inv (m.upd id fun _ => ((m.objs id).check d).1) := h.upd id (by simp) (Or.inl (by simp))
  split
  · exact h1
  · exact h1.act _ _ hid

theorem Inv.turns (devs addrs : Nat → Bool) (d : Int) : ∀ (ids : List Nat) {m : Mgr}, Inv m → (∀ k ∈ ids, k ∈ m.recs) →
    Inv (ids.foldl (ConnMgr.turn devs addrs d) m) ∧ (ids.foldl (ConnMgr.turn devs addrs d) m).recs = m.recs
  | [], m, h, _ => ⟨h, rfl⟩
  | id :: ids, m, h, hm => by
    have L := Local.turn devs addrs d m id
    have IH := Inv.turns devs addrs d ids (h.turn devs addrs d (hm id (List.mem_cons_self ..))) (fun k hk => by
      rw [L.recs]; exact hm k (List.mem_cons_of_mem _ hk))
    exact ⟨IH.1, IH.2.trans L.recs⟩

theorem Inv.timeout {m : Mgr} (h : Inv m) (devs addrs : Nat → Bool) (d t : Int) :
    Inv (timeout devs addrs d t m) := by
  unfold ConnMgr.timeout
  split
  · exact h
  · exact ((Inv.turns devs addrs d m.recs h (fun _ h => h)).1).toMid.checkRecs _

theorem Inv.emit {m : Mgr} (h : Inv m) {l : List Out} (hl : ∀ id, progressOf id l = []) : Inv (m.emit l) :=
  h.outer rfl rfl fun id => by simp [hl id]

theorem Inv.replyRemote {m : Mgr} (h : Inv m) (id : Nat) (ok : Bool) : Inv (m.replyRemote id ok) :=
  (h.upd id rfl (Or.inr rfl)).emit fun _ => progressOf_answers _ _ _

theorem Inv.reset {m : Mgr} (h : Inv m) {id : Nat} (hp : Next (m.objs id).progress .init) : Inv (m.reset id) := by
  refine h.local (Local.reset m id) (h.traced.reset hp) ?_ ?_ ?_ <;> rw [reset_obj] <;> simp [Rec.clear]

theorem number_facts (m : Mgr) (id : Nat) :
    (m.number id).recs = m.recs ∧ (m.number id).out = m.out ∧ (m.number id).cmd = m.cmd ∧
    (m.number id).doing = m.doing ∧ (m.number id).addr = m.addr ∧
    (∀ k, k ≠ id → (m.number id).objs k = m.objs k) ∧
    ((m.number id).objs id).progress = (m.objs id).progress ∧
    ((m.number id).objs id).remote = (m.objs id).remote := by
  unfold Mgr.number
  split
  · refine ⟨rfl, rfl, rfl, rfl, rfl, fun k hk => ?_, ?_, ?_⟩
    · rw [upd_other _ _ _ hk]
    · rw [upd_self]
    · rw [upd_self]
  · exact ⟨rfl, rfl, rfl, rfl, rfl, fun _ _ => rfl, rfl, rfl⟩

theorem Inv.register {m : Mgr} (h : Inv m) {id : Nat} (hid : id ∉ m.recs) (b : Bool) : Inv (register m id b) := by
  have hp : Next (m.objs id).progress .init := by
    rcases h.outside id hid with e | e <;> rw [e]
    · exact .first
    · exact .again
  have h1 := h.reset hp
  have N := number_facts (m.reset id) id
  have hobj : ∀ k, ((m.reset id).number id).objs k = (m.reset id).objs k ∨ k = id := by
    intro k
    by_cases hk : k = id
    · exact Or.inr hk
    · exact Or.inl (N.2.2.2.2.2.1 k hk)
  have hpr : ∀ k, (((m.reset id).number id).objs k).progress = ((m.reset id).objs k).progress := by
    intro k
    rcases hobj k with e | e
    · rw [e]
    · subst e; exact N.2.2.2.2.2.2.1
  have hre : ∀ k, (((m.reset id).number id).objs k).remote = ((m.reset id).objs k).remote := by
    intro k
    rcases hobj k with e | e
    · rw [e]
    · subst e; exact N.2.2.2.2.2.2.2
  have hrecs : ((m.reset id).number id).recs = m.recs := N.1.trans (Local.reset m id).recs
  unfold ConnMgr.register
  refine ⟨⟨?_, ?_, ?_, ?_⟩, ?_⟩
  · show (((m.reset id).number id).recs ++ [id]).Nodup
    rw [hrecs, List.nodup_append]
    refine ⟨h.nodup, by simp, ?_⟩
    intro a ha b hb e
    simp only [List.mem_singleton] at hb
    exact hid (by rw [← hb, ← e]; exact ha)
  · intro k hk
    show (((m.reset id).number id).objs k).progress = _ ∨ _
    rw [hpr]
    refine h1.outside k fun hm => hk ?_
    show k ∈ ((m.reset id).number id).recs ++ [id]
    rw [hrecs]
    exact List.mem_append_left _ (by rw [← (Local.reset m id).recs]; exact hm)
  · intro k hk
    change (((m.reset id).number id).objs k).remote ≠ none at hk
    show (((m.reset id).number id).objs k).progress = _ ∨ _
    rw [hre] at hk
    rw [hpr]
    exact h1.remote k hk
  · intro k
    show Legal .init (progressOf k ((m.reset id).number id).out) (((m.reset id).number id).objs k).progress
    rw [N.2.1, hpr]
    exact h1.traced k
  · intro k
    show (((m.reset id).number id).objs k).progress ≠ _
    rw [hpr]
    exact h1.connected k

theorem find_mem {m : Mgr} {a b id : Nat} (h : find m a b = some id) :
    id ∈ m.recs ∧ (m.objs id).localUrl = a ∧ (m.objs id).remoteUrl = b := by
  unfold find at h
  have h2 := List.find?_some h
  exact ⟨List.mem_of_find?_eq_some h, by simpa using h2⟩

theorem fill_obj (m : Mgr) (c id cl : Nat) :
    ((fill m c id cl).objs id).progress = (m.objs id).progress ∧
    ((fill m c id cl).objs id).remote = (m.objs id).remote := by
  unfold fill
  dsimp only
  split <;> simp

theorem fill_traced {m : Mgr} (h : Traced m) (c id cl : Nat) : Traced (fill m c id cl) := by
  unfold fill
  dsimp only
  split
  · exact Traced.emit (h.upd rfl) (fun _ => rfl)
  · exact h

theorem Inv.fillAnswer {m : Mgr} (h : Inv m) {id : Nat} (hid : id ∈ m.recs) (hp : (m.objs id).progress = .pending)
    (c cl : Nat) : Inv (fillAnswer m c id cl) := by
  have F := fill_obj m c id cl
  have t : Traced (ConnMgr.fillAnswer m c id cl) := by
    unfold ConnMgr.fillAnswer
    refine Traced.emit (Traced.setProgress (Traced.upd (fill_traced h.traced c id cl) ?_) ?_) (fun _ => rfl)
    · simp
    · rw [upd_self]
      simp only [delay_progress, F.1, hp]
      exact .asked
  refine h.local (Local.fillAnswer m c id cl) t (fun hn => absurd hid hn) ?_ ?_
  · intro _; simp [ConnMgr.fillAnswer, Mgr.setProgress]
  · simp [ConnMgr.fillAnswer, Mgr.setProgress]

theorem Inv.globalConnect {m : Mgr} (h : Inv m) (devs : Nat → Bool) (c u1 u2 cl : Nat) :
    Inv (globalConnect devs m c u1 u2 cl) := by
  unfold ConnMgr.globalConnect
  split
  · exact h.emit fun _ => rfl
  next id hf =>
    split
    · exact h.emit fun _ => rfl
    · exact h.emit fun _ => rfl
    next hp =>
      split
      · exact h.fillAnswer (find_mem hf).1 hp c cl
      · exact h.emit fun _ => rfl
    · exact h.emit fun _ => rfl

theorem Inv.setProgress {m : Mgr} (h : Inv m) {id : Nat} {p : Progress} (hn : Next (m.objs id).progress p)
    (ho : id ∉ m.recs → p = .init ∨ p = .failed) (hr : (m.objs id).remote ≠ none → p = .doingConnect)
    (hc : p ≠ .connected) : Inv (m.setProgress id p) := by
  refine h.local (Local.setProgress _ _ _) (h.traced.setProgress hn) ?_ ?_ ?_ <;> simp [Mgr.setProgress] <;> assumption

theorem Inv.connectReply {m : Mgr} (h : Inv m) (devs : Nat → Bool) (u1 u2 : Nat) (res : Res) (i : Info) :
    Inv (connectReply devs m u1 u2 res i) := by
  unfold ConnMgr.connectReply
  split
  · exact h
  next id hf =>
    have hid := (find_mem hf).1
    split
    next hp =>
      split
      · refine Inv.upd (h.setProgress ?_ (fun hn => absurd hid hn) ?_ (by decide)) id (by simp) (Or.inl (by simp))
        · rw [hp]; exact .refused
        · intro hr; have := h.remote' hr; rw [hp] at this; cases this
      · dsimp only
        have h1 : Inv (m.upd id fun r => r.take i) := h.upd id (by simp) (Or.inl (by simp))
        split
        · exact h1
        · refine Inv.emit (Inv.setProgress (h1.upd id (by simp) (Or.inl (by simp))) ?_ (fun hn => absurd hid hn)
            (fun _ => rfl) (by decide)) (fun _ => rfl)
          simp only [upd_self, delay_progress, take_progress, hp]
          exact .accepted
    · exact h

theorem Inv.fail {m : Mgr} (h : Inv m) (id : Nat) : Inv ((m.setProgress id .failed).replyRemote id false) := by
  refine h.local ((Local.setProgress _ _ _).trans (Local.replyRemote _ _ _))
    ((h.traced.setProgress (.fail _)).replyRemote _ _) ?_ ?_ ?_ <;>
    simp [Mgr.setProgress, Mgr.replyRemote]

theorem Inv.handleReply {m : Mgr} (h : Inv m) (id : Nat) (ok : Bool) : Inv (handleReply m id ok) := by
  unfold ConnMgr.handleReply
  split
  · exact h.fail id
  · split
    next hp =>
      have hid : id ∈ m.recs := h.mem (by simp [hp]) (by simp [hp])
      refine Inv.upd (h.setProgress ?_ (fun hn => absurd hid hn) ?_ (by decide)) id (by simp) (Or.inl (by simp))
      · rw [hp]; exact .prepared
      · intro hr; have := h.remote' hr; rw [hp] at this; cases this
    next hp =>
      have hid : id ∈ m.recs := h.mem (by simp [hp]) (by simp [hp])
      refine Mid.checkRecs (h.toMid.local (Local.setProgress _ _ _) (h.traced.setProgress ?_)
        (fun hn => absurd hid hn) ?_) _
      · rw [hp]; exact .done
      · intro _; exact Or.inr (by simp [Mgr.setProgress])
    · exact h

theorem Inv.step {m : Mgr} (h : Inv m) (op : Op) : Inv (step m op) := by
  cases op with
  | event id v t =>
    show Inv (paramEvent m id v t)
    unfold paramEvent
    split
    · exact h
    · split
      · exact h
      · split
        · exact h
        next hid => exact h.register hid _
  | timeout devs addrs d t => exact h.timeout devs addrs d t
  | globalConnect devs c u1 u2 cl => exact h.globalConnect devs c u1 u2 cl
  | activate c => exact (h.answer .no).outer rfl rfl fun _ => rfl
  | shutdown c => exact (h.answer .no).outer rfl rfl fun _ => rfl
  | connectReply devs u1 u2 r i => exact h.connectReply devs u1 u2 r i
  | handleReply id ok => exact h.handleReply id ok
  | answerRemote id ok => exact h.replyRemote id ok
  | setIds id s c => exact h.upd id (f := fun r => { r with serverId := s, clientId := c }) rfl (Or.inl rfl)
  | setState id s => exact h.upd id (f := fun r => { r with state := s }) rfl (Or.inl rfl)

theorem Inv.run : ∀ (ops : List Op) {m : Mgr}, Inv m → Inv (run m ops)
  | [], _, h => h
  | op :: ops, _, h => Inv.run ops (h.step op)

theorem Inv.fresh {m : Mgr} (h : Fresh m) : Inv m := by
  refine ⟨⟨by rw [h.recs]; exact List.nodup_nil, fun id _ => Or.inl (h.progress id), fun id hr => absurd (h.remote id) hr,
    fun id => ?_⟩, fun id => by rw [h.progress]; decide⟩
  rw [h.out, h.progress]
  exact .nil _

end Verif.ConnMgr
