import Verif.ConnMgrCount

/-! # Connection manager: output and history -/

namespace Verif.ConnMgr

open Spec

/-! ### Fields which the manager never changes -/

/-- Url of both sides, role, optional. -/
def fixed (r : Rec) : Nat × Nat × Bool × Bool := (r.localUrl, r.remoteUrl, r.server, r.opt)

theorem fixed_eq {r q : Rec} (h : fixed r = fixed q) :
    r.localUrl = q.localUrl ∧ r.remoteUrl = q.remoteUrl ∧ r.server = q.server ∧ r.opt = q.opt := by
  simpa [fixed] using h

/-- The fixed fields are the same. -/
def Same (m n : Mgr) : Prop := ∀ k, fixed (n.objs k) = fixed (m.objs k)

theorem Same.refl (m : Mgr) : Same m m := fun _ => rfl
theorem Same.trans {a b c : Mgr} (h : Same a b) (g : Same b c) : Same a c := fun k => (g k).trans (h k)
theorem Same.upd (m : Mgr) (id : Nat) {f : Rec → Rec} (h : fixed (f (m.objs id)) = fixed (m.objs id)) :
    Same m (m.upd id f) := by
  intro k
  rw [upd_objs]
  split
  · subst k; exact h
  · rfl
theorem Same.of_objs {m n : Mgr} (h : n.objs = m.objs) : Same m n := fun k => by rw [h]
theorem Same.emit (m : Mgr) (l) : Same m (m.emit l) := Same.refl m
theorem Same.updEmit (m : Mgr) (id : Nat) {f : Rec → Rec} (l) (h : ∀ r, fixed (f r) = fixed r) :
    Same m ((m.upd id f).emit l) := (Same.upd m id (h _)).trans (Same.emit _ l)
theorem Same.setProgress (m : Mgr) (id p) : Same m (m.setProgress id p) := Same.updEmit m id _ fun _ => rfl
theorem Same.replyRemote (m : Mgr) (id ok) : Same m (m.replyRemote id ok) := Same.updEmit m id _ fun _ => rfl
theorem Same.changeState (m : Mgr) (id s) : Same m (m.changeState id s) := by
  unfold Mgr.changeState
  split
  · exact Same.refl m
  · exact Same.updEmit m id _ fun _ => rfl
theorem fixed_delay (r : Rec) (v b) : fixed (r.delay v b) = fixed r := by simp [fixed]
theorem fixed_check (r : Rec) (d) : fixed (r.check d).1 = fixed r := by simp [fixed]
theorem fixed_take (r : Rec) (i) : fixed (r.take i) = fixed r := by simp [fixed]
theorem Same.reset (m : Mgr) (id) : Same m (m.reset id) :=
  (((Same.emit m _).trans (Same.upd _ id rfl)).trans (Same.replyRemote _ id _)).trans (Same.upd _ id (fixed_delay _ _ _))
theorem Same.leave (m : Mgr) (id s) : Same m (leave m id s) := (Same.reset m id).trans (Same.changeState _ id s)
theorem Same.checkLoop : ∀ (ids : List Nat) (m : Mgr) (err only : Bool), Same m (checkLoop ids m err only).1
  | [], m, _, _ => Same.refl m
  | id :: ids, m, err, only => by
    by_cases ho : over (m.objs id).progress
    · rw [checkLoop_over id ids m err only ho]
      exact (Same.leave m id _).trans (Same.checkLoop ids _ _ _)
    · rw [checkLoop_other id ids m err only ho]
      exact Same.checkLoop ids m _ _
theorem Same.conclude (m : Mgr) (a b c : Bool) : Same m (conclude m a b c) := by
  apply Same.of_objs
  unfold ConnMgr.conclude
  split
  · rfl
  · split
    · rfl
    · split <;> rfl
theorem Same.checkRecs (m : Mgr) (f : Bool) : Same m (checkRecs m f) :=
  (Same.checkLoop m.recs m false true).trans (Same.conclude _ _ _ _)
theorem Same.act (devs addrs : Nat → Bool) (m : Mgr) (id) : Same m (act devs addrs m id) := by
  unfold ConnMgr.act
  dsimp only
  split
  · split
    · exact Same.setProgress _ _ _
    · exact (Same.setProgress m id _).trans (Same.updEmit _ id _ fun _ => fixed_delay _ _ _)
  · exact Same.setProgress _ _ _
  · split
    · exact Same.upd _ id (fixed_delay _ _ _)
    · split
      · exact Same.setProgress _ _ _
      · exact (Same.setProgress m id _).trans (Same.updEmit _ id _ fun _ => fixed_delay _ _ _)
  · exact Same.refl m
theorem Same.turn (devs addrs : Nat → Bool) (d : Int) (m : Mgr) (id) : Same m (turn devs addrs d m id) := by
  unfold ConnMgr.turn
  dsimp only
  split
  · exact Same.upd _ _ (fixed_check _ _)
  · exact (Same.upd _ _ (fixed_check _ _)).trans (Same.act _ _ _ _)
theorem Same.turns (devs addrs : Nat → Bool) (d : Int) : ∀ (ids : List Nat) (m : Mgr),
    Same m (ids.foldl (ConnMgr.turn devs addrs d) m)
  | [], m => Same.refl m
  | id :: ids, m => (Same.turn devs addrs d m id).trans (Same.turns devs addrs d ids _)
theorem Same.number (m : Mgr) (id) : Same m (m.number id) := by
  unfold Mgr.number
  split
  · exact Same.upd { m with counter := m.counter + 1 } id rfl
  · exact Same.refl m
theorem Same.register (m : Mgr) (id b) : Same m (register m id b) := (Same.reset m id).trans (Same.number _ id)
theorem Same.fill (m : Mgr) (c id cl) : Same m (fill m c id cl) := by
  unfold ConnMgr.fill
  dsimp only
  split
  · exact Same.updEmit m id _ fun _ => rfl
  · exact Same.refl m
theorem Same.fillAnswer (m : Mgr) (c id cl) : Same m (fillAnswer m c id cl) :=
  (((Same.fill m c id cl).trans (Same.upd _ id (fixed_delay _ _ _))).trans (Same.setProgress _ id _)).trans
    (Same.emit _ _)

theorem Same.step (m : Mgr) (op : Op) : Same m (step m op) := by
  cases op with
  | event id v t =>
    show Same m (paramEvent m id v t)
    unfold paramEvent
    split
    · exact Same.refl m
    · split
      · exact Same.refl m
      · split
        · exact Same.refl m
        · exact Same.register _ _ _
  | timeout devs addrs d t =>
    show Same m (timeout devs addrs d t m)
    unfold timeout
    split
    · exact Same.refl m
    · exact (Same.turns _ _ _ _ _).trans (Same.checkRecs _ _)
  | globalConnect devs c u1 u2 cl =>
    show Same m (globalConnect devs m c u1 u2 cl)
    unfold globalConnect
    split
    · exact Same.refl m
    · split
      · exact Same.refl m
      · exact Same.refl m
      · split
        · exact Same.fillAnswer _ _ _ _
        · exact Same.refl m
      · exact Same.refl m
  | activate c => exact Same.refl m
  | shutdown c => exact Same.refl m
  | connectReply devs u1 u2 r i =>
    show Same m (connectReply devs m u1 u2 r i)
    unfold connectReply
    split
    · exact Same.refl m
    · split
      · split
        · exact (Same.setProgress m _ _).trans (Same.upd _ _ (fixed_delay _ _ _))
        · dsimp only
          split
          · exact Same.upd _ _ (fixed_take _ _)
          · exact ((Same.upd m _ (fixed_take _ _)).trans (Same.upd _ _ (fixed_delay _ _ _))).trans
              ((Same.setProgress _ _ _).trans (Same.emit _ _))
      · exact Same.refl m
  | handleReply id ok =>
    show Same m (handleReply m id ok)
    unfold handleReply
    split
    · exact (Same.setProgress m id _).trans (Same.replyRemote _ _ _)
    · split
      · exact (Same.setProgress m id _).trans (Same.upd _ _ (fixed_delay _ _ _))
      · exact (Same.setProgress m id _).trans (Same.checkRecs _ _)
      · exact Same.refl m
  | answerRemote id ok => exact Same.replyRemote m id ok
  | setIds id s c => exact Same.upd m id (f := fun r => { r with serverId := s, clientId := c }) rfl
  | setState id s => exact Same.upd m id (f := fun r => { r with state := s }) rfl

theorem Same.run : ∀ (ops : List Op) (m : Mgr), Same m (run m ops)
  | [], m => Same.refl m
  | op :: ops, m => (Same.step m op).trans (Same.run ops _)

/-! ### Kinds of output -/

/-- Output which is neither a request nor a change of state of a record. -/
def plain : Out → Bool
  | .progress _ .connected => false
  | .connect .. => false
  | .state .. => false
  | _ => true

theorem plain_answers (o : Option Nat) (r : Res) : ∀ x ∈ answers o r, plain x = true := by
  cases o <;> simp [answers, plain]

/-- Output of one pass over the records. -/
theorem checkLoop_out : ∀ (ids : List Nat) (m : Mgr) (err only : Bool), ids.Nodup →
    ∃ l, (checkLoop ids m err only).1.out = m.out ++ l ∧ ∀ o ∈ l,
      (∃ k, o = .progress k .init) ∨ (∃ c, o = .answer c .no) ∨
      (∃ k ∈ ids, over (m.objs k).progress ∧ o = .state k (final (m.objs k).progress))
  | [], m, _, _, _ => ⟨[], by simp [checkLoop], by simp⟩
  | id :: ids, m, err, only, hn => by
    have hn' := List.nodup_cons.mp hn
    by_cases ho : over (m.objs id).progress
    · rw [checkLoop_over id ids m err only ho]
      obtain ⟨l, h1, h2⟩ := checkLoop_out ids (leave m id (final (m.objs id).progress))
        (err || ((m.objs id).progress == .failed && !(m.objs id).opt)) only hn'.2
      have hl : ∃ l0, (leave m id (final (m.objs id).progress)).out = m.out ++ l0 ∧ ∀ o ∈ l0,
          (∃ k, o = .progress k .init) ∨ (∃ c, o = .answer c .no) ∨ o = .state id (final (m.objs id).progress) := by
        have hans : ∀ o ∈ answers (m.objs id).remote .no, ∃ c, o = .answer c .no := by
          cases (m.objs id).remote <;> simp [answers]
        unfold leave Mgr.changeState
        split
        · refine ⟨[.progress id .init] ++ answers (m.objs id).remote .no, by rw [reset_out, List.append_assoc], ?_⟩
          intro o hm
          rcases List.mem_append.mp hm with hm | hm
          · exact Or.inl ⟨id, by simpa using hm⟩
          · exact Or.inr (Or.inl (hans o hm))
        · refine ⟨[.progress id .init] ++ answers (m.objs id).remote .no ++ [.state id (final (m.objs id).progress)],
            by rw [emit_out, upd_out, reset_out]; simp, ?_⟩
          intro o hm
          rcases List.mem_append.mp hm with hm | hm
          · rcases List.mem_append.mp hm with hm | hm
            · exact Or.inl ⟨id, by simpa using hm⟩
            · exact Or.inr (Or.inl (hans o hm))
          · exact Or.inr (Or.inr (by simpa using hm))
      obtain ⟨l0, g1, g2⟩ := hl
      refine ⟨l0 ++ l, by rw [h1, g1, List.append_assoc], ?_⟩
      intro o hm
      rcases List.mem_append.mp hm with hm | hm
      · rcases g2 o hm with h | h | h
        · exact Or.inl h
        · exact Or.inr (Or.inl h)
        · exact Or.inr (Or.inr ⟨id, List.mem_cons_self .., ho, h⟩)
      · rcases h2 o hm with h | h | ⟨k, hk, h3, h4⟩
        · exact Or.inl h
        · exact Or.inr (Or.inl h)
        · have e := leave_other m id (final (m.objs id).progress) (k := k) (fun e => hn'.1 (e ▸ hk))
          rw [e] at h3 h4
          exact Or.inr (Or.inr ⟨k, List.mem_cons_of_mem _ hk, h3, h4⟩)
    · rw [checkLoop_other id ids m err only ho]
      obtain ⟨l, h1, h2⟩ := checkLoop_out ids m err (only && (m.objs id).opt) hn'.2
      refine ⟨l, h1, fun o hm => ?_⟩
      rcases h2 o hm with h | h | ⟨k, hk, h3, h4⟩
      · exact Or.inl h
      · exact Or.inr (Or.inl h)
      · exact Or.inr (Or.inr ⟨k, List.mem_cons_of_mem _ hk, h3, h4⟩)

/-- What `CheckConnectionRecs` answers. -/
def verdict (m : Mgr) (err only finish : Bool) : Option Res :=
  if err then some .no
  else if m.recs = [] then some .ok
  else if finish then some (if only then .ok else .timedout)
  else none

/-- The answer in the output. -/
def outAnswer (c : Option Nat) : Option Res → List Out
  | none => []
  | some r => answers c r

theorem conclude_facts (m : Mgr) (a b f : Bool) :
    (conclude m a b f).out = m.out ++ outAnswer m.cmd (verdict m a b f) ∧
    (conclude m a b f).cmd = (if verdict m a b f = none then m.cmd else none) ∧
    (conclude m a b f).recs = m.recs ∧ (conclude m a b f).objs = m.objs ∧
    (conclude m a b f).doing = (if m.recs = [] then 0 else m.doing) := by
  unfold conclude verdict
  by_cases h1 : a = true
  · rw [if_pos h1, if_pos h1]
    exact ⟨rfl, rfl, rfl, rfl, rfl⟩
  · rw [if_neg h1, if_neg h1]
    by_cases h2 : m.recs = []
    · rw [if_pos h2, if_pos h2]
      exact ⟨rfl, rfl, rfl, rfl, rfl⟩
    · rw [if_neg h2, if_neg h2, if_neg h2]
      by_cases h3 : f = true
      · rw [if_pos h3, if_pos h3]
        exact ⟨rfl, rfl, rfl, rfl, rfl⟩
      · rw [if_neg h3, if_neg h3]
        exact ⟨by simp [outAnswer], rfl, rfl, rfl, rfl⟩

/-- The records which are not over. -/
def remaining (m : Mgr) : List Nat := m.recs.filter fun k => !isOver (m.objs k).progress

theorem mem_remaining {m : Mgr} {k : Nat} : k ∈ remaining m ↔ k ∈ m.recs ∧ ¬ over (m.objs k).progress := by
  unfold remaining
  rw [List.mem_filter, Bool.not_eq_true', ← isOver_iff, Bool.not_eq_true]

/-- Everything about one check. -/
structure Checked (m n : Mgr) (f : Bool) (v : Option Res) (l : List Out) : Prop where
  verdict : Verdict (∃ id ∈ m.recs, (m.objs id).progress = .failed ∧ (m.objs id).opt = false)
    (remaining m) (fun k => (m.objs k).opt) f v
  out : n.out = m.out ++ l ++ outAnswer m.cmd v
  cmd : n.cmd = if v = none then m.cmd else none
  recs : n.recs = remaining m
  doing : n.doing = if remaining m = [] then 0 else m.doing
  kinds : ∀ o ∈ l, (∃ k, o = .progress k .init) ∨ (∃ c, o = .answer c .no) ∨
      (∃ k ∈ m.recs, over (m.objs k).progress ∧ o = .state k (final (m.objs k).progress))

theorem checkRecs_spec {m : Mgr} (hn : m.recs.Nodup) (f : Bool) :
    ∃ v l, Checked m (checkRecs m f) f v l := by
  obtain ⟨F1, F2, F3⟩ := checkLoop_flags m.recs m false true hn
  obtain ⟨l, h1, h2⟩ := checkLoop_out m.recs m false true hn
  have L := checkLoop_loop m.recs m false true hn
  have C := conclude_facts { (checkLoop m.recs m false true).1 with recs := (checkLoop m.recs m false true).2.1 }
    (checkLoop m.recs m false true).2.2.1 (checkLoop m.recs m false true).2.2.2 f
  refine ⟨verdict { (checkLoop m.recs m false true).1 with recs := (checkLoop m.recs m false true).2.1 }
    (checkLoop m.recs m false true).2.2.1 (checkLoop m.recs m false true).2.2.2 f, l, ?_, ?_, ?_, ?_, ?_, h2⟩
  · have hr : ({ (checkLoop m.recs m false true).1 with recs := (checkLoop m.recs m false true).2.1 } : Mgr).recs =
        remaining m := F1
    unfold verdict
    rw [hr]
    by_cases he : (checkLoop m.recs m false true).2.2.1 = true
    · rw [if_pos he]
      apply Verdict.no
      rw [F2, Bool.false_or, List.any_eq_true] at he
      obtain ⟨k, hk, hp⟩ := he
      refine ⟨k, hk, ?_⟩
      simpa using hp
    · rw [if_neg he]
      have hno : ¬ ∃ id ∈ m.recs, (m.objs id).progress = .failed ∧ (m.objs id).opt = false := by
        rintro ⟨k, hk, hp⟩
        apply he
        rw [F2, Bool.false_or, List.any_eq_true]
        exact ⟨k, hk, by simpa using hp⟩
      by_cases hem : remaining m = []
      · rw [if_pos hem]; exact .all hno hem
      · rw [if_neg hem]
        cases f with
        | false => exact .wait hno hem rfl
        | true =>
          rw [if_pos rfl]
          by_cases ho : (checkLoop m.recs m false true).2.2.2 = true
          · rw [if_pos ho]
            refine .optional hno hem rfl ?_
            rw [F3, Bool.true_and, List.all_eq_true] at ho
            exact ho
          · rw [if_neg ho]
            refine .late hno rfl ?_
            rw [F3, Bool.true_and, List.all_eq_true] at ho
            apply Classical.byContradiction
            intro hx
            apply ho
            intro k hk
            cases hopt : (m.objs k).opt with
            | true => rfl
            | false => exact absurd ⟨k, hk, hopt⟩ hx
  · show (conclude _ _ _ _).out = _
    rw [C.1]
    show (checkLoop m.recs m false true).1.out ++ outAnswer (checkLoop m.recs m false true).1.cmd _ = _
    rw [h1, L.cmd]
  · show (conclude _ _ _ _).cmd = _
    rw [C.2.1]
    show (if _ then (checkLoop m.recs m false true).1.cmd else none) = _
    rw [L.cmd]
  · show (conclude _ _ _ _).recs = _
    rw [C.2.2.1]
    exact F1
  · show (conclude _ _ _ _).doing = _
    rw [C.2.2.2.2]
    show (if (checkLoop m.recs m false true).2.1 = [] then 0 else (checkLoop m.recs m false true).1.doing) = _
    rw [F1, L.doing]
    rfl

/-! ### Requests -/

/-- Requests in the output are those of clients, with the url of the record. -/
def Asks (m : Mgr) : Prop := ∀ id u1 u2 cl t, Out.connect id u1 u2 cl t ∈ m.out →
  (m.objs id).server = false ∧ u1 = (m.objs id).remoteUrl ∧ u2 = (m.objs id).localUrl

theorem Asks.of {m n : Mgr} (h : Asks m) (s : Same m n) {l : List Out} (hl : n.out = m.out ++ l)
    (hp : ∀ id u1 u2 cl t, Out.connect id u1 u2 cl t ∈ l →
      (m.objs id).server = false ∧ u1 = (m.objs id).remoteUrl ∧ u2 = (m.objs id).localUrl) : Asks n := by
  intro id u1 u2 cl t hm
  obtain ⟨e1, e2, e3, _⟩ := fixed_eq (s id)
  rw [e1, e2, e3]
  rw [hl] at hm
  rcases List.mem_append.mp hm with hm | hm
  · exact h id u1 u2 cl t hm
  · exact hp id u1 u2 cl t hm

/-- No request, or the request of a client. -/
def AskOut (m : Mgr) (l : List Out) : Prop := ∀ id u1 u2 cl t, Out.connect id u1 u2 cl t ∈ l →
  (m.objs id).server = false ∧ u1 = (m.objs id).remoteUrl ∧ u2 = (m.objs id).localUrl

theorem act_ask_out (devs addrs : Nat → Bool) (m : Mgr) (id : Nat) :
    ∃ l, (act devs addrs m id).out = m.out ++ l ∧ AskOut m l := by
  unfold act
  dsimp only
  split
  · split
    · exact ⟨[.progress id .failed], rfl, by simp [AskOut]⟩
    · exact ⟨[.progress id .doingInit, .handle id], by simp [Mgr.setProgress], by simp [AskOut]⟩
  · exact ⟨[.progress id .failed], rfl, by simp [AskOut]⟩
  · split
    · exact ⟨[], by simp, by simp [AskOut]⟩
    next hs =>
      split
      · exact ⟨[.progress id .failed], rfl, by simp [AskOut]⟩
      · refine ⟨[.progress id .waitReply,
          .connect id (m.objs id).remoteUrl (m.objs id).localUrl (m.objs id).clientId (m.objs id).timeout],
          by simp [Mgr.setProgress], ?_⟩
        intro k u1 u2 cl t hm
        simp only [List.mem_cons, reduceCtorEq, Out.connect.injEq, false_or, List.not_mem_nil, or_false] at hm
        obtain ⟨rfl, rfl, rfl, _, _⟩ := hm
        exact ⟨by simpa using hs, rfl, rfl⟩
  · exact ⟨[], by simp, by simp [AskOut]⟩

theorem act_asks (devs addrs : Nat → Bool) {m : Mgr} (h : Asks m) (id : Nat) : Asks (act devs addrs m id) := by
  obtain ⟨l, h1, h2⟩ := act_ask_out devs addrs m id
  exact h.of (Same.act devs addrs m id) h1 h2

theorem turn_asks (devs addrs : Nat → Bool) (d : Int) {m : Mgr} (h : Asks m) (id : Nat) :
    Asks (turn devs addrs d m id) := by
  unfold turn
  dsimp only
  have h1 : Asks (m.upd id fun _ => ((m.objs id).check d).1) :=
    h.of (Same.upd _ _ (fixed_check _ _)) (l := []) (by simp) (by simp)
  split
  · exact h1
  · exact act_asks _ _ h1 _

theorem turns_asks (devs addrs : Nat → Bool) (d : Int) : ∀ (ids : List Nat) {m : Mgr}, Asks m →
    Asks (ids.foldl (turn devs addrs d) m)
  | [], _, h => h
  | id :: ids, _, h => turns_asks devs addrs d ids (turn_asks devs addrs d h id)

theorem mem_answers {o : Out} {c : Option Nat} {r : Res} (h : o ∈ answers c r) : ∃ k, o = .answer k r := by
  cases c <;> simp [answers] at h
  exact ⟨_, h⟩

theorem mem_outAnswer {o : Out} {c : Option Nat} {v : Option Res} (h : o ∈ outAnswer c v) : ∃ k r, o = .answer k r := by
  cases v with
  | none => simp [outAnswer] at h
  | some r =>
    obtain ⟨k, e⟩ := mem_answers h
    exact ⟨k, r, e⟩

theorem checkRecs_asks {m : Mgr} (hn : m.recs.Nodup) (h : Asks m) (f : Bool) : Asks (checkRecs m f) := by
  obtain ⟨v, l, C⟩ := checkRecs_spec hn f
  refine h.of (Same.checkRecs m f) (l := l ++ outAnswer m.cmd v) (by rw [C.out, List.append_assoc]) ?_
  intro id u1 u2 cl t hm
  rcases List.mem_append.mp hm with hm | hm
  · rcases C.kinds _ hm with ⟨k, e⟩ | ⟨c, e⟩ | ⟨k, _, _, e⟩ <;> cases e
  · obtain ⟨k, r, e⟩ := mem_outAnswer hm
    cases e

/-- Output of the operations which do not check the records: no request, no change of state. -/
theorem plain_out (m : Mgr) (op : Op) (h1 : ∀ devs addrs d t, op ≠ .timeout devs addrs d t)
    (h2 : ∀ id, op = .handleReply id true → (m.objs id).progress ≠ .doingConnect) :
    ∃ l, (step m op).out = m.out ++ l ∧ ∀ o ∈ l, plain o = true := by
  cases op with
  | timeout devs addrs d t => exact absurd rfl (h1 devs addrs d t)
  | event id v t =>
    show ∃ l, (paramEvent m id v t).out = _ ∧ _
    unfold paramEvent
    split
    · exact ⟨[], by simp, by simp⟩
    · split
      · exact ⟨[], by simp, by simp⟩
      · split
        · exact ⟨[], by simp, by simp⟩
        · have N := number_facts (m.reset id) id
          refine ⟨[.progress id .init] ++ answers (m.objs id).remote .no, ?_, ?_⟩
          · show ((m.reset id).number id).out = _
            rw [N.2.1, reset_out, List.append_assoc]
          · intro o hm
            rcases List.mem_append.mp hm with hm | hm
            · simp at hm; subst hm; rfl
            · exact plain_answers _ _ o hm
  | globalConnect devs c u1 u2 cl =>
    show ∃ l, (globalConnect devs m c u1 u2 cl).out = _ ∧ _
    unfold globalConnect
    split
    · exact ⟨_, rfl, by simp [plain]⟩
    next id hf =>
      split
      · exact ⟨_, rfl, by simp [plain]⟩
      · exact ⟨_, rfl, by simp [plain]⟩
      · split
        · unfold fillAnswer fill
          dsimp only
          split
          · exact ⟨[.filled c _, .progress id .doingConnect, .handle id], by simp [Mgr.setProgress]; rfl,
              by simp [plain]⟩
          · exact ⟨[.progress id .doingConnect, .handle id], by simp [Mgr.setProgress], by simp [plain]⟩
        · exact ⟨_, rfl, by simp [plain]⟩
      · exact ⟨_, rfl, by simp [plain]⟩
  | activate c => exact ⟨answers m.cmd .no, rfl, plain_answers _ _⟩
  | shutdown c => exact ⟨answers m.cmd .no, rfl, plain_answers _ _⟩
  | connectReply devs u1 u2 r i =>
    show ∃ l, (connectReply devs m u1 u2 r i).out = _ ∧ _
    unfold connectReply
    split
    · exact ⟨[], by simp, by simp⟩
    next id hf =>
      split
      · split
        · exact ⟨[.progress id .pending], by simp [Mgr.setProgress], by simp [plain]⟩
        · dsimp only
          split
          · exact ⟨[], by simp, by simp⟩
          · exact ⟨[.progress id .doingConnect, .handle id], by simp [Mgr.setProgress], by simp [plain]⟩
      · exact ⟨[], by simp, by simp⟩
  | handleReply id ok =>
    show ∃ l, (handleReply m id ok).out = _ ∧ _
    unfold handleReply
    split
    · refine ⟨[.progress id .failed] ++ answers (m.objs id).remote .no,
        by simp [Mgr.setProgress, Mgr.replyRemote], ?_⟩
      intro o hm
      rcases List.mem_append.mp hm with hm | hm
      · simp at hm; subst hm; rfl
      · exact plain_answers _ _ o hm
    next hok =>
      split
      · exact ⟨[.progress id .pending], by simp [Mgr.setProgress], by simp [plain]⟩
      next hp =>
        have : ok = true := by simpa using hok
        subst this
        exact absurd hp (h2 id rfl)
      · exact ⟨[], by simp, by simp⟩
  | answerRemote id ok => exact ⟨answers (m.objs id).remote _, rfl, plain_answers _ _⟩
  | setIds id s c => exact ⟨[], by simp [step], by simp⟩
  | setState id s => exact ⟨[], by simp [step], by simp⟩

/-- The operations which check the records. -/
theorem op_cases (m : Mgr) (op : Op) : (∃ devs addrs d t, op = .timeout devs addrs d t) ∨
    (∃ id, op = .handleReply id true ∧ (m.objs id).progress = .doingConnect) ∨
    ((∀ devs addrs d t, op ≠ .timeout devs addrs d t) ∧
      ∀ id, op = .handleReply id true → (m.objs id).progress ≠ .doingConnect) := by
  cases op with
  | timeout devs addrs d t => exact Or.inl ⟨_, _, _, _, rfl⟩
  | handleReply id ok =>
    by_cases h : ok = true ∧ (m.objs id).progress = .doingConnect
    · exact Or.inr (Or.inl ⟨id, by rw [h.1], h.2⟩)
    · refine Or.inr (Or.inr ⟨by simp, ?_⟩)
      intro k hk hp
      cases hk
      exact h ⟨rfl, hp⟩
  | event => exact Or.inr (Or.inr ⟨by simp, by simp⟩)
  | globalConnect => exact Or.inr (Or.inr ⟨by simp, by simp⟩)
  | activate => exact Or.inr (Or.inr ⟨by simp, by simp⟩)
  | shutdown => exact Or.inr (Or.inr ⟨by simp, by simp⟩)
  | connectReply => exact Or.inr (Or.inr ⟨by simp, by simp⟩)
  | answerRemote => exact Or.inr (Or.inr ⟨by simp, by simp⟩)
  | setIds => exact Or.inr (Or.inr ⟨by simp, by simp⟩)
  | setState => exact Or.inr (Or.inr ⟨by simp, by simp⟩)

theorem handleReply_done {m : Mgr} {id : Nat} (hp : (m.objs id).progress = .doingConnect) :
    handleReply m id true = checkRecs (m.setProgress id .connected) false := by
  unfold handleReply
  rw [if_neg (by decide), hp]

theorem timeout_doing (devs addrs : Nat → Bool) (d t : Int) {m : Mgr} (h : m.doing ≠ 0) :
    timeout devs addrs d t m = checkRecs (m.recs.foldl (turn devs addrs d) m) (m.left t = 0) := by
  unfold timeout
  rw [if_neg h]

theorem timeout_idle (devs addrs : Nat → Bool) (d t : Int) {m : Mgr} (h : m.doing = 0) :
    timeout devs addrs d t m = m := by
  unfold timeout
  rw [if_pos h]

theorem step_asks {m : Mgr} (I : Inv m) (h : Asks m) (op : Op) : Asks (step m op) := by
  rcases op_cases m op with ⟨devs, addrs, d, t, rfl⟩ | ⟨id, rfl, hp⟩ | ⟨h1, h2⟩
  · show Asks (timeout devs addrs d t m)
    by_cases hd : m.doing = 0
    · rw [timeout_idle devs addrs d t hd]; exact h
    · rw [timeout_doing devs addrs d t hd]
      exact checkRecs_asks (Inv.turns devs addrs d m.recs I (fun _ h => h)).1.nodup (turns_asks devs addrs d _ h) _
  · show Asks (handleReply m id true)
    rw [handleReply_done hp]
    have h1 : Asks (m.setProgress id .connected) :=
      h.of (Same.setProgress m id _) (l := [.progress id .connected]) rfl (by simp)
    exact checkRecs_asks (m := m.setProgress id .connected) I.nodup h1 _
  · obtain ⟨l, e, hl⟩ := plain_out m op h1 h2
    refine h.of (Same.step m op) e ?_
    intro id u1 u2 cl t hm
    have := hl _ hm
    simp [plain] at this

theorem run_asks : ∀ (ops : List Op) {m : Mgr}, Inv m → Asks m → Asks (run m ops)
  | [], _, _, h => h
  | op :: ops, _, I, h => run_asks ops (I.step op) (step_asks I h op)

/-! ### The activating command -/

theorem plain_keeps (m : Mgr) (op : Op) (h1 : ∀ devs addrs d t, op ≠ .timeout devs addrs d t)
    (h2 : ∀ id, op = .handleReply id true → (m.objs id).progress ≠ .doingConnect) :
    (∀ k ∈ m.recs, k ∈ (step m op).recs) ∧ (m.cmd ≠ none → (step m op).cmd ≠ none) := by
  cases op with
  | timeout devs addrs d t => exact absurd rfl (h1 devs addrs d t)
  | event id v t =>
    show (∀ k ∈ m.recs, k ∈ (paramEvent m id v t).recs) ∧ (m.cmd ≠ none → (paramEvent m id v t).cmd ≠ none)
    unfold paramEvent
    split
    · exact ⟨fun _ h => h, fun h => h⟩
    · split
      · exact ⟨fun _ h => h, fun h => h⟩
      · split
        · exact ⟨fun _ h => h, fun h => h⟩
        · have N := number_facts (m.reset id) id
          refine ⟨fun k hk => ?_, fun hc => ?_⟩
          · show k ∈ ((m.reset id).number id).recs ++ [id]
            rw [N.1, (Local.reset m id).recs]
            exact List.mem_append_left _ hk
          · show ((m.reset id).number id).cmd ≠ none
            rw [N.2.2.1, (Local.reset m id).cmd]
            exact hc
  | globalConnect devs c u1 u2 cl =>
    show (∀ k ∈ m.recs, k ∈ (globalConnect devs m c u1 u2 cl).recs) ∧
      (m.cmd ≠ none → (globalConnect devs m c u1 u2 cl).cmd ≠ none)
    unfold globalConnect
    split
    · exact ⟨fun _ h => h, fun h => h⟩
    next id hf =>
      split
      · exact ⟨fun _ h => h, fun h => h⟩
      · exact ⟨fun _ h => h, fun h => h⟩
      · split
        · have L := Local.fillAnswer m c id cl
          rw [L.recs, L.cmd]
          exact ⟨fun _ h => h, fun h => h⟩
        · exact ⟨fun _ h => h, fun h => h⟩
      · exact ⟨fun _ h => h, fun h => h⟩
  | activate c => exact ⟨fun _ h => h, fun _ => by simp [step, activate]⟩
  | shutdown c => exact ⟨fun _ h => h, fun _ => by simp [step, activate]⟩
  | connectReply devs u1 u2 r i =>
    show (∀ k ∈ m.recs, k ∈ (connectReply devs m u1 u2 r i).recs) ∧
      (m.cmd ≠ none → (connectReply devs m u1 u2 r i).cmd ≠ none)
    unfold connectReply
    split
    · exact ⟨fun _ h => h, fun h => h⟩
    · split
      · split
        · exact ⟨fun _ h => h, fun h => h⟩
        · dsimp only
          split <;> exact ⟨fun _ h => h, fun h => h⟩
      · exact ⟨fun _ h => h, fun h => h⟩
  | handleReply id ok =>
    show (∀ k ∈ m.recs, k ∈ (handleReply m id ok).recs) ∧ (m.cmd ≠ none → (handleReply m id ok).cmd ≠ none)
    unfold handleReply
    split
    · exact ⟨fun _ h => h, fun h => h⟩
    next hok =>
      split
      · exact ⟨fun _ h => h, fun h => h⟩
      next hp =>
        have : ok = true := by simpa using hok
        subst this
        exact absurd hp (h2 id rfl)
      · exact ⟨fun _ h => h, fun h => h⟩
  | answerRemote id ok => exact ⟨fun _ h => h, fun h => h⟩
  | setIds id s c => exact ⟨fun _ h => h, fun h => h⟩
  | setState id s => exact ⟨fun _ h => h, fun h => h⟩

/-- The command is still there, or it was answered with success. -/
def Good (n : Mgr) (c : Nat) (l : List Out) : Prop := n.cmd = some c ∨ (n.cmd = none ∧ Out.answer c .ok ∈ l)

/-- What holds for the required records as long as the command is not refused. -/
structure Required (m n : Mgr) (c : Nat) (l : List Out) : Prop where
  state : Good n c l → ∀ id, (m.objs id).opt = false → Out.state id .failed ∉ l
  stays : Good n c l → ∀ id, (m.objs id).opt = false → id ∈ m.recs → id ∈ n.recs ∨ Out.progress id .connected ∈ l
  done : n.cmd = none → Out.answer c .ok ∈ l → ∀ id ∈ n.recs, (m.objs id).opt = true

theorem answer_mem_answered {c : Nat} {r : Res} {l : List Out} (h : Out.answer c r ∈ l) : answered c l ≠ 0 := by
  unfold answered
  intro e
  have := List.countP_eq_zero.mp e _ h
  simp at this

theorem check_required {m m1 : Mgr} {c : Nat} {l0 : List Out} (hc : m.cmd = some c) (hrecs : m1.recs = m.recs)
    (hcmd : m1.cmd = m.cmd) (hs : Same m m1) (ho : m1.out = m.out ++ l0) (ha : answered c l0 = 0)
    (hst : ∀ id s, Out.state id s ∉ l0) (hn : m1.recs.Nodup)
    (hcon : ∀ k, (m1.objs k).progress = .connected → Out.progress k .connected ∈ l0) (f : Bool) :
    ∃ l, (checkRecs m1 f).out = m.out ++ l ∧ Required m (checkRecs m1 f) c l := by
  obtain ⟨v, l1, C⟩ := checkRecs_spec hn f
  have key : Good (checkRecs m1 f) c (l0 ++ (l1 ++ outAnswer m1.cmd v)) →
      ¬ ∃ id ∈ m1.recs, (m1.objs id).progress = .failed ∧ (m1.objs id).opt = false := by
    intro hg hf
    have hv := C.verdict
    have hno : v = some .no := by
      cases hv with
      | no _ => rfl
      | all h _ => exact absurd hf h
      | optional h _ _ _ => exact absurd hf h
      | late h _ _ => exact absurd hf h
      | wait h _ _ => exact absurd hf h
    subst hno
    rcases hg with hg | ⟨_, hg⟩
    · rw [C.cmd] at hg; simp at hg
    · rcases List.mem_append.mp hg with hg | hg
      · exact answer_mem_answered hg ha
      · rcases List.mem_append.mp hg with hg | hg
        · rcases C.kinds _ hg with ⟨k, e⟩ | ⟨k, e⟩ | ⟨k, _, _, e⟩ <;> cases e
        · rw [hcmd, hc] at hg
          simp [outAnswer, answers] at hg
  have hopt : ∀ k, (m1.objs k).opt = (m.objs k).opt := fun k => (fixed_eq (hs k)).2.2.2
  refine ⟨l0 ++ (l1 ++ outAnswer m1.cmd v), by rw [C.out, ho]; simp, ⟨?_, ?_, ?_⟩⟩
  · intro hg id hid hm
    rcases List.mem_append.mp hm with hm | hm
    · exact hst _ _ hm
    · rcases List.mem_append.mp hm with hm | hm
      · rcases C.kinds _ hm with ⟨k, e⟩ | ⟨k, e⟩ | ⟨k, hk, hov, e⟩
        · cases e
        · cases e
        · obtain ⟨rfl, e2⟩ := Out.state.inj e
          refine key hg ⟨id, hk, ?_, by rw [hopt]; exact hid⟩
          rcases hov with h | h
          · exact h
          · rw [h] at e2; cases e2
      · obtain ⟨k, r, e⟩ := mem_outAnswer hm
        cases e
  · intro hg id hid hm
    by_cases hov : over (m1.objs id).progress
    · rcases hov with h | h
      · exact absurd ⟨id, hrecs ▸ hm, h, by rw [hopt]; exact hid⟩ (key hg)
      · exact Or.inr (List.mem_append_left _ (hcon id h))
    · left
      rw [C.recs, mem_remaining]
      exact ⟨by rw [hrecs]; exact hm, hov⟩
  · intro hnone hok id hid
    have hv := C.verdict
    rw [C.recs] at hid
    rw [← hopt]
    cases hv with
    | no h => exact absurd h (key (Or.inr ⟨hnone, hok⟩))
    | all _ h => rw [h] at hid; simp at hid
    | optional _ _ _ h => exact h id hid
    | late _ _ h =>
      exfalso
      rcases List.mem_append.mp hok with hg | hg
      · exact answer_mem_answered hg ha
      · rcases List.mem_append.mp hg with hg | hg
        · rcases C.kinds _ hg with ⟨k, e⟩ | ⟨k, e⟩ | ⟨k, _, _, e⟩ <;> cases e
        · rw [hcmd, hc] at hg
          simp [outAnswer, answers] at hg
    | wait _ _ _ =>
      rw [C.cmd, if_pos rfl, hcmd, hc] at hnone
      cases hnone

theorem turn_out (devs addrs : Nat → Bool) (d : Int) (m : Mgr) (id : Nat) :
    ∃ l, (turn devs addrs d m id).out = m.out ++ l ∧ (∀ c, answered c l = 0) ∧ (∀ k s, Out.state k s ∉ l) ∧
      given l = [] ∧ ∀ k, Out.progress k .connected ∉ l := by
  have hact : ∀ m : Mgr, ∃ l, (act devs addrs m id).out = m.out ++ l ∧ (∀ c, answered c l = 0) ∧
      (∀ k s, Out.state k s ∉ l) ∧ given l = [] ∧ ∀ k, Out.progress k .connected ∉ l := by
    intro m
    unfold act
    dsimp only
    split
    · split
      · exact ⟨[.progress id .failed], rfl, fun _ => rfl, by simp, rfl, by simp⟩
      · exact ⟨[.progress id .doingInit, .handle id], by simp [Mgr.setProgress], fun _ => rfl, by simp, rfl, by simp⟩
    · exact ⟨[.progress id .failed], rfl, fun _ => rfl, by simp, rfl, by simp⟩
    · split
      · exact ⟨[], by simp, fun _ => rfl, by simp, rfl, by simp⟩
      · split
        · exact ⟨[.progress id .failed], rfl, fun _ => rfl, by simp, rfl, by simp⟩
        · exact ⟨[.progress id .waitReply, .connect id (m.objs id).remoteUrl (m.objs id).localUrl (m.objs id).clientId
            (m.objs id).timeout], by simp [Mgr.setProgress], fun _ => rfl, by simp, rfl, by simp⟩
    · exact ⟨[], by simp, fun _ => rfl, by simp, rfl, by simp⟩
  unfold turn
  dsimp only
  split
  · exact ⟨[], by simp, fun _ => rfl, by simp, rfl, by simp⟩
  · exact hact _

theorem given_append (a b : List Out) : given (a ++ b) = given a ++ given b := by
  simp [given, List.filterMap_append]

theorem turns_out (devs addrs : Nat → Bool) (d : Int) : ∀ (ids : List Nat) (m : Mgr),
    ∃ l, (ids.foldl (turn devs addrs d) m).out = m.out ++ l ∧ (∀ c, answered c l = 0) ∧ (∀ k s, Out.state k s ∉ l) ∧
      given l = [] ∧ ∀ k, Out.progress k .connected ∉ l
  | [], m => ⟨[], by simp, fun _ => rfl, by simp, rfl, by simp⟩
  | id :: ids, m => by
    obtain ⟨l1, a1, b1, c1, d1, e1⟩ := turn_out devs addrs d m id
    obtain ⟨l2, a2, b2, c2, d2, e2⟩ := turns_out devs addrs d ids (turn devs addrs d m id)
    refine ⟨l1 ++ l2, ?_, ?_, ?_, ?_, ?_⟩
    · rw [List.foldl_cons, a2, a1, List.append_assoc]
    · intro c; rw [answered_append, b1, b2]
    · intro k s hm
      rcases List.mem_append.mp hm with h | h
      · exact c1 k s h
      · exact c2 k s h
    · rw [given_append, d1, d2]; rfl
    · intro k hm
      rcases List.mem_append.mp hm with h | h
      · exact e1 k h
      · exact e2 k h

theorem turns_cmd (devs addrs : Nat → Bool) (d : Int) : ∀ (ids : List Nat) (m : Mgr),
    (ids.foldl (turn devs addrs d) m).cmd = m.cmd
  | [], _ => rfl
  | id :: ids, m => (turns_cmd devs addrs d ids _).trans (Local.turn devs addrs d m id).cmd

theorem required_step {m : Mgr} (I : Inv m) {c : Nat} (hc : m.cmd = some c) (op : Op) :
    ∃ l, (step m op).out = m.out ++ l ∧ Required m (step m op) c l := by
  rcases op_cases m op with ⟨devs, addrs, d, t, rfl⟩ | ⟨id, rfl, hp⟩ | ⟨h1, h2⟩
  · show ∃ l, (timeout devs addrs d t m).out = _ ∧ Required m (timeout devs addrs d t m) c l
    by_cases hd : m.doing = 0
    · rw [timeout_idle devs addrs d t hd]
      refine ⟨[], by simp, ⟨by simp, fun _ _ _ h => Or.inl h, by simp⟩⟩
    · rw [timeout_doing devs addrs d t hd]
      have T := Inv.turns devs addrs d m.recs I (fun _ h => h)
      obtain ⟨l0, a0, b0, c0, _⟩ := turns_out devs addrs d m.recs m
      exact check_required hc T.2 (turns_cmd devs addrs d m.recs m) (Same.turns devs addrs d m.recs m) a0 (b0 c) c0
        T.1.nodup (fun k hk => absurd hk (T.1.connected k)) _
  · show ∃ l, (handleReply m id true).out = _ ∧ Required m (handleReply m id true) c l
    rw [handleReply_done hp]
    refine check_required (m1 := m.setProgress id .connected) hc rfl rfl (Same.setProgress m id _) (l0 := [.progress id .connected]) rfl rfl (by simp)
      I.nodup ?_ _
    intro k hk
    by_cases hkid : k = id
    · subst hkid; simp
    · rw [(Local.setProgress m id .connected).other k hkid] at hk
      exact absurd hk (I.connected k)
  · obtain ⟨l, e, hl⟩ := plain_out m op h1 h2
    obtain ⟨k1, k2⟩ := plain_keeps m op h1 h2
    refine ⟨l, e, ⟨?_, fun _ id _ h => Or.inl (k1 id h), ?_⟩⟩
    · intro _ id _ hm
      have := hl _ hm
      simp [plain] at this
    · intro hn
      exact absurd hn (k2 (by rw [hc]; simp))

/-- A run in which the command stays. -/
def Kept (c : Nat) : Mgr → List Op → Prop
  | m, [] => m.cmd = some c
  | m, op :: ops => m.cmd = some c ∧ Kept c (step m op) ops

theorem kept_required {c : Nat} : ∀ (ops : List Op) {m : Mgr}, Inv m → Kept c m ops →
    ∃ l, (run m ops).out = m.out ++ l ∧ (run m ops).cmd = some c ∧
      ∀ id, (m.objs id).opt = false → Out.state id .failed ∉ l ∧
        (id ∈ m.recs → id ∈ (run m ops).recs ∨ Out.progress id .connected ∈ l)
  | [], m, _, hk => ⟨[], by simp [run], hk, fun id _ => ⟨by simp, fun h => Or.inl h⟩⟩
  | op :: ops, m, I, hk => by
    obtain ⟨hc, hk⟩ := hk
    obtain ⟨l1, e1, R⟩ := required_step I hc op
    obtain ⟨l2, e2, hc2, h2⟩ := kept_required ops (I.step op) hk
    have hc1 : (step m op).cmd = some c := by
      cases ops with
      | nil => exact hk
      | cons o os => exact hk.1
    refine ⟨l1 ++ l2, ?_, hc2, ?_⟩
    · show (run (step m op) ops).out = _
      rw [e2, e1, List.append_assoc]
    · intro id hid
      have hid1 : ((step m op).objs id).opt = false := by
        rw [(fixed_eq (Same.step m op id)).2.2.2]; exact hid
      obtain ⟨a, b⟩ := h2 id hid1
      refine ⟨?_, ?_⟩
      · intro hm
        rcases List.mem_append.mp hm with h | h
        · exact R.state (Or.inl hc1) id hid h
        · exact a h
      · intro hm
        rcases R.stays (Or.inl hc1) id hid hm with h | h
        · rcases b h with h | h
          · exact Or.inl h
          · exact Or.inr (List.mem_append_right _ h)
        · exact Or.inr (List.mem_append_left _ h)

/-! ### Identifiers given to clients -/

/-- Progress before the connection is started. -/
def early (p : Progress) : Prop := p = .init ∨ p = .doingInit ∨ p = .pending ∨ p = .waitReply

structure Ids (m : Mgr) : Prop where
  old : ∀ x ∈ given m.out, ∃ k, k < m.counter ∧ x = some (m.addr, k)
  nodup : (given m.out).Nodup
  num : ∀ id ∈ m.recs, (m.objs id).server = true → ∃ k, k < m.counter ∧ (m.objs id).connId = some (m.addr, k)
  diff : ∀ a ∈ m.recs, ∀ b ∈ m.recs, (m.objs a).server = true → (m.objs b).server = true → a ≠ b →
    (m.objs a).connId ≠ (m.objs b).connId
  unused : ∀ id ∈ m.recs, (m.objs id).server = true → early (m.objs id).progress →
    (m.objs id).connId ∉ given m.out

theorem Ids.of {m n : Mgr} (h : Ids m) (hr : ∀ k ∈ n.recs, k ∈ m.recs) (hc : n.counter = m.counter)
    (ha : n.addr = m.addr) (hs : Same m n) (ho : given n.out = given m.out)
    (hi : ∀ k ∈ n.recs, (m.objs k).server = true → (n.objs k).connId = (m.objs k).connId)
    (hp : ∀ k ∈ n.recs, (m.objs k).server = true → early (n.objs k).progress → early (m.objs k).progress) : Ids n := by
  have hsrv : ∀ k, (n.objs k).server = (m.objs k).server := fun k => (fixed_eq (hs k)).2.2.1
  refine ⟨by rw [ho, hc, ha]; exact h.old, by rw [ho]; exact h.nodup, ?_, ?_, ?_⟩
  · intro id hid hserv
    rw [hsrv] at hserv
    rw [hc, ha, hi id hid hserv]
    exact h.num id (hr id hid) hserv
  · intro a hha b hhb hsa hsb hab
    rw [hsrv] at hsa hsb
    rw [hi a hha hsa, hi b hhb hsb]
    exact h.diff a (hr a hha) b (hr b hhb) hsa hsb hab
  · intro id hid hserv he
    rw [hsrv] at hserv
    rw [ho, hi id hid hserv]
    exact h.unused id (hr id hid) hserv (hp id hid hserv he)

/-- Change of one record. -/
theorem Ids.local {m n : Mgr} {id : Nat} (h : Ids m) (L : Local m n id) (hs : Same m n)
    (ho : given n.out = given m.out) (hi : (m.objs id).server = true → (n.objs id).connId = (m.objs id).connId)
    (hp : early (n.objs id).progress → early (m.objs id).progress) : Ids n := by
  refine h.of (by rw [L.recs]; exact fun _ h => h) L.counter L.addr hs ho ?_ ?_
  · intro k _ hsrv
    by_cases hk : k = id
    · subst hk; exact hi hsrv
    · rw [L.other k hk]
  · intro k _ _
    by_cases hk : k = id
    · subst hk; exact hp
    · rw [L.other k hk]; exact fun h => h

theorem act_ids (devs addrs : Nat → Bool) (m : Mgr) (id : Nat) :
    ((act devs addrs m id).objs id).connId = (m.objs id).connId ∧
    (early ((act devs addrs m id).objs id).progress → early (m.objs id).progress) := by
  unfold act
  dsimp only
  split
  next hp => split <;> simp [Mgr.setProgress, early, hp]
  next hp => simp [Mgr.setProgress, early]
  next hp =>
    split
    · simp
    · split <;> simp [Mgr.setProgress, early, hp]
  · exact ⟨rfl, fun h => h⟩

theorem turn_ids (devs addrs : Nat → Bool) (d : Int) {m : Mgr} (h : Ids m) (id : Nat) :
    Ids (turn devs addrs d m id) := by
  obtain ⟨l, a, _, _, g, _⟩ := turn_out devs addrs d m id
  refine h.local (Local.turn devs addrs d m id) (Same.turn devs addrs d m id) (by rw [a, given_append, g, List.append_nil])
    ?_ ?_
  · intro _
    unfold turn
    dsimp only
    split
    · simp
    · rw [(act_ids _ _ _ _).1]; simp
  · unfold turn
    dsimp only
    split
    · simp
    · intro he
      have := (act_ids _ _ _ _).2 he
      simpa using this

theorem turns_ids (devs addrs : Nat → Bool) (d : Int) : ∀ (ids : List Nat) {m : Mgr}, Ids m →
    Ids (ids.foldl (turn devs addrs d) m)
  | [], _, h => h
  | id :: ids, _, h => turns_ids devs addrs d ids (turn_ids devs addrs d h id)

theorem given_answers (c : Option Nat) (r : Res) : given (answers c r) = [] := by
  cases c <;> rfl

theorem given_outAnswer (c : Option Nat) (v : Option Res) : given (outAnswer c v) = [] := by
  cases v with
  | none => rfl
  | some r => exact given_answers c r

theorem given_nil_of {l : List Out} (h : ∀ o ∈ l, ∀ c i, o ≠ .filled c i) : given l = [] := by
  unfold given
  rw [List.filterMap_eq_nil_iff]
  intro o ho
  cases o with
  | filled c i => exact absurd rfl (h _ ho c i)
  | _ => rfl

theorem checkRecs_objs {m : Mgr} (hn : m.recs.Nodup) (f : Bool) {k : Nat} (hk : k ∈ (checkRecs m f).recs) :
    (checkRecs m f).objs k = m.objs k ∧ k ∈ m.recs := by
  obtain ⟨v, l, C⟩ := checkRecs_spec hn f
  rw [C.recs, mem_remaining] at hk
  refine ⟨?_, hk.1⟩
  have L := checkLoop_loop m.recs m false true hn
  unfold checkRecs
  dsimp only
  rw [(conclude_facts _ _ _ _).2.2.2.1]
  exact L.same k (Or.inr hk.2)

theorem checkRecs_addr {m : Mgr} (hn : m.recs.Nodup) (f : Bool) :
    (checkRecs m f).addr = m.addr ∧ (checkRecs m f).counter = m.counter := by
  have L := checkLoop_loop m.recs m false true hn
  rw [← L.addr, ← L.counter]
  unfold checkRecs conclude
  dsimp only
  split
  · exact ⟨rfl, rfl⟩
  · split
    · exact ⟨rfl, rfl⟩
    · split <;> exact ⟨rfl, rfl⟩

theorem checkRecs_ids {m : Mgr} (hn : m.recs.Nodup) (h : Ids m) (f : Bool) : Ids (checkRecs m f) := by
  obtain ⟨v, l, C⟩ := checkRecs_spec hn f
  have A := checkRecs_addr hn f
  refine h.of (fun k hk => (checkRecs_objs hn f hk).2) A.2 A.1 (Same.checkRecs m f) ?_ ?_ ?_
  · rw [C.out, given_append, given_append, given_outAnswer, given_nil_of (l := l), List.append_nil, List.append_nil]
    intro o ho c i
    rcases C.kinds o ho with ⟨k, e⟩ | ⟨k, e⟩ | ⟨k, _, _, e⟩ <;> rw [e] <;> simp
  · intro k hk _
    rw [(checkRecs_objs hn f hk).1]
  · intro k hk _
    rw [(checkRecs_objs hn f hk).1]
    exact fun h => h

theorem fillAnswer_ids {m : Mgr} (h : Ids m) {id : Nat} (hid : id ∈ m.recs) (hp : (m.objs id).progress = .pending)
    (c cl : Nat) : Ids (fillAnswer m c id cl) := by
  have L := Local.fillAnswer m c id cl
  have S := Same.fillAnswer m c id cl
  obtain ⟨l, h1, _, h3, h4⟩ := fillAnswer_out m c id cl
  have hci : ((fillAnswer m c id cl).objs id).connId = (m.objs id).connId := by
    simp only [fillAnswer, fill, Mgr.setProgress, emit_objs, upd_self, delay_connId]
    split <;> simp
  have hpr : ((fillAnswer m c id cl).objs id).progress = .doingConnect := by
    simp [fillAnswer, Mgr.setProgress]
  cases hs : (m.objs id).server with
  | false =>
    refine h.local L S (by rw [h1, given_append, h4 hs, List.append_nil]) (fun _ => hci) ?_
    rw [hpr]; simp [early]
  | true =>
    have hg : given (fillAnswer m c id cl).out = given m.out ++ [(m.objs id).connId] := by
      rw [h1, given_append, h3 hs]
    have hnew := h.unused id hid hs (by rw [hp]; simp [early])
    have hsrv : ∀ k, ((fillAnswer m c id cl).objs k).server = (m.objs k).server := fun k => (fixed_eq (S k)).2.2.1
    have hcon : ∀ k, ((fillAnswer m c id cl).objs k).connId = (m.objs k).connId := by
      intro k
      by_cases hk : k = id
      · subst hk; exact hci
      · rw [L.other k hk]
    refine ⟨?_, ?_, ?_, ?_, ?_⟩
    · intro x hx
      rw [hg] at hx
      rw [L.counter, L.addr]
      rcases List.mem_append.mp hx with hx | hx
      · exact h.old x hx
      · rw [List.mem_singleton.mp hx]; exact h.num id hid hs
    · rw [hg, List.nodup_append]
      refine ⟨h.nodup, by simp, ?_⟩
      intro a ha b hb e
      rw [List.mem_singleton.mp hb] at e
      exact hnew (e ▸ ha)
    · intro k hk hks
      rw [hsrv] at hks
      rw [L.recs] at hk
      rw [hcon, L.counter, L.addr]
      exact h.num k hk hks
    · intro a ha b hb hsa hsb hab
      rw [hsrv] at hsa hsb
      rw [L.recs] at ha hb
      rw [hcon, hcon]
      exact h.diff a ha b hb hsa hsb hab
    · intro k hk hks he
      rw [hsrv] at hks
      rw [L.recs] at hk
      rw [hcon, hg]
      have hkid : k ≠ id := by
        rintro rfl
        rw [hpr] at he
        simp [early] at he
      rw [L.other k hkid] at he
      intro hx
      rcases List.mem_append.mp hx with hx | hx
      · exact h.unused k hk hks he hx
      · exact h.diff k hk id hid hks hs hkid (List.mem_singleton.mp hx)

theorem number_server {m : Mgr} {id : Nat} (h : (m.objs id).server = true) :
    (m.number id).counter = m.counter + 1 ∧ ((m.number id).objs id).connId = some (m.addr, m.counter) := by
  unfold Mgr.number
  rw [if_pos h]
  refine ⟨rfl, ?_⟩
  rw [upd_self]

theorem number_client {m : Mgr} {id : Nat} (h : (m.objs id).server = false) : m.number id = m := by
  unfold Mgr.number
  rw [if_neg (by rw [h]; decide)]

theorem register_ids {m : Mgr} (h : Ids m) {id : Nat} (hid : id ∉ m.recs) (b : Bool) : Ids (register m id b) := by
  have L := Local.reset m id
  have S := Same.register m id b
  have N := number_facts (m.reset id) id
  have hg : given (register m id b).out = given m.out := by
    show given ((m.reset id).number id).out = _
    rw [N.2.1, reset_out, given_append, given_append, given_answers]
    simp [given]
  have hrecs : (register m id b).recs = m.recs ++ [id] := by
    show ((m.reset id).number id).recs ++ [id] = _
    rw [N.1, L.recs]
  have haddr : (register m id b).addr = m.addr := by
    show ((m.reset id).number id).addr = _
    rw [N.2.2.2.2.1, L.addr]
  have hoth : ∀ k, k ≠ id → (register m id b).objs k = m.objs k := by
    intro k hk
    show ((m.reset id).number id).objs k = _
    rw [N.2.2.2.2.2.1 k hk, L.other k hk]
  have hsrv : ∀ k, ((register m id b).objs k).server = (m.objs k).server := fun k => (fixed_eq (S k)).2.2.1
  have hres : ((m.reset id).objs id).server = (m.objs id).server := (fixed_eq (Same.reset m id id)).2.2.1
  have hmem : ∀ k, k ∈ (register m id b).recs → k ∈ m.recs ∧ k ≠ id ∨ k = id := by
    intro k hk
    rw [hrecs] at hk
    by_cases e : k = id
    · exact Or.inr e
    · rcases List.mem_append.mp hk with hk | hk
      · exact Or.inl ⟨hk, e⟩
      · exact absurd (List.mem_singleton.mp hk) e
  have hcle : m.counter ≤ (register m id b).counter := by
    show m.counter ≤ ((m.reset id).number id).counter
    cases hs : (m.objs id).server with
    | true => rw [(number_server (hres.trans hs)).1, L.counter]; omega
    | false => rw [number_client (hres.trans hs), L.counter]; exact Nat.le_refl _
  have hnew : (m.objs id).server = true → (register m id b).counter = m.counter + 1 ∧
      ((register m id b).objs id).connId = some (m.addr, m.counter) := by
    intro hs
    have := number_server (hres.trans hs)
    rw [L.counter, L.addr] at this
    exact this
  refine ⟨?_, by rw [hg]; exact h.nodup, ?_, ?_, ?_⟩
  · intro x hx
    rw [hg] at hx
    obtain ⟨k, hk, e⟩ := h.old x hx
    exact ⟨k, by omega, by rw [haddr]; exact e⟩
  · intro k hk hks
    rw [hsrv] at hks
    rw [haddr]
    rcases hmem k hk with ⟨hk, e⟩ | e
    · obtain ⟨j, hj, e2⟩ := h.num k hk hks
      exact ⟨j, by omega, by rw [hoth k e]; exact e2⟩
    · subst e
      exact ⟨m.counter, by rw [(hnew hks).1]; omega, (hnew hks).2⟩
  · intro x hx y hy hsx hsy hxy
    rw [hsrv] at hsx hsy
    rcases hmem x hx with ⟨hx', ex⟩ | ex <;> rcases hmem y hy with ⟨hy', ey⟩ | ey
    · rw [hoth x ex, hoth y ey]; exact h.diff x hx' y hy' hsx hsy hxy
    · subst ey
      rw [hoth x ex, (hnew hsy).2]
      obtain ⟨j, hj, e2⟩ := h.num x hx' hsx
      rw [e2]
      intro e
      simp at e
      omega
    · subst ex
      rw [hoth y ey, (hnew hsx).2]
      obtain ⟨j, hj, e2⟩ := h.num y hy' hsy
      rw [e2]
      intro e
      simp at e
      omega
    · exact absurd (ex.trans ey.symm) hxy
  · intro k hk hks he
    rw [hsrv] at hks
    rw [hg]
    rcases hmem k hk with ⟨hk, e⟩ | e
    · rw [hoth k e] at he ⊢
      exact h.unused k hk hks he
    · subst e
      rw [(hnew hks).2]
      intro hx
      obtain ⟨j, hj, e2⟩ := h.old _ hx
      simp at e2
      omega

theorem step_ids {m : Mgr} (I : Inv m) (h : Ids m) (op : Op) : Ids (step m op) := by
  have S := Same.step m op
  cases op with
  | event id v t =>
    show Ids (paramEvent m id v t)
    unfold paramEvent
    split
    · exact h
    · split
      · exact h
      · split
        · exact h
        next hid => exact register_ids h hid _
  | timeout devs addrs d t =>
    show Ids (timeout devs addrs d t m)
    by_cases hd : m.doing = 0
    · rw [timeout_idle devs addrs d t hd]; exact h
    · rw [timeout_doing devs addrs d t hd]
      exact checkRecs_ids (Inv.turns devs addrs d m.recs I (fun _ h => h)).1.nodup (turns_ids devs addrs d _ h) _
  | globalConnect devs c u1 u2 cl =>
    show Ids (globalConnect devs m c u1 u2 cl)
    have he : ∀ r, Ids (m.emit [.answer c r]) := fun r =>
      h.of (fun _ h => h) rfl rfl (Same.refl m) (by simp [given]) (fun _ _ _ => rfl) (fun _ _ _ h => h)
    unfold globalConnect
    split
    · exact he _
    next id hf =>
      split
      · exact he _
      · exact he _
      next hp =>
        split
        · exact fillAnswer_ids h (find_mem hf).1 hp c cl
        · exact he _
      · exact he _
  | activate c =>
    refine h.of (fun _ h => h) rfl rfl S ?_ (fun _ _ _ => rfl) (fun _ _ _ h => h)
    show given (m.out ++ answers m.cmd .no) = _
    rw [given_append, given_answers, List.append_nil]
  | shutdown c =>
    refine h.of (fun _ h => h) rfl rfl S ?_ (fun _ _ _ => rfl) (fun _ _ _ h => h)
    show given (m.out ++ answers m.cmd .no) = _
    rw [given_append, given_answers, List.append_nil]
  | connectReply devs u1 u2 r i =>
    show Ids (connectReply devs m u1 u2 r i)
    unfold connectReply
    split
    · exact h
    next id hf =>
      split
      next hp =>
        split
        · refine h.local ((Local.setProgress m id _).trans (Local.upd _ id _))
            ((Same.setProgress m id _).trans (Same.upd _ id (fixed_delay _ _ _))) (by simp [Mgr.setProgress, given]) ?_ ?_
          · intro _; simp [Mgr.setProgress]
          · intro _; rw [hp]; simp [early]
        · dsimp only
          have htake : (m.objs id).server = true → ((m.objs id).take i).connId = (m.objs id).connId := by
            intro hs; unfold Rec.take; rw [if_pos hs]
          split
          · refine h.local (Local.upd m id _) (Same.upd m id (fixed_take _ _)) rfl ?_ ?_
            · rw [upd_self]; exact htake
            · rw [upd_self, take_progress]; exact fun h => h
          · refine h.local ((((Local.upd m id _).trans (Local.upd _ id _)).trans (Local.setProgress _ id _)).trans
              (Local.emit _ id _)) ((((Same.upd m id (fixed_take _ _)).trans (Same.upd _ id (fixed_delay _ _ _))).trans
              (Same.setProgress _ id _)).trans (Same.emit _ _)) (by simp [Mgr.setProgress, given]) ?_ ?_
            · intro hs; simp [Mgr.setProgress, htake hs]
            · simp [Mgr.setProgress, early]
      · exact h
  | handleReply id ok =>
    show Ids (handleReply m id ok)
    unfold handleReply
    split
    · refine h.local ((Local.setProgress m id _).trans (Local.replyRemote _ id _))
        ((Same.setProgress m id _).trans (Same.replyRemote _ id _)) ?_ ?_ ?_
      · simp only [Mgr.setProgress, Mgr.replyRemote, emit_out, upd_out, given_append, given_answers]
        simp [given]
      · intro _; simp [Mgr.setProgress, Mgr.replyRemote]
      · simp [Mgr.setProgress, Mgr.replyRemote, early]
    · split
      next hp =>
        refine h.local ((Local.setProgress m id _).trans (Local.upd _ id _))
            ((Same.setProgress m id _).trans (Same.upd _ id (fixed_delay _ _ _))) (by simp [Mgr.setProgress, given]) ?_ ?_
        · intro _; simp [Mgr.setProgress]
        · intro _; rw [hp]; simp [early]
      next hp =>
        refine checkRecs_ids (m := m.setProgress id .connected) I.nodup ?_ _
        refine h.local (Local.setProgress m id _) (Same.setProgress m id _) (by simp [Mgr.setProgress, given]) ?_ ?_
        · intro _; simp [Mgr.setProgress]
        · simp [Mgr.setProgress, early]
      · exact h
  | answerRemote id ok =>
    refine h.local (Local.replyRemote m id ok) S ?_ ?_ ?_
    · show given (m.out ++ answers _ _) = _
      rw [given_append, given_answers, List.append_nil]
    · intro _; simp [step, Mgr.replyRemote]
    · simp [step, Mgr.replyRemote]
  | setIds id s c =>
    refine h.local (n := m.upd id fun r => { r with serverId := s, clientId := c }) (Local.upd m id _) S rfl ?_ ?_ <;> simp
  | setState id s =>
    refine h.local (n := m.upd id fun r => { r with state := s }) (Local.upd m id _) S rfl ?_ ?_ <;> simp

theorem run_ids : ∀ (ops : List Op) {m : Mgr}, Inv m → Ids m → Ids (run m ops)
  | [], _, _, h => h
  | op :: ops, _, I, h => run_ids ops (I.step op) (step_ids I h op)

end Verif.ConnMgr
