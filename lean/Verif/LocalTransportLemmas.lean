import Verif.Spec.LocalTransport
import Verif.BuffersQueueLemmas

namespace Verif.LocalTransport
open Verif.BuffersQueue
variable {β : Type}

/-- Executions as a relation which grows at the end. -/
inductive Steps (s0 : LT β) : List (Rec β) → LT β → Prop where
  | nil : Steps s0 [] s0
  | snoc {h s op o w s'} : Steps s0 h s → step s op = some (o, w, s') → Steps s0 (h ++ [⟨op, o, w⟩]) s'

theorem steps_cons {s0 s1 : LT β} {op o w} (h0 : step s0 op = some (o, w, s1)) {h s} (hs : Steps s1 h s) :
    Steps s0 (⟨op, o, w⟩ :: h) s := by
  induction hs with
  | nil => exact Steps.snoc (h := []) Steps.nil h0
  | snoc _ e ih => exact Steps.snoc ih e

theorem run_steps (ops : List (Op β)) : ∀ {s0 : LT β} {h s}, run s0 ops = some (h, s) → Steps s0 h s ∧ h.map Rec.op = ops := by
  induction ops with
  | nil => intro s0 h s hr; simp only [run] at hr; cases hr; exact ⟨Steps.nil, rfl⟩
  | cons op ops ih =>
    intro s0 h s hr
    simp only [run, Option.bind_eq_bind, Option.bind_eq_some_iff] at hr
    obtain ⟨⟨o, w, s1⟩, e1, ⟨h1, s2⟩, e2, e3⟩ := hr
    cases e3
    obtain ⟨e4, e5⟩ := ih e2
    exact ⟨steps_cons e1 e4, by simp [e5]⟩

theorem run_append (a : List (Op β)) : ∀ (s0 : LT β) (b : List (Op β)),
    run s0 (a ++ b) = (run s0 a).bind fun x => (run x.2 b).map fun y => (x.1 ++ y.1, y.2) := by
  induction a with
  | nil => intro s0 b; simp [run]
  | cons op a ih =>
    intro s0 b
    simp only [List.cons_append, run, Option.bind_eq_bind]
    cases step s0 op with
    | none => rfl
    | some r =>
      obtain ⟨o, w, s1⟩ := r
      simp only [Option.bind_some]
      rw [ih]
      cases run s1 a with
      | none => rfl
      | some r => simp only [Option.bind_some]; cases run r.2 b <;> simp

/-! ### effect of the operations on the waiting buffers -/

theorem sendTail_queue (s : LT β) : (sendTail s).2.queue = s.queue ∧ (sendTail s).2.connInp = s.connInp ∧ (sendTail s).2.connOut = s.connOut ∧
    (sendTail s).2.blockConn = s.blockConn ∧ (sendTail s).2.blockUnconn = s.blockUnconn := by
  rw [sendTail]; dsimp only; split <;> exact ⟨rfl, rfl, rfl, rfl, rfl⟩

theorem recvTail_queue (s : LT β) : (recvTail s).2.queue = s.queue ∧ (recvTail s).2.connInp = s.connInp ∧ (recvTail s).2.connOut = s.connOut ∧
    (recvTail s).2.blockConn = s.blockConn ∧ (recvTail s).2.blockUnconn = s.blockUnconn := ⟨rfl, rfl, rfl, rfl, rfl⟩

theorem full_iff {s : LT β} {l : List β} (h : Rep s.queue (l.map some)) : full s = true ↔ l.length = s.queue.cap := by
  have := h.len
  rw [List.length_map] at this
  rw [full, beq_iff_eq, this]

theorem empty_iff {s : LT β} {l : List β} (h : Rep s.queue (l.map some)) : empty s = true ↔ l = [] := by
  have := h.len
  rw [List.length_map] at this
  rw [empty, beq_iff_eq, ← this, List.length_eq_zero_iff]

theorem send_room {s : LT β} {l : List β} (h : Rep s.queue (l.map some)) (b : β) (hf : full s = false) :
    ∃ q, send s (some b) = some (none, sendTail { s with queue := q }) ∧ Rep q ((l ++ [b]).map some) ∧ q.cap = s.queue.cap := by
  have h1 := h.len; have h2 := h.le
  have hlt : (l.map some).length < s.queue.cap := by
    have : ¬ l.length = s.queue.cap := by rw [← full_iff h, hf]; simp
    rw [List.length_map] at h1 ⊢
    omega
  obtain ⟨q, e1, e2, e3⟩ := rep_push h (some b) hlt
  refine ⟨q, ?_, by simpa using e2, e3⟩
  simp [send, hf, e1]

theorem send_skip {s : LT β} {l : List β} (h : Rep s.queue (l.map some)) (b : β) (hf : full s = true) (hb : blocking s = false) :
    ∃ a l' q, l = a :: l' ∧ send s (some b) = some (some a, sendTail { s with queue := q }) ∧ Rep q ((l' ++ [b]).map some) ∧ q.cap = s.queue.cap := by
  have hl := (full_iff h).1 hf
  have h0 := h.pos
  cases l with
  | nil => simp at hl; omega
  | cons a l =>
    obtain ⟨q1, e1, e2, e3⟩ := rep_pop (a := some a) (l := l.map some) h none
    have hlt : (l.map some).length < q1.cap := by
      simp only [List.length_cons] at hl
      rw [List.length_map]; omega
    obtain ⟨q, e4, e5, e6⟩ := rep_push e2 (some b) hlt
    refine ⟨a, l, q, rfl, ?_, by simpa using e5, e6.trans e3⟩
    simp [send, hf, hb, e1, e4]

theorem send_block {s : LT β} (b : β) (hf : full s = true) (hb : blocking s = true) : send s (some b) = none := by
  have : s.queue.size = s.queue.cap := by simpa [full] using hf
  simp [send, hf, hb, BQ.push, this]

theorem recv_nil {s : LT β} (h : Rep s.queue ([] : List (Option β))) : recv s = some (none, recvTail s) := by
  have h1 := h.len
  simp only [List.length_nil] at h1
  simp [recv, BQ.pop, ← h1]

theorem recv_cons {s : LT β} {a : β} {l : List β} (h : Rep s.queue ((a :: l).map some)) :
    ∃ q, recv s = some (some a, recvTail { s with queue := q }) ∧ Rep q (l.map some) ∧ q.cap = s.queue.cap := by
  obtain ⟨q1, e1, e2, e3⟩ := rep_pop (a := some a) (l := l.map some) h none
  exact ⟨q1, by simp [recv, e1], e2, e3⟩

theorem drain_all (fuel : Nat) : ∀ {q : BQ β} {l : List β}, Rep q (l.map some) → l.length < fuel →
    ∃ q', drain q fuel = some (l, q') ∧ Rep q' ([].map some) ∧ q'.cap = q.cap := by
  induction fuel with
  | zero => intro q l _ h; omega
  | succ fuel ih =>
    intro q l h hf
    have h1 := h.len
    cases l with
    | nil =>
      simp only [List.map_nil, List.length_nil] at h1
      exact ⟨q, by simp [drain, ← h1], h, rfl⟩
    | cons a l =>
      simp only [List.map_cons, List.length_cons, List.length_map] at h1 hf
      obtain ⟨q1, e1, e2, e3⟩ := rep_pop (a := some a) (l := l.map some) h none
      obtain ⟨q2, e4, e5, e6⟩ := ih e2 (by omega)
      refine ⟨q2, ?_, e5, e6.trans e3⟩
      rw [drain, if_pos (by omega), e1]
      simp [e4]

theorem disconnect_spec {s : LT β} {l : List β} (h : Rep s.queue (l.map some)) (i : Bool) :
    ∃ bs q, disconnect s i = some (bs, (detach s i).1, { (detach s i).2 with queue := q }) ∧ q.cap = s.queue.cap ∧
      (((detach s i).2.connInp = false ∧ (detach s i).2.connOut = false ∧ bs = l ∧ Rep q ([].map some)) ∨
       (¬ ((detach s i).2.connInp = false ∧ (detach s i).2.connOut = false) ∧ bs = [] ∧ q = s.queue)) := by
  have hq : (detach s i).2.queue = s.queue := by cases i <;> rfl
  rw [disconnect]
  dsimp only
  by_cases hc : (detach s i).2.connInp = false ∧ (detach s i).2.connOut = false
  · rw [if_pos (by simp [hc.1, hc.2]), hq]
    have h1 := h.len
    rw [List.length_map] at h1
    obtain ⟨q, e1, e2, e3⟩ := drain_all (s.queue.size + 1) h (by omega)
    exact ⟨l, q, by rw [e1]; rfl, e3, Or.inl ⟨hc.1, hc.2, rfl, e2⟩⟩
  · rw [if_neg (by
      intro h'
      simp only [Bool.and_eq_true, Bool.not_eq_true'] at h'
      exact hc h')]
    refine ⟨[], s.queue, ?_, rfl, Or.inr ⟨hc, rfl, rfl⟩⟩
    rw [← hq]

/-! ### the data invariant -/

structure Data (cap : Nat) (h : List (Rec β)) (s : LT β) : Prop where
  rep : Rep s.queue ((waiting h).map some)
  size : s.queue.cap = cap
  fifo : sent h = gone h ++ waiting h
  inp : linked true h = s.connInp
  out : linked false h = s.connOut
  fl : flags h = (s.blockConn, s.blockUnconn)

theorem Data.blk {cap h} {s : LT β} (d : Data cap h s) : blocks h = blocking s := by
  rw [blocks, blocking, d.inp, d.out, d.fl]

theorem waiting_snoc {h : List (Rec β)} {r : Rec β} {a g w : List β} (hw : sent h = gone h ++ waiting h)
    (hs : r.sent = a) (hg : r.received ++ r.skipped ++ r.cleared = g) (hl : waiting h ++ a = g ++ w) :
    sent (h ++ [r]) = gone (h ++ [r]) ++ w ∧ waiting (h ++ [r]) = w := by
  have e1 : sent (h ++ [r]) = sent h ++ a := by simp [sent, hs]
  have e2 : gone (h ++ [r]) = gone h ++ g := by
    rw [gone, List.flatMap_append, List.flatMap_cons, List.flatMap_nil, List.append_nil, hg]; rfl
  have e3 : sent (h ++ [r]) = gone (h ++ [r]) ++ w := by
    rw [e1, e2, hw, List.append_assoc, hl, List.append_assoc]
  exact ⟨e3, by rw [waiting, e3, List.drop_left]⟩

theorem data_snoc {cap : Nat} {h : List (Rec β)} {s s' : LT β} {r : Rec β} {a g w : List β} (d : Data cap h s)
    (hs : r.sent = a) (hg : r.received ++ r.skipped ++ r.cleared = g) (hl : waiting h ++ a = g ++ w)
    (hr : Rep s'.queue (w.map some)) (hc : s'.queue.cap = s.queue.cap)
    (h1 : linked true (h ++ [r]) = s'.connInp) (h2 : linked false (h ++ [r]) = s'.connOut)
    (h3 : flags (h ++ [r]) = (s'.blockConn, s'.blockUnconn)) : Data cap (h ++ [r]) s' ∧ waiting (h ++ [r]) = w := by
  obtain ⟨e1, e2⟩ := waiting_snoc d.fifo hs hg hl
  exact ⟨⟨by rw [e2]; exact hr, hc.trans d.size, by rw [e2]; exact e1, h1, h2, h3⟩, e2⟩

theorem linked_snoc (i : Bool) (h : List (Rec β)) (r : Rec β) : linked i (h ++ [r]) = (match r.op with
    | .setConnected j => if j = i then true else linked i h
    | .disconnect j => if j = i then false else linked i h
    | _ => linked i h) := by
  rw [linked, List.foldl_append]; obtain ⟨op, o, w⟩ := r; cases op <;> rfl

theorem flags_snoc (h : List (Rec β)) (r : Rec β) : flags (h ++ [r]) = (match r.op with | .setBlocking x y => (x, y) | _ => flags h) := by
  rw [flags, List.foldl_append]; obtain ⟨op, o, w⟩ := r; cases op <;> rfl

theorem data_init {cap : Nat} (hc : 0 < cap) : Data cap [] (create cap : LT β) :=
  ⟨rep_create hc, rfl, rfl, rfl, rfl, rfl⟩

/-- Every step keeps the invariant; `send` is the only one that may fail. -/
theorem data_step {cap : Nat} {h : List (Rec β)} {s s' : LT β} {op o w} (d : Data cap h s) (hs : step s op = some (o, w, s')) :
    Data cap (h ++ [⟨op, o, w⟩]) s' := by
  have keep : ∀ {op : Op β} {o w} {s' : LT β}, (Rec.mk op o w).sent = [] →
      (Rec.mk op o w).received ++ (Rec.mk op o w).skipped ++ (Rec.mk op o w).cleared = [] → s'.queue = s.queue →
      linked true (h ++ [⟨op, o, w⟩]) = s'.connInp → linked false (h ++ [⟨op, o, w⟩]) = s'.connOut →
      flags (h ++ [⟨op, o, w⟩]) = (s'.blockConn, s'.blockUnconn) → Data cap (h ++ [⟨op, o, w⟩]) s' := by
    intro op o w s' a1 a2 a3 a4 a5 a6
    exact (data_snoc d a1 a2 (w := waiting h) (by simp) (by rw [a3]; exact d.rep) (by rw [a3]) a4 a5 a6).1
  cases op with
  | send b =>
    cases b with
    | none =>
      simp only [step, send, Option.bind_eq_bind, Option.bind_some, Option.some.injEq, Prod.mk.injEq] at hs
      obtain ⟨rfl, rfl, rfl⟩ := hs
      exact keep rfl rfl rfl (by rw [linked_snoc]; exact d.inp) (by rw [linked_snoc]; exact d.out) (by rw [flags_snoc]; exact d.fl)
    | some b =>
      rcases hf : full s with _ | _
      · obtain ⟨q, e1, e2, e3⟩ := send_room d.rep b hf
        simp only [step, e1, Option.bind_eq_bind, Option.bind_some, Option.some.injEq, Prod.mk.injEq] at hs
        obtain ⟨rfl, rfl, rfl⟩ := hs
        obtain ⟨t1, t2, t3, t4, t5⟩ := sendTail_queue { s with queue := q }
        refine (data_snoc d (a := [b]) (g := []) (w := waiting h ++ [b]) rfl rfl rfl (by rw [t1]; exact e2) (by rw [t1]; exact e3) ?_ ?_ ?_).1
        · rw [linked_snoc, t2]; exact d.inp
        · rw [linked_snoc, t3]; exact d.out
        · rw [flags_snoc, t4, t5]; exact d.fl
      · rcases hb : blocking s with _ | _
        · obtain ⟨a, l, q, e0, e1, e2, e3⟩ := send_skip d.rep b hf hb
          simp only [step, e1, Option.bind_eq_bind, Option.bind_some, Option.some.injEq, Prod.mk.injEq] at hs
          obtain ⟨rfl, rfl, rfl⟩ := hs
          obtain ⟨t1, t2, t3, t4, t5⟩ := sendTail_queue { s with queue := q }
          refine (data_snoc d (a := [b]) (g := [a]) (w := l ++ [b]) rfl rfl (by rw [e0]; rfl) (by rw [t1]; exact e2) (by rw [t1]; exact e3) ?_ ?_ ?_).1
          · rw [linked_snoc, t2]; exact d.inp
          · rw [linked_snoc, t3]; exact d.out
          · rw [flags_snoc, t4, t5]; exact d.fl
        · rw [step, send_block b hf hb] at hs; cases hs
  | recv =>
    rcases hw : waiting h with _ | ⟨a, l⟩
    · have hr := d.rep
      rw [hw] at hr
      rw [step, recv_nil hr] at hs
      simp only [Option.bind_eq_bind, Option.bind_some, Option.some.injEq, Prod.mk.injEq] at hs
      obtain ⟨rfl, rfl, rfl⟩ := hs
      exact keep rfl rfl rfl (by rw [linked_snoc]; exact d.inp) (by rw [linked_snoc]; exact d.out) (by rw [flags_snoc]; exact d.fl)
    · have hr := d.rep
      rw [hw] at hr
      obtain ⟨q, e1, e2, e3⟩ := recv_cons hr
      rw [step, e1] at hs
      simp only [Option.bind_eq_bind, Option.bind_some, Option.some.injEq, Prod.mk.injEq] at hs
      obtain ⟨rfl, rfl, rfl⟩ := hs
      refine (data_snoc d (a := []) (g := [a]) (w := l) rfl rfl (by rw [hw]; simp) e2 e3 ?_ ?_ ?_).1
      · rw [linked_snoc]; exact d.inp
      · rw [linked_snoc]; exact d.out
      · rw [flags_snoc]; exact d.fl
  | disconnect i =>
    obtain ⟨bs, q, e1, e2, e3⟩ := disconnect_spec d.rep i
    rw [step, e1] at hs
    simp only [Option.bind_eq_bind, Option.bind_some, Option.some.injEq, Prod.mk.injEq] at hs
    obtain ⟨rfl, rfl, rfl⟩ := hs
    have hi : linked true (h ++ [⟨.disconnect i, .cleared bs, (detach s i).1⟩]) = (detach s i).2.connInp := by
      rw [linked_snoc, d.inp]; cases i <;> rfl
    have ho : linked false (h ++ [⟨.disconnect i, .cleared bs, (detach s i).1⟩]) = (detach s i).2.connOut := by
      rw [linked_snoc, d.out]; cases i <;> rfl
    have hfl : flags (h ++ [⟨.disconnect i, .cleared bs, (detach s i).1⟩]) = ((detach s i).2.blockConn, (detach s i).2.blockUnconn) := by
      rw [flags_snoc, d.fl]; cases i <;> rfl
    rcases e3 with ⟨_, _, rfl, e4⟩ | ⟨_, rfl, rfl⟩
    · exact (data_snoc (s' := { (detach s i).2 with queue := q }) d (a := []) (g := waiting h) (w := []) rfl rfl (by simp) e4 e2 hi ho hfl).1
    · exact (data_snoc (s' := { (detach s i).2 with queue := s.queue }) d (a := []) (g := []) (w := waiting h) rfl rfl (by simp) d.rep rfl hi ho hfl).1
  | signalWhenFull =>
    simp only [step, Option.some.injEq, Prod.mk.injEq] at hs
    obtain ⟨rfl, rfl, rfl⟩ := hs
    have : ∀ s : LT β, (signalWhenFull s).2.queue = s.queue ∧ (signalWhenFull s).2.connInp = s.connInp ∧ (signalWhenFull s).2.connOut = s.connOut ∧
      (signalWhenFull s).2.blockConn = s.blockConn ∧ (signalWhenFull s).2.blockUnconn = s.blockUnconn := by
      intro s; rw [signalWhenFull]; split <;> exact ⟨rfl, rfl, rfl, rfl, rfl⟩
    obtain ⟨t1, t2, t3, t4, t5⟩ := this s
    exact keep rfl rfl t1 (by rw [linked_snoc, t2]; exact d.inp) (by rw [linked_snoc, t3]; exact d.out) (by rw [flags_snoc, t4, t5]; exact d.fl)
  | handleInp =>
    simp only [step, Option.some.injEq, Prod.mk.injEq] at hs
    obtain ⟨rfl, rfl, rfl⟩ := hs
    split
    all_goals exact keep rfl rfl rfl (by rw [linked_snoc]; exact d.inp) (by rw [linked_snoc]; exact d.out) (by rw [flags_snoc]; exact d.fl)
  | handleOut =>
    simp only [step, Option.some.injEq, Prod.mk.injEq] at hs
    obtain ⟨rfl, rfl, rfl⟩ := hs
    split
    all_goals exact keep rfl rfl rfl (by rw [linked_snoc]; exact d.inp) (by rw [linked_snoc]; exact d.out) (by rw [flags_snoc]; exact d.fl)
  | setBlocking x y =>
    simp only [step, Option.some.injEq, Prod.mk.injEq] at hs
    obtain ⟨rfl, rfl, rfl⟩ := hs
    exact keep rfl rfl rfl (by rw [linked_snoc]; exact d.inp) (by rw [linked_snoc]; exact d.out) (by rw [flags_snoc])
  | setConnected i =>
    simp only [step, Option.some.injEq, Prod.mk.injEq] at hs
    obtain ⟨rfl, rfl, rfl⟩ := hs
    cases i
    · exact keep rfl rfl rfl (by rw [linked_snoc]; exact d.inp) (by rw [linked_snoc]; rfl) (by rw [flags_snoc]; exact d.fl)
    · exact keep rfl rfl rfl (by rw [linked_snoc]; rfl) (by rw [linked_snoc]; exact d.out) (by rw [flags_snoc]; exact d.fl)
  | _ =>
    simp only [step, Option.some.injEq, Prod.mk.injEq] at hs
    obtain ⟨rfl, rfl, rfl⟩ := hs
    exact keep rfl rfl rfl (by rw [linked_snoc]; exact d.inp) (by rw [linked_snoc]; exact d.out) (by rw [flags_snoc]; exact d.fl)

theorem data_steps {cap : Nat} (hc : 0 < cap) {h : List (Rec β)} {s : LT β} (hs : Steps (create cap) h s) : Data cap h s := by
  induction hs with
  | nil => exact data_init hc
  | snoc _ e ih => exact data_step ih e

end Verif.LocalTransport
