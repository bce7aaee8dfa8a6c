import Verif.SockCmdLemmas
import Verif.Spec.SockCmd

/-!
# Undisturbed command channel: nothing is lost and nothing stands still
-/

namespace Verif.SockCmd

open Spec

def Side.sendOk (x : Side) : Prop :=
  (x.active = false ∧ x.busy = false ∧ x.sendq = [] ∧ x.evq.count .send = 0) ∨
  (x.active = true ∧ x.busy = true ∧ x.evq.count .send = 0) ∨ (x.active = true ∧ x.busy = false ∧ x.evq.count .send = 1)

def Side.recvOk (x : Side) (inw : List Pkt) : Prop :=
  (x.rstart = true ∧ x.evq.count .recv = 0 ∧ x.rbuf = none ∧ (x.stage = .header ∨ (x.stage = .data ∧ inw ≠ []))) ∨
  (x.rstart = false ∧ x.evq.count .recv = 1 ∧
    ((x.stage = .header ∧ x.rbuf = none ∧ inw ≠ []) ∨ (x.stage = .data ∧ ∃ p, x.rbuf = some p)))

structure Ok (x : Side) (inw : List Pkt) : Prop where
  io : x.io = true
  open' : Ev.close ∉ x.evq
  snd : x.sendOk
  rcv : x.recvOk inw

structure Live (s : S) : Prop where
  fine : s.crashed = false
  ok : ∀ d, Ok (s.side d) (s.wire (!d))

/-! ### Sending -/

def pktOf (x : Side) : Item → Pkt
  | .cmd c => { kind := .command, id := nextId x.next, c := c }
  | .reply id c v => { kind := .reply, id := id, c := c, v := v }

def after (x : Side) (it : Item) (q : List Item) : Side :=
  match it with
  | .cmd c => { x.number c with sendq := q, busy := true, active := true }
  | .reply .. => { x with sendq := q, busy := true, active := true }

def S.sent (s : S) (d : Bool) (it : Item) (q : List Item) : S :=
  { s with side := put s.side d (after (s.side d) it q), wire := put s.wire d (s.wire d ++ [pktOf (s.side d) it]) }

theorem put_put {α} (f : Bool → α) (d : Bool) (x y : α) : put (put f d x) d y = put f d y := by
  funext e; by_cases h : e = d <;> simp [put, h]

theorem send_eq {s : S} {d : Bool} {env : Env} (he : Env.Fine env) {it : Item} {q : List Item}
    (hio : (s.side d).io = true) (hb : (s.side d).busy = false) :
    (s.upd d (fun x => { x with sendq := q })).send d env it = s.sent d it q := by
  cases it with
  | cmd c =>
    simp only [S.send, (he c).1, (he c).2.1, Bool.false_eq_true, if_false]
    unfold S.start
    rw [if_pos (by simp [S.upd, Side.number, hio, hb])]
    simp [S.upd, S.sent, after, pktOf, Side.number, put_put]
  | reply id c v =>
    simp only [S.send, (he c).2.2, Bool.false_eq_true, if_false]
    unfold S.start
    rw [if_pos (by simp [S.upd, hio, hb])]
    simp [S.upd, S.sent, after, pktOf, put_put]

def S.next1 (s : S) (d : Bool) : S :=
  match (s.side d).sendq with
  | [] => s
  | it :: q => s.sent d it q

theorem flush_active {s : S} {d : Bool} {env : Env} (h : (s.side d).active = true) : s.flush d env = s := by
  unfold S.flush
  cases (s.side d).sendq.length with
  | zero => rfl
  | succ n => simp [S.drain, h]

theorem flush_eq {s : S} {d : Bool} {env : Env} (he : Env.Fine env)
    (hio : (s.side d).io = true) (ha : (s.side d).active = false) (hb : (s.side d).busy = false) :
    s.flush d env = s.next1 d := by
  unfold S.flush S.next1
  cases hq : (s.side d).sendq with
  | nil => rfl
  | cons it q =>
    simp only [List.length_cons, S.drain, ha, Bool.false_eq_true, if_false, hq]
    rw [send_eq he hio hb]
    have : ((s.sent d it q).side d).active = true := by cases it <;> simp [S.sent, after]
    cases hn : q.length with
    | zero => rfl
    | succ n => simp [S.drain, this]

/-- State before the next packet is sent. -/
structure Ready (s : S) (d : Bool) : Prop where
  fine : s.crashed = false
  io : (s.side d).io = true
  active : (s.side d).active = false
  busy : (s.side d).busy = false
  none : (s.side d).evq.count .send = 0
  open' : Ev.close ∉ (s.side d).evq
  rcv : (s.side d).recvOk (s.wire (!d))
  other : Ok (s.side (!d)) (s.wire d)

theorem recvOk_append {x : Side} {l l' : List Pkt} (h : x.recvOk l) : x.recvOk (l ++ l') := by
  unfold Side.recvOk at *
  rcases h with ⟨h1, h2, h3, h4 | ⟨h4, h5⟩⟩ | ⟨h1, h2, ⟨h3, h4, h5⟩ | h3⟩
  · exact Or.inl ⟨h1, h2, h3, Or.inl h4⟩
  · exact Or.inl ⟨h1, h2, h3, Or.inr ⟨h4, by simp [h5]⟩⟩
  · exact Or.inr ⟨h1, h2, Or.inl ⟨h3, h4, by simp [h5]⟩⟩
  · exact Or.inr ⟨h1, h2, Or.inr h3⟩

theorem live_next1 {s : S} {d : Bool} (h : Ready s d) : Live (s.next1 d) := by
  unfold S.next1
  split
  · rename_i hq
    refine ⟨h.fine, ?_⟩
    have h1 : Ok (s.side d) (s.wire (!d)) := ⟨h.io, h.open', Or.inl ⟨h.active, h.busy, hq, h.none⟩, h.rcv⟩
    have h2 := h.other
    intro e
    cases d <;> cases e <;> simp at * <;> assumption
  · rename_i it q hq
    refine ⟨h.fine, ?_⟩
    have h1 : Ok (after (s.side d) it q) (s.wire (!d)) := by
      refine ⟨?_, ?_, Or.inr (Or.inl ⟨?_, ?_, ?_⟩), ?_⟩
      · cases it <;> exact h.io
      · cases it <;> exact h.open'
      · cases it <;> rfl
      · cases it <;> rfl
      · cases it <;> exact h.none
      · cases it <;> exact h.rcv
    have h2 : Ok (s.side (!d)) (s.wire d ++ [pktOf (s.side d) it]) :=
      ⟨h.other.io, h.other.open', h.other.snd, recvOk_append h.other.rcv⟩
    intro e
    cases d <;> cases e <;> simp [S.sent] at * <;> assumption

theorem ok_frame {s t : S} {d : Bool} (h : Live s) (hc : t.crashed = false) (h1 : t.side (!d) = s.side (!d))
    (h2 : t.wire d = s.wire d) (h3 : Ok (t.side d) (t.wire (!d))) : Live t := by
  refine ⟨hc, ?_⟩
  have h4 := h.ok (!d)
  rw [Bool.not_not] at h4
  intro e
  cases d <;> cases e <;> simp at * <;> simp_all

/-- Putting a record in the send queue. -/
theorem live_add {s : S} {d : Bool} {env : Env} (h : Live s) (he : Env.Fine env) (it : Item) :
    Live (s.add d env it) := by
  unfold S.add
  have ho := h.ok d
  have hot := h.ok (!d)
  rw [Bool.not_not] at hot
  by_cases ha : (s.side d).active = true
  · rw [flush_active (by simpa [S.upd] using ha)]
    refine ok_frame (d := d) h h.fine (by simp [S.upd]) rfl ?_
    simp only [S.upd, put_same]
    refine ⟨ho.io, ho.open', ?_, ho.rcv⟩
    rcases ho.snd with ⟨h1, _⟩ | h1 | h1
    · rw [ha] at h1; cases h1
    · exact Or.inr (Or.inl h1)
    · exact Or.inr (Or.inr h1)
  · have ha' : (s.side d).active = false := by simpa using ha
    obtain ⟨_, hb, hq, hn⟩ : _ ∧ (s.side d).busy = false ∧ (s.side d).sendq = [] ∧ (s.side d).evq.count .send = 0 := by
      rcases ho.snd with h1 | ⟨h1, _⟩ | ⟨h1, _⟩
      · exact h1
      · exact absurd h1 ha
      · exact absurd h1 ha
    rw [flush_eq he (by simpa [S.upd] using ho.io) (by simpa [S.upd] using ha') (by simpa [S.upd] using hb)]
    refine live_next1 ⟨h.fine, ?_, ?_, ?_, ?_, ?_, ?_, ?_⟩ <;> simp [S.upd]
    · exact ho.io
    · exact ha'
    · exact hb
    · simpa using hn
    · exact ho.open'
    · exact ho.rcv
    · exact hot

theorem live_upd {s : S} {d : Bool} {f : Side → Side} (h : Live s) (hf : Ok (f (s.side d)) (s.wire (!d))) :
    Live (s.upd d f) :=
  ok_frame (d := d) h h.fine (by simp [S.upd]) rfl (by simpa [S.upd] using hf)


theorem mem_sendOk_dispatch {x : Side} {q : List Ev} (h : x.sendOk) (hq : x.evq = .send :: q) :
    x.active = true ∧ x.busy = false ∧ q.count .send = 0 := by
  rcases h with ⟨_, _, _, h⟩ | ⟨_, _, h⟩ | ⟨h1, h2, h⟩
  · simp [hq] at h
  · simp [hq] at h
  · refine ⟨h1, h2, ?_⟩
    simpa [hq] using h

theorem recvOk_dispatch {x : Side} {inw : List Pkt} {q : List Ev} (h : x.recvOk inw) (hq : x.evq = .recv :: q) :
    x.rstart = false ∧ q.count .recv = 0 ∧
      ((x.stage = .header ∧ x.rbuf = none ∧ inw ≠ []) ∨ (x.stage = .data ∧ ∃ p, x.rbuf = some p)) := by
  rcases h with ⟨_, h, _⟩ | ⟨h1, h, h2⟩
  · simp [hq] at h
  · exact ⟨h1, by simpa [hq] using h, h2⟩

/-- State of a side with the events of the other kinds only. -/
theorem sendOk_frame {x y : Side} (h : x.sendOk) (h1 : y.active = x.active) (h2 : y.busy = x.busy)
    (h3 : y.sendq = x.sendq) (h4 : y.evq.count .send = x.evq.count .send) : y.sendOk := by
  unfold Side.sendOk at *
  rw [h1, h2, h3, h4]; exact h

theorem recvOk_frame {x y : Side} {l : List Pkt} (h : x.recvOk l) (h1 : y.rstart = x.rstart) (h2 : y.stage = x.stage)
    (h3 : y.rbuf = x.rbuf) (h4 : y.evq.count .recv = x.evq.count .recv) : y.recvOk l := by
  unfold Side.recvOk at *
  rw [h1, h2, h3, h4]; exact h

theorem live_wrote {s : S} (d : Bool) (h : Live s) : Live (s.wrote d) := by
  unfold S.wrote
  split
  · rename_i hc
    have ho := h.ok d
    simp only [Bool.and_eq_true] at hc
    refine live_upd h ⟨ho.io, ?_, ?_, recvOk_frame ho.rcv rfl rfl rfl (by simp)⟩
    · simpa using ho.open'
    · rcases ho.snd with ⟨_, h2, _⟩ | ⟨h1, h2, h3⟩ | ⟨_, h2, _⟩
      · rw [hc.2] at h2; cases h2
      · exact Or.inr (Or.inr ⟨h1, rfl, by simp [h3]⟩)
      · rw [hc.2] at h2; cases h2
  · exact h

theorem live_read {s : S} (d : Bool) (h : Live s) : Live (s.read d) := by
  unfold S.read
  have ho := h.ok d
  split
  · rename_i hc
    simp only [Bool.and_eq_true] at hc
    obtain ⟨hr0, hr1, hr2⟩ : (s.side d).evq.count .recv = 0 ∧ (s.side d).rbuf = none ∧
        ((s.side d).stage = .header ∨ ((s.side d).stage = .data ∧ s.wire (!d) ≠ [])) := by
      rcases ho.rcv with ⟨_, h2⟩ | ⟨h2, _⟩
      · exact h2
      · rw [hc.2] at h2; cases h2
    cases hw : s.wire (!d) with
    | nil => exact h
    | cons p w =>
      dsimp only
      cases hs : (s.side d).stage with
      | init => rcases hr2 with h2 | ⟨h2, _⟩ <;> rw [hs] at h2 <;> cases h2
      | header =>
        dsimp only
        refine live_upd h ⟨ho.io, by simpa using ho.open', sendOk_frame ho.snd rfl rfl rfl (by simp), ?_⟩
        exact Or.inr ⟨rfl, by simp [hr0], Or.inl ⟨hs, hr1, by simp [hw]⟩⟩
      | data =>
        dsimp only
        refine ok_frame (d := d) h h.fine (by simp [S.upd]) (by cases d <;> simp [S.upd]) ?_
        simp only [S.upd, put_same]
        refine ⟨ho.io, by simpa using ho.open', sendOk_frame ho.snd rfl rfl rfl (by simp), ?_⟩
        exact Or.inr ⟨rfl, by simp [hr0], Or.inr ⟨hs, p, rfl⟩⟩
  · exact h

/-- The side whose event was taken, without the event. -/
theorem ok_drop {x : Side} {l : List Pkt} {e : Ev} {q : List Ev} (hq : x.evq = e :: q) (h : Ev.close ∉ x.evq) :
    Ev.close ∉ q := by
  rw [hq] at h
  simp at h
  exact h.2

theorem live_recv {s : S} (d : Bool) {q : List Ev} (h : Live s) (hq : (s.side d).evq = .recv :: q) :
    Live ((s.upd d (fun x => { x with evq := q })).recv d) := by
  have ho := h.ok d
  obtain ⟨h1, h2, h3⟩ := recvOk_dispatch ho.rcv hq
  have hop : Ev.close ∉ q := ok_drop (l := []) hq ho.open'
  have hsc : q.count .send = (s.side d).evq.count .send := by simp [hq]
  unfold S.recv
  rcases h3 with ⟨h3, h4, h5⟩ | ⟨h3, p, h4⟩
  · simp only [S.upd, put_same, h3, ho.io, if_true]
    refine ok_frame (d := d) h h.fine (by simp) rfl ?_
    simp only [put_same]
    exact ⟨rfl, hop, sendOk_frame ho.snd rfl rfl rfl hsc, Or.inl ⟨rfl, h2, h4, Or.inr ⟨rfl, h5⟩⟩⟩
  · simp only [S.upd, put_same, h3, h4]
    unfold S.handle
    have key : ∀ t : S, t.crashed = false → t.side (!d) = s.side (!d) → t.wire = s.wire →
        (t.side d).io = true → (t.side d).evq = q → (t.side d).active = (s.side d).active →
        (t.side d).busy = (s.side d).busy → (t.side d).sendq = (s.side d).sendq → (t.side d).rbuf = none →
        Live (t.again d) := by
      intro t t1 t2 t3 t4 t5 t6 t7 t8 t9
      unfold S.again
      rw [if_pos t4]
      refine ok_frame (d := d) h (by simpa [S.upd] using t1) (by simpa [S.upd] using t2) (by simp [S.upd, t3]) ?_
      simp only [S.upd, put_same]
      refine ⟨t4, by rw [show _ = q from t5]; exact hop, sendOk_frame ho.snd t6 t7 t8 (by rw [show _ = q from t5]; exact hsc), ?_⟩
      exact Or.inl ⟨rfl, by rw [show _ = q from t5]; exact h2, t9, Or.inl rfl⟩
    cases p.kind with
    | command =>
      exact key _ h.fine (by simp [S.upd]) rfl (by simp [S.upd, ho.io]) (by simp [S.upd]) (by simp [S.upd]) (by simp [S.upd])
        (by simp [S.upd]) (by simp [S.upd])
    | _ =>
      dsimp only
      unfold S.answer
      split
      · exact key _ h.fine (by simp) rfl (by simp [ho.io]) (by simp) (by simp) (by simp)
          (by simp) (by simp)
      · exact key _ h.fine (by simp [S.upd]) rfl (by simp [S.upd, ho.io]) (by simp [S.upd]) (by simp [S.upd]) (by simp [S.upd])
          (by simp [S.upd]) (by simp [S.upd])

theorem ready_dispatch {s : S} {d : Bool} {q : List Ev} (h : Live s) (hq : (s.side d).evq = .send :: q) :
    Ready (s.upd d (fun x => { x with evq := q, active := false })) d := by
  have ho := h.ok d
  have hot := h.ok (!d)
  rw [Bool.not_not] at hot
  obtain ⟨h1, h2, h3⟩ := mem_sendOk_dispatch ho.snd hq
  refine ⟨h.fine, ?_, ?_, ?_, ?_, ?_, ?_, ?_⟩ <;> simp [S.upd]
  · exact ho.io
  · exact h2
  · simpa using h3
  · exact ok_drop (l := []) hq ho.open'
  · exact recvOk_frame ho.rcv rfl rfl rfl (by simp [hq])
  · exact hot

theorem dispatch_send {s : S} {d : Bool} {env : Env} {q : List Ev} (h : Live s) (he : Env.Fine env)
    (hq : (s.side d).evq = .send :: q) :
    s.dispatch d env = (s.upd d (fun x => { x with evq := q, active := false })).next1 d := by
  have hr := ready_dispatch h hq
  simp only [S.dispatch, hq]
  exact flush_eq he hr.io hr.active hr.busy

theorem live_dispatch {s : S} (d : Bool) {env : Env} (h : Live s) (he : Env.Fine env) : Live (s.dispatch d env) := by
  cases hq : (s.side d).evq with
  | nil => simp only [S.dispatch, hq]; exact h
  | cons e q =>
    cases e with
    | send => rw [dispatch_send h he hq]; exact live_next1 (ready_dispatch h hq)
    | recv => simp only [S.dispatch, hq]; exact live_recv d h hq
    | close => exact absurd (by rw [hq]; simp) (h.ok d).open'

theorem live_step {s : S} (h : Live s) {op : Op} (hu : Undisturbed op) : Live (step s op) := by
  unfold step
  rw [if_neg (by simp [h.fine])]
  cases op with
  | submit d c env =>
    dsimp only
    unfold S.submit
    split
    · exact h
    · split
      · exact h
      · refine live_add ?_ hu _
        exact ⟨h.fine, h.ok⟩
  | finish d i v env =>
    dsimp only
    unfold S.finish
    split
    · exact h
    · refine live_add ?_ hu _
      have := live_upd (f := fun x => { x with exec := x.exec.eraseIdx i }) h
        ⟨(h.ok d).io, (h.ok d).open', sendOk_frame (h.ok d).snd rfl rfl rfl rfl, recvOk_frame (h.ok d).rcv rfl rfl rfl rfl⟩
      exact ⟨this.fine, this.ok⟩
  | wrote d => exact live_wrote d h
  | read d => exact live_read d h
  | fail d => exact hu.elim
  | dispatch d env => exact live_dispatch d h hu
  | expireWait d i => exact hu.elim
  | expireSend d i => exact hu.elim
  | retry => simp [S.retry, (h.ok false).io, h]
  | connect env => simp [S.connect, (h.ok false).io, h]

/-! ### What is under way -/

def cmdTok (p : Pkt) : Option (Nat × Nat) := if p.kind = .command then some (p.id, p.c) else none
def repTok (p : Pkt) : Option (Nat × Nat) := if p.kind = .reply then some (p.id, p.c) else none
def repItem : Item → Option (Nat × Nat)
  | .cmd _ => none
  | .reply id c _ => some (id, c)

/-- Numbers and commands of side `d` of which the other side has not yet given the answer, or the answer is on its way. -/
def flight (s : S) (d : Bool) : List (Nat × Nat) :=
  (s.wire d).filterMap cmdTok ++ (s.side (!d)).rbuf.toList.filterMap cmdTok ++ (s.side (!d)).exec ++
    (s.side (!d)).sendq.filterMap repItem ++ (s.wire (!d)).filterMap repTok ++ (s.side d).rbuf.toList.filterMap repTok

def Tok (s : S) : Prop := ∀ d, ∀ w ∈ (s.side d).waitq, w ∈ flight s d

structure Clean (s : S) : Prop where
  wire : ∀ d, ∀ p ∈ s.wire d, p.kind ≠ .cancel
  buf : ∀ d p, (s.side d).rbuf = some p → p.kind ≠ .cancel
  val : ∀ a ∈ s.answers, ∃ v, a.2 = Res.val v

theorem tok_frame {s t : S} (h : Tok s) (h1 : ∀ e, ∀ w ∈ (t.side e).waitq, w ∈ (s.side e).waitq)
    (h2 : ∀ e, ∀ w ∈ flight s e, w ∈ flight t e) : Tok t := fun e w hw => h2 e w (h e w (h1 e w hw))

theorem tok_next1 {s : S} (d : Bool) (h : Tok s) : Tok (s.next1 d) := by
  unfold S.next1
  split
  · exact h
  · rename_i it q hq
    intro e w hw
    have h1 := h e w
    cases it with
    | cmd c =>
      cases d <;> cases e <;>
        simp [S.sent, after, Side.number, flight, pktOf, cmdTok, repTok, repItem, hq, List.filterMap_cons] at * <;>
        grind
    | reply id c v =>
      cases d <;> cases e <;>
        simp [S.sent, after, Side.number, flight, pktOf, cmdTok, repTok, repItem, hq, List.filterMap_cons] at * <;>
        grind

theorem clean_next1 {s : S} (d : Bool) (h : Clean s) : Clean (s.next1 d) := by
  unfold S.next1
  split
  · exact h
  · rename_i it q hq
    refine ⟨?_, ?_, h.val⟩
    · intro e p hp
      by_cases hd : e = d
      · subst hd
        simp only [S.sent, put_same, List.mem_append, List.mem_singleton] at hp
        rcases hp with hp | rfl
        · exact h.wire _ p hp
        · cases it <;> simp [pktOf]
      · simp only [S.sent, put, hd, if_false] at hp
        exact h.wire _ p hp
    · intro e p hp
      refine h.buf e p ?_
      by_cases hd : e = d
      · subst hd
        simp only [S.sent, put_same] at hp
        cases it <;> exact hp
      · simpa only [S.sent, put, hd, if_false] using hp

theorem add_eq {s : S} {d : Bool} {env : Env} (h : Live s) (he : Env.Fine env) (it : Item) :
    s.add d env it = s.upd d (fun x => { x with sendq := x.sendq ++ [it] }) ∧ (s.side d).active = true ∨
    s.add d env it = (s.upd d (fun x => { x with sendq := x.sendq ++ [it] })).next1 d ∧ (s.side d).sendq = [] ∧
      (s.side d).busy = false := by
  have ho := h.ok d
  by_cases ha : (s.side d).active = true
  · exact Or.inl ⟨flush_active (by simpa [S.upd] using ha), ha⟩
  · have ha' : (s.side d).active = false := by simpa using ha
    obtain ⟨_, hb, hq, hn⟩ : _ ∧ (s.side d).busy = false ∧ (s.side d).sendq = [] ∧ (s.side d).evq.count .send = 0 := by
      rcases ho.snd with h1 | ⟨h1, _⟩ | ⟨h1, _⟩
      · exact h1
      · exact absurd h1 ha
      · exact absurd h1 ha
    exact Or.inr ⟨flush_eq he (by simpa [S.upd] using ho.io) (by simpa [S.upd] using ha') (by simpa [S.upd] using hb), hq, hb⟩

theorem tok_add {s : S} {d : Bool} {env : Env} (h : Live s) (he : Env.Fine env) (it : Item)
    (ht : Tok (s.upd d (fun x => { x with sendq := x.sendq ++ [it] }))) : Tok (s.add d env it) := by
  rcases add_eq h he it with ⟨h1, _⟩ | ⟨h1, _⟩ <;> rw [h1]
  · exact ht
  · exact tok_next1 d ht

theorem clean_frame {s t : S} (h : Clean s) (h1 : t.wire = s.wire) (h2 : ∀ e, (t.side e).rbuf = (s.side e).rbuf)
    (h3 : t.answers = s.answers) : Clean t :=
  ⟨fun d p hp => h.wire d p (by rw [← h1]; exact hp), fun d p hp => h.buf d p (by rw [← h2]; exact hp),
    fun a ha => h.val a (by rw [← h3]; exact ha)⟩

theorem upd_rbuf {s : S} {d : Bool} {f : Side → Side} (hf : ∀ x, (f x).rbuf = x.rbuf) (e : Bool) :
    ((s.upd d f).side e).rbuf = (s.side e).rbuf := by
  by_cases hd : e = d
  · subst hd; simp [S.upd, hf]
  · simp [S.upd, put, hd]

theorem clean_add {s : S} {d : Bool} {env : Env} (h : Live s) (he : Env.Fine env) (it : Item) (hc : Clean s) :
    Clean (s.add d env it) := by
  have h2 : Clean (s.upd d (fun x => { x with sendq := x.sendq ++ [it] })) :=
    clean_frame hc rfl (upd_rbuf (fun _ => rfl)) rfl
  rcases add_eq h he it with ⟨h1, _⟩ | ⟨h1, _⟩ <;> rw [h1]
  · exact h2
  · exact clean_next1 d h2

theorem tok_upd {s : S} {d : Bool} {f : Side → Side} (h : Tok s) (h1 : (f (s.side d)).waitq = (s.side d).waitq)
    (h2 : (f (s.side d)).rbuf = (s.side d).rbuf) (h3 : (f (s.side d)).exec = (s.side d).exec)
    (h4 : (f (s.side d)).sendq = (s.side d).sendq) : Tok (s.upd d f) := by
  refine tok_frame h ?_ ?_
  · intro e w hw
    by_cases hd : e = d
    · subst hd; simpa [S.upd, h1] using hw
    · simpa [S.upd, put, hd] using hw
  · intro e w hw
    cases d <;> cases e <;> simp [flight, S.upd, h2, h3, h4] at * <;> exact hw

theorem clean_upd {s : S} {d : Bool} {f : Side → Side} (h : Clean s) (h2 : (f (s.side d)).rbuf = (s.side d).rbuf) :
    Clean (s.upd d f) := by
  refine clean_frame h rfl ?_ rfl
  intro e
  by_cases hd : e = d
  · subst hd; simp [S.upd, h2]
  · simp [S.upd, put, hd]

/-- The numbers of waiting commands are different. -/
def Distinct (s : S) : Prop := ∀ d, (s.side d).waitq.Nodup ∧ ∀ w ∈ (s.side d).waitq, ∀ w' ∈ (s.side d).waitq, w.1 = w'.1 → w = w'

theorem mem_eraseP {l : List (Nat × Nat)} {i : Nat} {w : Nat × Nat} (hn : l.Nodup)
    (hu : ∀ w ∈ l, ∀ w' ∈ l, w.1 = w'.1 → w = w') (hw : w ∈ l.eraseP (fun e => decide (e.1 = i))) : w ∈ l ∧ w.1 ≠ i := by
  induction l with
  | nil => simp at hw
  | cons x t ih =>
    rw [List.nodup_cons] at hn
    rw [List.eraseP_cons, Bool.cond_decide] at hw
    split at hw
    · rename_i hx'
      refine ⟨List.mem_cons_of_mem _ hw, fun hi => hn.1 ?_⟩
      have := hu x (List.mem_cons_self ..) w (List.mem_cons_of_mem _ hw) (by rw [hx', hi])
      rw [this]; exact hw
    · rename_i hx
      rcases List.mem_cons.1 hw with rfl | hw
      · exact ⟨List.mem_cons_self .., by simpa using hx⟩
      · have := ih hn.2 (fun a ha b hb => hu a (List.mem_cons_of_mem _ ha) b (List.mem_cons_of_mem _ hb)) hw
        exact ⟨List.mem_cons_of_mem _ this.1, this.2⟩

theorem tok_recv {s : S} (d : Bool) {q : List Ev} (h : Live s) (ht : Tok s) (hc : Clean s) (hd : Distinct s)
    (hq : (s.side d).evq = .recv :: q) : Tok ((s.upd d (fun x => { x with evq := q })).recv d) := by
  have ho := h.ok d
  obtain ⟨h1, h2, h3⟩ := recvOk_dispatch ho.rcv hq
  unfold S.recv
  rcases h3 with ⟨h3, h4, h5⟩ | ⟨h3, p, h4⟩
  · simp only [S.upd, put_same, h3, ho.io, if_true]
    rw [put_put]
    exact tok_upd (f := fun x => { x with io := true, stage := .data, rstart := true, evq := q }) ht rfl rfl rfl rfl
  · have hk := hc.buf d p h4
    simp only [S.upd, put_same, h3, h4, put_put]
    unfold S.handle S.again
    cases hk' : p.kind with
    | cancel => exact absurd hk' hk
    | command =>
      dsimp only
      rw [if_pos (by simp [S.upd, ho.io])]
      intro e w hw
      have := ht e w
      cases d <;> cases e <;>
        simp [S.upd, flight, cmdTok, repTok, h4, hk', List.filterMap_cons] at * <;> grind
    | reply =>
      dsimp only
      unfold S.answer
      split
      · rename_i hn
        rw [if_pos (by simp [ho.io])]
        intro e w hw
        have := ht e w
        rw [List.find?_eq_none] at hn
        cases d <;> cases e <;>
          simp [S.upd, flight, cmdTok, repTok, h4, hk', List.filterMap_cons] at * <;> grind
      · rename_i x hn
        rw [if_pos (by simp [S.upd, ho.io])]
        intro e w hw
        have := ht e w
        have hme := fun (hw' : w ∈ (s.side d).waitq.eraseP (fun e => decide (e.1 = p.id))) => mem_eraseP (hd d).1 (hd d).2 hw'
        cases d <;> cases e <;>
          simp [S.upd, flight, cmdTok, repTok, h4, hk', List.filterMap_cons] at * <;> grind

theorem clean_recv {s : S} (d : Bool) {q : List Ev} (h : Live s) (hc : Clean s)
    (hq : (s.side d).evq = .recv :: q) : Clean ((s.upd d (fun x => { x with evq := q })).recv d) := by
  have ho := h.ok d
  obtain ⟨h1, h2, h3⟩ := recvOk_dispatch ho.rcv hq
  unfold S.recv
  rcases h3 with ⟨h3, h4, h5⟩ | ⟨h3, p, h4⟩
  · simp only [S.upd, put_same, h3, ho.io, if_true]
    rw [put_put]
    exact clean_upd (f := fun x => { x with io := true, stage := .data, rstart := true, evq := q }) hc rfl
  · have hk := hc.buf d p h4
    simp only [S.upd, put_same, h3, h4, put_put]
    unfold S.handle S.again
    have key : ∀ t : S, t.wire = s.wire → (∀ e, (t.side e).rbuf = if e = d then none else (s.side e).rbuf) →
        (∀ a ∈ t.answers, ∃ v, a.2 = Res.val v) → Clean t := by
      intro t t1 t2 t3
      refine ⟨fun e p' hp' => hc.wire e p' (by rw [← t1]; exact hp'), fun e p' hp' => ?_, t3⟩
      rw [t2] at hp'
      split at hp'
      · cases hp'
      · exact hc.buf e p' hp'
    cases hk' : p.kind with
    | cancel => exact absurd hk' hk
    | command =>
      dsimp only
      rw [if_pos (by simp [S.upd, ho.io])]
      refine key _ rfl ?_ hc.val
      intro e
      by_cases hde : e = d <;> simp [S.upd, put, hde]
    | reply =>
      dsimp only
      unfold S.answer
      split
      · rw [if_pos (by simp [ho.io])]
        refine key _ rfl ?_ hc.val
        intro e
        by_cases hde : e = d <;> simp [S.upd, put, hde]
      · rename_i x hn
        rw [if_pos (by simp [S.upd, ho.io])]
        refine key _ rfl ?_ ?_
        · intro e
          by_cases hde : e = d <;> simp [S.upd, put, hde]
        · intro a ha
          simp only [S.upd, List.mem_append, List.mem_singleton] at ha
          rcases ha with ha | rfl
          · exact hc.val a ha
          · exact ⟨p.v, by simp [hk']⟩

theorem tok_step {s : S} (h : Live s) (ht : Tok s) (hc : Clean s) (hd : Distinct s) {op : Op} (hu : Undisturbed op) :
    Tok (step s op) := by
  unfold step
  rw [if_neg (by simp [h.fine])]
  cases op with
  | submit d c env =>
    dsimp only
    unfold S.submit
    split
    · exact ht
    · split
      · exact ht
      · refine tok_add ?_ hu _ ?_
        · exact ⟨h.fine, h.ok⟩
        · intro e w hw
          have := ht e w
          cases d <;> cases e <;> simp [S.upd, flight, repItem, List.filterMap_cons] at * <;> grind
  | finish d i v env =>
    dsimp only
    unfold S.finish
    split
    · exact ht
    · rename_i x hx
      refine tok_add ?_ hu _ ?_
      · have := live_upd (f := fun x => { x with exec := x.exec.eraseIdx i }) h
          ⟨(h.ok d).io, (h.ok d).open', sendOk_frame (h.ok d).snd rfl rfl rfl rfl, recvOk_frame (h.ok d).rcv rfl rfl rfl rfl⟩
        exact ⟨this.fine, this.ok⟩
      · intro e w hw
        have := ht e w
        have hm : w ∈ (s.side d).exec → w = x ∨ w ∈ (s.side d).exec.eraseIdx i := by
          intro hm
          obtain ⟨j, hj, rfl⟩ := List.getElem_of_mem hm
          obtain ⟨hi, rfl⟩ := List.getElem?_eq_some_iff.1 hx
          by_cases hij : j = i
          · subst hij; exact Or.inl rfl
          · exact Or.inr (List.mem_eraseIdx_iff_getElem.2 ⟨j, hj, hij, rfl⟩)
        cases d <;> cases e <;> simp [S.upd, flight, repItem, List.filterMap_cons] at * <;> grind
  | wrote d =>
    dsimp only
    unfold S.wrote
    split
    · exact tok_upd ht rfl rfl rfl rfl
    · exact ht
  | read d =>
    dsimp only
    unfold S.read
    have ho := h.ok d
    split
    · rename_i hc
      simp only [Bool.and_eq_true] at hc
      have hr1 : (s.side d).rbuf = none := by
        rcases ho.rcv with ⟨_, _, h2, _⟩ | ⟨h2, _⟩
        · exact h2
        · rw [hc.2] at h2; cases h2
      cases hw : s.wire (!d) with
      | nil => exact ht
      | cons p w =>
        dsimp only
        split
        · intro e x hx
          have := ht e x
          cases d <;> cases e <;> simp [S.upd, flight, cmdTok, repTok, hw, hr1, List.filterMap_cons] at * <;> grind
        · exact tok_upd ht rfl rfl rfl rfl
    · exact ht
  | fail d => exact hu.elim
  | dispatch d env =>
    dsimp only
    cases hq : (s.side d).evq with
    | nil => simp only [S.dispatch, hq]; exact ht
    | cons e q =>
      cases e with
      | send =>
        rw [dispatch_send h hu hq]
        exact tok_next1 d (tok_upd ht rfl rfl rfl rfl)
      | recv => simp only [S.dispatch, hq]; exact tok_recv d h ht hc hd hq
      | close => exact absurd (by rw [hq]; simp) (h.ok d).open'
  | expireWait d i => exact hu.elim
  | expireSend d i => exact hu.elim
  | retry => simp [S.retry, (h.ok false).io, ht]
  | connect env => simp [S.connect, (h.ok false).io, ht]

theorem clean_step {s : S} (h : Live s) (hc : Clean s) {op : Op} (hu : Undisturbed op) :
    Clean (step s op) := by
  unfold step
  rw [if_neg (by simp [h.fine])]
  cases op with
  | submit d c env =>
    dsimp only
    unfold S.submit
    split
    · exact hc
    · split
      · exact hc
      · refine clean_add ?_ hu _ ?_
        · exact ⟨h.fine, h.ok⟩
        · exact ⟨hc.wire, hc.buf, hc.val⟩
  | finish d i v env =>
    dsimp only
    unfold S.finish
    split
    · exact hc
    · rename_i x hx
      refine clean_add ?_ hu _ ?_
      · have := live_upd (f := fun x => { x with exec := x.exec.eraseIdx i }) h
          ⟨(h.ok d).io, (h.ok d).open', sendOk_frame (h.ok d).snd rfl rfl rfl rfl, recvOk_frame (h.ok d).rcv rfl rfl rfl rfl⟩
        exact ⟨this.fine, this.ok⟩
      · have := clean_upd (d := d) (f := fun x => { x with exec := x.exec.eraseIdx i }) hc rfl
        exact ⟨this.wire, this.buf, this.val⟩
  | wrote d =>
    dsimp only
    unfold S.wrote
    split
    · exact clean_upd hc rfl
    · exact hc
  | read d =>
    dsimp only
    unfold S.read
    split
    · cases hw : s.wire (!d) with
      | nil => exact hc
      | cons p w =>
        dsimp only
        split
        · refine ⟨?_, ?_, hc.val⟩
          · intro e x hx
            by_cases he : e = !d
            · subst he
              simp only [S.upd, put_same] at hx
              exact hc.wire _ x (by rw [hw]; exact List.mem_cons_of_mem _ hx)
            · simp only [S.upd, put, he, if_false] at hx
              exact hc.wire _ x hx
          · intro e x hx
            by_cases he : e = d
            · subst he
              simp only [S.upd, put_same, Option.some.injEq] at hx
              subst hx
              exact hc.wire _ p (by rw [hw]; simp)
            · simp only [S.upd, put, he, if_false] at hx
              exact hc.buf _ x hx
        · exact clean_upd hc rfl
    · exact hc
  | fail d => exact hu.elim
  | dispatch d env =>
    dsimp only
    cases hq : (s.side d).evq with
    | nil => simp only [S.dispatch, hq]; exact hc
    | cons e q =>
      cases e with
      | send =>
        rw [dispatch_send h hu hq]
        exact clean_next1 d (clean_upd hc rfl)
      | recv => simp only [S.dispatch, hq]; exact clean_recv d h hc hq
      | close => exact absurd (by rw [hq]; simp) (h.ok d).open'
  | expireWait d i => exact hu.elim
  | expireSend d i => exact hu.elim
  | retry => simp [S.retry, (h.ok false).io, hc]
  | connect env => simp [S.connect, (h.ok false).io, hc]

/-! ### Steps come to an end -/

def Item.cost : Item → Nat
  | .cmd _ => 15
  | .reply .. => 7

def Pkt.cost (p : Pkt) : Nat := if p.kind = .command then 12 else 4

def Side.wait (x : Side) : Nat :=
  match x.stage with
  | .init => 0
  | .header => if x.rstart then 4 else 3
  | .data => if x.rstart then 2 else 1

def Side.cost (x : Side) : Nat :=
  (x.sendq.map Item.cost).sum + 8 * x.exec.length + (if x.busy then 2 else 0) + x.evq.count .send + x.wait +
    (x.rbuf.toList.map Pkt.cost).sum

def cost (s : S) : Nat :=
  (s.side false).cost + (s.side true).cost + ((s.wire false).map Pkt.cost).sum + ((s.wire true).map Pkt.cost).sum

theorem cost_upd (s : S) (d : Bool) (f : Side → Side) :
    cost (s.upd d f) + (s.side d).cost = cost s + (f (s.side d)).cost := by
  cases d <;> simp [cost, S.upd] <;> omega

theorem cost_upd' {s : S} {d : Bool} {f : Side → Side} {a b : Nat} (h : (f (s.side d)).cost + a = (s.side d).cost + b) :
    cost (s.upd d f) + a = cost s + b := by
  have := cost_upd s d f
  omega

theorem cost_next1 {s : S} {d : Bool} (hb : (s.side d).busy = false) :
    s.next1 d = s ∨ cost (s.next1 d) + 1 = cost s := by
  unfold S.next1
  split
  · exact Or.inl rfl
  · rename_i it q hq
    right
    cases it <;> cases d <;>
      simp [cost, S.sent, after, pktOf, Side.cost, Side.number, Side.wait, Pkt.cost, Item.cost, hq, hb] at * <;> omega

theorem cost_next1_cons {s : S} {d : Bool} (hb : (s.side d).busy = false) {it : Item} {q : List Item}
    (hq : (s.side d).sendq = it :: q) : cost (s.next1 d) + 1 = cost s := by
  unfold S.next1
  rw [hq]
  cases it <;> cases d <;>
      simp [cost, S.sent, after, pktOf, Side.cost, Side.number, Side.wait, Pkt.cost, Item.cost, hq, hb] at * <;> omega

theorem cost_add {s : S} {d : Bool} {env : Env} (h : Live s) (he : Env.Fine env) (it : Item) :
    cost (s.add d env it) ≤ cost s + it.cost := by
  have h0 := cost_upd' (s := s) (d := d) (f := fun x => { x with sendq := x.sendq ++ [it] }) (a := 0) (b := it.cost)
    (by simp [Side.cost, Side.wait]; omega)
  rcases add_eq h he it with ⟨h1, _⟩ | ⟨h1, _, hb⟩ <;> rw [h1]
  · omega
  · rcases cost_next1 (s := s.upd d (fun x => { x with sendq := x.sendq ++ [it] })) (d := d)
      (by simpa [S.upd] using hb) with h2 | h2
    · rw [h2]; omega
    · omega

theorem cost_recv {s : S} (d : Bool) {q : List Ev} (h : Live s) (hc : Clean s) (hq : (s.side d).evq = .recv :: q) :
    cost ((s.upd d (fun x => { x with evq := q })).recv d) < cost s := by
  have ho := h.ok d
  obtain ⟨h1, h2, h3⟩ := recvOk_dispatch ho.rcv hq
  unfold S.recv
  rcases h3 with ⟨h3, h4, h5⟩ | ⟨h3, p, h4⟩
  · cases d <;> simp [cost, S.upd, Side.cost, Side.wait, h1, h3, ho.io, hq] <;> omega
  · have hk := hc.buf d p h4
    simp only [S.upd, put_same, h3, h4, put_put]
    unfold S.handle S.again
    cases hk' : p.kind with
    | cancel => exact absurd hk' hk
    | command =>
      dsimp only
      rw [if_pos (by simp [S.upd, ho.io])]
      cases d <;> simp [cost, S.upd, Side.cost, Side.wait, Pkt.cost, h1, h3, h4, hk', hq] <;> omega
    | reply =>
      dsimp only
      unfold S.answer
      split
      · rw [if_pos (by simp [ho.io])]
        cases d <;> simp [cost, S.upd, Side.cost, Side.wait, Pkt.cost, h1, h3, h4, hk', hq] <;> omega
      · rw [if_pos (by simp [S.upd, ho.io])]
        cases d <;> simp [cost, S.upd, Side.cost, Side.wait, Pkt.cost, h1, h3, h4, hk', hq] <;> omega

/-- Each step of a connected channel which is not a new command brings it nearer to rest. -/
theorem cost_step {s : S} (h : Live s) (hc : Clean s) {op : Op} (hu : Undisturbed op) (hn : NoSubmit op) :
    step s op = s ∨ cost (step s op) < cost s := by
  unfold step
  rw [if_neg (by simp [h.fine])]
  cases op with
  | submit d c env => exact hn.elim
  | finish d i v env =>
    dsimp only
    unfold S.finish
    split
    · exact Or.inl rfl
    · rename_i x hx
      right
      have hl : Live (s.upd d (fun x => { x with exec := x.exec.eraseIdx i })) :=
        live_upd h ⟨(h.ok d).io, (h.ok d).open', sendOk_frame (h.ok d).snd rfl rfl rfl rfl,
          recvOk_frame (h.ok d).rcv rfl rfl rfl rfl⟩
      have hl' : Live { s.upd d (fun x => { x with exec := x.exec.eraseIdx i }) with finished := s.finished ++ [(x.2, v)] } :=
        ⟨hl.fine, hl.ok⟩
      refine Nat.lt_of_le_of_lt (cost_add hl' hu _) ?_
      obtain ⟨hi, _⟩ := List.getElem?_eq_some_iff.1 hx
      have h1 := cost_upd' (s := s) (d := d) (f := fun x => { x with exec := x.exec.eraseIdx i }) (a := 8) (b := 0)
        (by simp [Side.cost, Side.wait, List.length_eraseIdx, hi]; omega)
      show cost (s.upd d (fun x => { x with exec := x.exec.eraseIdx i })) + 7 < cost s
      omega
  | wrote d =>
    dsimp only
    unfold S.wrote
    split
    · rename_i hb
      simp only [Bool.and_eq_true] at hb
      right
      cases d <;> simp [cost, S.upd, Side.cost, Side.wait, hb.2] <;> omega
    · exact Or.inl rfl
  | read d =>
    dsimp only
    unfold S.read
    have ho := h.ok d
    split
    · rename_i hc
      simp only [Bool.and_eq_true] at hc
      obtain ⟨hr1, hr2⟩ : (s.side d).rbuf = none ∧ ((s.side d).stage = .header ∨ (s.side d).stage = .data) := by
        rcases ho.rcv with ⟨_, _, h2, h3 | ⟨h3, _⟩⟩ | ⟨h2, _⟩
        · exact ⟨h2, Or.inl h3⟩
        · exact ⟨h2, Or.inr h3⟩
        · rw [hc.2] at h2; cases h2
      cases hw : s.wire (!d) with
      | nil => exact Or.inl rfl
      | cons p w =>
        right
        rcases hr2 with hr2 | hr2
        · cases d <;> simp [cost, S.upd, Side.cost, Side.wait, hr1, hr2, hc.2] <;> omega
        · cases d <;> simp at hw <;> simp [cost, S.upd, Side.cost, Side.wait, hr1, hr2, hc.2, hw] <;> omega
    · exact Or.inl rfl
  | fail d => exact hu.elim
  | dispatch d env =>
    dsimp only
    cases hq : (s.side d).evq with
    | nil => left; simp only [S.dispatch, hq]
    | cons e q =>
      right
      cases e with
      | send =>
        rw [dispatch_send h hu hq]
        have hr := ready_dispatch h hq
        have h1 := cost_upd' (s := s) (d := d) (f := fun x => { x with evq := q, active := false }) (a := 1) (b := 0)
          (by simp [Side.cost, Side.wait, hq]; omega)
        rcases cost_next1 hr.busy with h3 | h3
        · rw [h3]; omega
        · omega
      | recv => simp only [S.dispatch, hq]; exact cost_recv d h hc hq
      | close => exact absurd (by rw [hq]; simp) (h.ok d).open'
  | expireWait d i => exact hu.elim
  | expireSend d i => exact hu.elim
  | retry => left; simp [S.retry, (h.ok false).io]
  | connect env => left; simp [S.connect, (h.ok false).io]

theorem fine_default : Env.Fine {} := fun _ => ⟨rfl, rfl, rfl⟩

/-- While anything is under way some step can be done. -/
theorem moves {s : S} (h : Live s) (hc : Clean s) (hq : ¬ Quiet s) :
    ∃ op, Undisturbed op ∧ NoSubmit op ∧ step s op ≠ s := by
  refine Classical.byContradiction fun hno => ?_
  have none : ∀ op, Undisturbed op → NoSubmit op → ¬ cost (step s op) < cost s := by
    intro op hu hn hlt
    refine hno ⟨op, hu, hn, fun he => ?_⟩
    rw [he] at hlt
    omega
  apply hq
  have hstep : ∀ op, step s op = match op with
    | .submit d c env => s.submit d c env
    | .finish d i v env => s.finish d i v env
    | .wrote d => s.wrote d
    | .read d => s.read d
    | .fail d => s.fail d
    | .dispatch d env => s.dispatch d env
    | .expireWait d i => s.expireWait d i
    | .expireSend d i => s.expireSend d i
    | .retry => s.retry
    | .connect env => s.connect env := by
    intro op; unfold step; rw [if_neg (by simp [h.fine])]; cases op <;> rfl
  have hev : ∀ d, (s.side d).evq = [] := by
    intro d
    cases he : (s.side d).evq with
    | nil => rfl
    | cons e q =>
      exfalso
      refine none (.dispatch d {}) fine_default trivial ?_
      rcases cost_step h hc (op := .dispatch d {}) fine_default trivial with h1 | h1
      · exfalso
        have h2 := congrArg (fun t => (t.side d).evq.length) h1
        rw [hstep] at h2
        dsimp only at h2
        cases e with
        | send =>
          rw [dispatch_send h fine_default he] at h2
          unfold S.next1 at h2
          split at h2
          · simp [S.upd, he] at h2
          · rename_i it q' hq'
            cases it <;> simp [S.sent, S.upd, after, Side.number, he] at h2
        | recv =>
          have hlt := cost_recv d h hc he
          have : s.dispatch d {} = (s.upd d (fun x => { x with evq := q })).recv d := by simp only [S.dispatch, he]
          rw [← this] at hlt
          rw [hstep] at h1
          dsimp only at h1
          rw [h1] at hlt
          omega
        | close => exact absurd (by rw [he]; simp) (h.ok d).open'
      · exact h1
  have hb : ∀ d, (s.side d).busy = false := by
    intro d
    cases hb : (s.side d).busy with
    | false => rfl
    | true =>
      exfalso
      refine none (.wrote d) trivial trivial ?_
      rw [hstep]
      have := (h.ok d).io
      cases d <;> simp [S.wrote, this, hb, cost, S.upd, Side.cost, Side.wait] <;> omega
  intro d
  refine ⟨?_, ?_, ?_, hev d⟩
  · rcases (h.ok d).snd with ⟨_, _, h1, _⟩ | ⟨_, h1, _⟩ | ⟨_, _, h1⟩
    · exact h1
    · rw [hb d] at h1; cases h1
    · simp [hev d] at h1
  · cases hw : s.wire d with
    | nil => rfl
    | cons p w =>
      exfalso
      refine none (.read (!d)) trivial trivial ?_
      rcases cost_step h hc (op := .read (!d)) trivial trivial with h1 | h1
      · exfalso
        have h2 := congrArg (fun t => (t.side (!d)).evq.length) h1
        rw [hstep] at h2
        dsimp only at h2
        have hr : (s.side (!d)).rstart = true := by
          rcases (h.ok (!d)).rcv with ⟨h3, _⟩ | ⟨_, h3, _⟩
          · exact h3
          · simp [hev (!d)] at h3
        unfold S.read at h2
        rw [if_pos (by simp [(h.ok (!d)).io, hr]), Bool.not_not, hw] at h2
        dsimp only at h2
        split at h2 <;> simp [S.upd] at h2
      · exact h1
  · cases hx : (s.side d).exec with
    | nil => rfl
    | cons x l =>
      exfalso
      refine none (.finish d 0 0 {}) fine_default trivial ?_
      rcases cost_step h hc (op := .finish d 0 0 {}) fine_default trivial with h1 | h1
      · exfalso
        have h2 := congrArg (fun t => t.finished.length) h1
        rw [hstep] at h2
        dsimp only at h2
        simp only [S.finish, hx, List.getElem?_cons_zero] at h2
        have : ∀ (t : S) (it : Item), (t.add d {} it).finished = t.finished := by
          intro t it
          unfold S.add S.flush
          have hgen : ∀ n (t : S), (S.drain d {} n t).finished = t.finished := by
            intro n
            induction n with
            | zero => intro t; rfl
            | succ n ih =>
              intro t
              unfold S.drain
              split
              · rfl
              · split
                · rfl
                · rw [ih]
                  rename_i it _ _
                  cases it <;> simp [S.send, S.start, S.close, S.upd] <;> (split <;> first | rfl | (cases d <;> rfl))
          rw [hgen]; rfl
        rw [this] at h2
        simp at h2
      · exact h1

/-! ### Before the first connection -/

structure Idle (s : S) : Prop where
  fine : s.crashed = false
  io : ∀ d, (s.side d).io = false
  active : (s.side false).active = true
  evq : ∀ d, (s.side d).evq = []
  waitq : ∀ d, (s.side d).waitq = []
  exec : ∀ d, (s.side d).exec = []
  rbuf : ∀ d, (s.side d).rbuf = none
  items : ∀ it ∈ (s.side false).sendq, ∃ c, it = .cmd c
  sendq : (s.side true).sendq = []
  wire : ∀ d, s.wire d = []
  answers : s.answers = []

theorem idle_init : Idle {} := by
  refine ⟨rfl, ?_, rfl, ?_, ?_, ?_, ?_, ?_, rfl, ?_, rfl⟩ <;> simp

theorem idle_step {s : S} (h : Idle s) {op : Op} (hu : Undisturbed op) :
    Idle (step s op) ∨ (Live (step s op) ∧ Tok (step s op) ∧ Clean (step s op)) := by
  unfold step
  rw [if_neg (by simp [h.fine])]
  cases op with
  | submit d c env =>
    left
    dsimp only
    unfold S.submit
    split
    · exact h
    · split
      · exact h
      · rename_i hd
        have hd' : d = false := by
          cases d
          · rfl
          · exact absurd (by simp [h.io true]) hd
        subst hd'
        unfold S.add
        rw [flush_active (by simpa [S.upd] using h.active)]
        refine ⟨h.fine, ?_, ?_, ?_, ?_, ?_, ?_, ?_, ?_, h.wire, h.answers⟩
        · intro e; cases e <;> simp [S.upd, h.io]
        · simp [S.upd, h.active]
        · intro e; cases e <;> simp [S.upd, h.evq]
        · intro e; cases e <;> simp [S.upd, h.waitq]
        · intro e; cases e <;> simp [S.upd, h.exec]
        · intro e; cases e <;> simp [S.upd, h.rbuf]
        · intro it hit
          simp only [S.upd, put_same, List.mem_append, List.mem_singleton] at hit
          rcases hit with hit | rfl
          · exact h.items it hit
          · exact ⟨c, rfl⟩
        · simp [S.upd, put, h.sendq]
  | finish d i v env => left; simp [S.finish, h.exec, h]
  | wrote d => left; simp [S.wrote, h.io, h]
  | read d => left; simp [S.read, h.io, h]
  | fail d => exact hu.elim
  | dispatch d env => left; simp [S.dispatch, h.evq, h]
  | expireWait d i => exact hu.elim
  | expireSend d i => exact hu.elim
  | retry =>
    left
    dsimp only
    unfold S.retry
    split
    · exact h
    · refine ⟨h.fine, ?_, ?_, ?_, ?_, ?_, ?_, ?_, ?_, h.wire, h.answers⟩
      · intro e; cases e <;> simp [S.upd, h.io]
      · simp [S.upd, h.active]
      · intro e; cases e <;> simp [S.upd, h.evq]
      · intro e; cases e <;> simp [S.upd, h.waitq]
      · intro e; cases e <;> simp [S.upd, h.exec]
      · intro e; cases e <;> simp [S.upd, h.rbuf]
      · intro it hit; exact h.items it (by simpa [S.upd] using hit)
      · simp [S.upd, put, h.sendq]
  | connect env =>
    dsimp only
    unfold S.connect
    split
    · right
      rw [flush_eq hu (by simp [S.joined]) (by simp [S.joined]) (by simp [S.joined])]
      refine ⟨live_next1 ⟨?_, ?_, ?_, ?_, ?_, ?_, ?_, ?_⟩, tok_next1 _ ?_, clean_next1 _ ⟨?_, ?_, ?_⟩⟩
      · simp [S.joined, S.close, h.fine]
      · simp [S.joined]
      · simp [S.joined]
      · simp [S.joined]
      · simp [S.joined, S.close, put, h.evq]
      · simp [S.joined, S.close, put, h.evq]
      · exact Or.inl ⟨by simp [S.joined], by simp [S.joined, S.close, put, h.evq], by simp [S.joined],
          Or.inl (by simp [S.joined])⟩
      · refine ⟨by simp [S.joined, put], by simp [S.joined, put], Or.inl ⟨?_, ?_, ?_, ?_⟩, Or.inl ⟨?_, ?_, ?_, Or.inl ?_⟩⟩ <;>
          simp [S.joined, put]
      · intro e w hw
        cases e <;> simp [S.joined, S.close, put, h.waitq] at hw
      · intro e p hp; simp [S.joined] at hp
      · intro e p hp; cases e <;> simp [S.joined, put] at hp
      · intro a ha; simp [S.joined, S.close, h.answers, h.waitq, h.sendq] at ha
    · exact Or.inl h

end Verif.SockCmd
