import Verif.Spec.AsyncLoop
import Verif.LocalTransportWake

/-!
# Invariant of the event loops of an asynchronous module
-/

namespace Verif.AsyncLoop
open Verif.LocalTransport Verif.AsyncLoop.Spec
variable {β : Type}

local notation "LT" => LocalTransport.LT

/-- Invariant of the connection, from C25. -/
def Sig (sd : Side) (k : Kind) (h : List (Rec β)) (s : LT β) : Prop := match sd with | .inp => InpInv k h s | .out => OutInv k h s

/-- There is something to do. -/
def work (sd : Side) (s : LT β) : Prop := match sd with | .inp => 0 < s.queue.size | .out => s.queue.size < s.queue.cap

/-- If there is something to do, then an event is on its way. -/
def Wake (sd : Side) (h : List (Rec β)) (s : LT β) : Prop := work sd s → 0 < pend sd h

/-- Operations allowed after the start. -/
def keeps (sd : Side) (op : Op β) : Bool := match sd with | .inp => keepsInp op | .out => keepsOut op

theorem sig_step {cap sd k} (hc : 0 < cap) (hk : k = .confirm ∨ k = .operation) {h : List (Rec β)} {s s' : LT β} {op o w} (d : Data cap h s) (i : Sig sd k h s)
    (hg : keeps sd op = true) (hs : step s op = some (o, w, s')) : Sig sd k (h ++ [⟨op, o, w⟩]) s' := by
  cases sd with
  | inp => exact inp_step hk d i hg hs
  | out => exact out_step hc hk d i hg hs

theorem keeps_env {sd : Side} {op : Op β} (h : own sd op = false) : keeps sd op = true := by
  cases sd <;> cases op <;> simp [own, inpSide, outSide, keeps, keepsInp, keepsOut] at *
  all_goals (rename_i b; cases b <;> simp [inpSide, outSide, keepsInp, keepsOut] at *)

theorem keeps_user {sd : Side} {op : Op β} (h : uses sd op = true) : keeps sd op = true := by
  cases sd <;> cases op <;> simp [uses, keeps, keepsInp, keepsOut] at *

theorem uses_look (sd : Side) : uses sd (lookOp sd : Op β) = true := by cases sd <;> rfl

/-- Only the module itself takes events. -/
theorem pend_mono {sd : Side} {h : List (Rec β)} {op : Op β} {o w} (hn : uses sd op = true) :
    pend sd h ≤ pend sd (h ++ [⟨op, o, w⟩]) := by
  cases sd with
  | inp =>
    change pendingInp h ≤ pendingInp _
    rw [pendingInp_snoc]
    cases op <;> simp [uses] at *
  | out =>
    change pendingOut h ≤ pendingOut _
    rw [pendingOut_snoc]
    cases op <;> simp [uses] at *

/-- A record of a look at the port which found nothing to do. -/
def seen (sd : Side) : Rec β := ⟨lookOp sd, .num 0, []⟩

theorem data_seen {cap sd} {h : List (Rec β)} {s : LT β} (d : Data cap h s) : Data cap (h ++ [seen sd]) s := by
  have hw : waiting (h ++ [seen sd]) = waiting h := by
    cases sd <;> simp [waiting, sent, gone, seen, lookOp, Rec.sent, Rec.received, Rec.skipped, Rec.cleared]
  have hs : sent (h ++ [seen sd]) = sent h := by
    cases sd <;> simp [sent, seen, lookOp, Rec.sent]
  have hg : gone (h ++ [seen sd]) = gone h := by
    cases sd <;> simp [gone, seen, lookOp, Rec.received, Rec.skipped, Rec.cleared]
  refine ⟨by rw [hw]; exact d.rep, d.size, by rw [hs, hg, hw]; exact d.fifo, ?_, ?_, ?_⟩
  · rw [← d.inp]; cases sd <;> simp [linked, seen, lookOp]
  · rw [← d.out]; cases sd <;> simp [linked, seen, lookOp]
  · rw [← d.fl]; cases sd <;> simp [flags, seen, lookOp]

theorem pend_seen (sd : Side) (h : List (Rec β)) : pend sd (h ++ [seen sd]) = pend sd h := by
  cases sd with
  | inp => change pendingInp _ = pendingInp h; rw [seen, pendingInp_snoc]; rfl
  | out => change pendingOut _ = pendingOut h; rw [seen, pendingOut_snoc]; rfl

theorem pend_congr {sd : Side} {h g : List (Rec β)} {r : Rec β} (e : pend sd h = pend sd g) : pend sd (h ++ [r]) = pend sd (g ++ [r]) := by
  obtain ⟨op, o, w⟩ := r
  cases sd with
  | inp =>
    have e : pendingInp h = pendingInp g := e
    change pendingInp _ = pendingInp _
    rw [pendingInp_snoc, pendingInp_snoc, e]
  | out =>
    have e : pendingOut h = pendingOut g := e
    change pendingOut _ = pendingOut _
    rw [pendingOut_snoc, pendingOut_snoc, e]

theorem sig_seen {sd k} {h : List (Rec β)} {s : LT β} (i : Sig sd k h s) (hw : Wake sd h s) : Sig sd k (h ++ [seen sd]) s := by
  have hp := pend_seen sd h
  cases sd with
  | inp =>
    have i : InpInv k h s := i
    have hp : pendingInp (h ++ [seen .inp]) = pendingInp h := hp
    exact ⟨i.set, i.conn, i.kind, i.rng, i.conf, fun x => by rw [hp]; exact i.one x, i.two, fun _ x => by rw [hp]; exact hw x⟩
  | out =>
    have i : OutInv k h s := i
    have hp : pendingOut (h ++ [seen .out]) = pendingOut h := hp
    exact ⟨i.set, i.conn, i.kind, i.rng, i.conf, fun x => by rw [hp]; exact i.one x, i.two, fun _ x => by rw [hp]; exact hw x⟩

/-- Operations of other threads keep the promise of an event. -/
theorem wake_env {cap sd k} (hc : 0 < cap) (hk : k = .confirm ∨ k = .operation) {h : List (Rec β)} {s s' : LT β} {op o w} (d : Data cap h s) (i : Sig sd k h s)
    (hw : Wake sd h s) (hn : own sd op = false) (hs : step s op = some (o, w, s')) : Wake sd (h ++ [⟨op, o, w⟩]) s' := by
  have i2 := sig_step hc hk (data_seen d) (sig_seen i hw) (keeps_env hn) hs
  intro hwork
  rw [← pend_congr (pend_seen sd h)]
  cases sd with
  | inp =>
    refine InpInv.wait i2 ?_ hwork
    rw [receiverWaits_snoc]
    cases op <;> simp [own, inpSide] at * <;> simp [seen, lookOp, receiverWaits]
  | out =>
    refine OutInv.wait i2 ?_ hwork
    rw [senderWaits_snoc]
    cases op <;> simp [own, outSide] at * <;> simp [seen, lookOp, senderWaits]

/-- Operations of user code keep the promise of an event. -/
theorem wake_user {cap sd} {h : List (Rec β)} {s s' : LT β} {op : Op β} {o w} (d : Data cap h s)
    (hw : Wake sd h s) (hu : uses sd op = true) (hs : step s op = some (o, w, s')) : Wake sd (h ++ [⟨op, o, w⟩]) s' := by
  intro hwork
  refine Nat.lt_of_lt_of_le (hw ?_) (pend_mono hu)
  cases sd with
  | inp =>
    have hwork : 0 < s'.queue.size := hwork
    change 0 < s.queue.size
    cases op with
    | recv =>
      simp only [step, Option.bind_eq_bind, Option.bind_eq_some_iff] at hs
      obtain ⟨⟨b, w', s''⟩, e, hs⟩ := hs
      cases hs
      obtain ⟨q, e1, -, e3, -⟩ := recv_cases d e
      have : s''.queue = q := by rw [show s'' = (recvTail { s with queue := q }).2 from congrArg Prod.snd e1]; rfl
      rw [this, e3] at hwork; omega
    | canRecv =>
      simp only [step, Option.some.injEq, Prod.mk.injEq] at hs
      obtain ⟨-, -, rfl⟩ := hs; exact hwork
    | signalWhenFull =>
      simp only [step, Option.some.injEq, Prod.mk.injEq] at hs
      obtain ⟨-, -, rfl⟩ := hs
      have : (signalWhenFull s).2.queue = s.queue := by unfold signalWhenFull; split <;> rfl
      rw [this] at hwork; exact hwork
    | _ => cases hu
  | out =>
    have hwork : s'.queue.size < s'.queue.cap := hwork
    change s.queue.size < s.queue.cap
    cases op with
    | send b =>
      simp only [step, Option.bind_eq_bind, Option.bind_eq_some_iff] at hs
      obtain ⟨⟨b', w', s''⟩, e, hs⟩ := hs
      cases hs
      cases b with
      | none => simp only [send, Option.some.injEq, Prod.mk.injEq] at e; obtain ⟨-, -, rfl⟩ := e; exact hwork
      | some b =>
        obtain ⟨q, e1, e2, -, e4⟩ := send_cases d e
        have : s''.queue = q := by
          rw [show s'' = (sendTail { s with queue := q }).2 from congrArg Prod.snd e1]
          unfold sendTail; dsimp only; split <;> rfl
        rw [this, e2] at hwork; omega
    | canSend =>
      simp only [step, Option.some.injEq, Prod.mk.injEq] at hs
      obtain ⟨-, -, rfl⟩ := hs; exact hwork
    | _ => cases hu

/-- A look which finds nothing to do. -/
theorem not_work {sd} {s s' : LT β} {o : Out β} {w} (hs : step s (lookOp sd) = some (o, w, s')) (hr : ready o = false) : ¬ work sd s' := by
  cases sd with
  | inp =>
    simp only [lookOp, step, Option.some.injEq, Prod.mk.injEq] at hs
    obtain ⟨rfl, -, rfl⟩ := hs
    have : ¬ s.queue.size > 0 := by simpa [ready] using hr
    exact this
  | out =>
    simp only [lookOp, step, Option.some.injEq, Prod.mk.injEq] at hs
    obtain ⟨rfl, -, rfl⟩ := hs
    have : ¬ numCanSend s > 0 := by simpa [ready] using hr
    intro hl
    have hl : s.queue.size < s.queue.cap := hl
    apply this
    unfold numCanSend full
    rw [if_neg (by simp; omega)]
    omega

theorem idle_cnt {c : Int} (h : Mode.idle = .test c ∨ Mode.idle = .user c) : 0 ≤ c := by
  rcases h with h | h <;> cases h

/-- Invariant of the module. -/
structure Inv (cap : Nat) (sd : Side) (k : Kind) (m : M β) : Prop where
  data : Data cap m.hist m.lt
  sig : Sig sd k m.hist m.lt
  cnt : ∀ c, m.mode = .test c ∨ m.mode = .user c → 0 ≤ c
  idle : m.mode = .idle → m.refused = true ∨ 0 < m.reinj ∨ Wake sd m.hist m.lt

theorem perform_some {m m' : M β} {op : Op β} {o : Out β} (h : perform m op = some (o, m')) :
    ∃ w s', step m.lt op = some (o, w, s') ∧ m' = { m with lt := s', hist := m.hist ++ [⟨op, o, w⟩] } := by
  simp only [perform, Option.bind_eq_bind, Option.bind_eq_some_iff] at h
  obtain ⟨⟨o', w, s'⟩, e, h⟩ := h
  cases h
  exact ⟨w, s', e, rfl⟩

theorem Inv.act {cap sd k} {len : Int} (hc : 0 < cap) (hk : k = .confirm ∨ k = .operation) (hl : 0 ≤ len) {m m' : M β} {a : Act β} (i : Inv cap sd k m)
    (h : act sd len m a = some m') : Inv cap sd k m' := by
  cases a with
  | env op =>
    simp only [AsyncLoop.act] at h
    split at h
    · cases h
    next hn =>
      have hn : own sd op = false := by simpa using hn
      rw [Option.map_eq_some_iff] at h
      obtain ⟨⟨o, m1⟩, h1, rfl⟩ := h
      obtain ⟨w, s', e, rfl⟩ := perform_some h1
      refine ⟨data_step i.data e, sig_step hc hk i.data i.sig (keeps_env hn) e, i.cnt, fun hm => ?_⟩
      rcases i.idle hm with h2 | h2 | h2
      · exact .inl h2
      · exact .inr (.inl h2)
      · exact .inr (.inr (wake_env hc hk i.data i.sig h2 hn e))
  | event =>
    simp only [AsyncLoop.act] at h
    split at h
    · simp only [Option.bind_eq_bind, Option.bind_eq_some_iff] at h
      obtain ⟨⟨o, m1⟩, h1, h⟩ := h
      obtain ⟨w, s', e, rfl⟩ := perform_some h1
      cases h
      refine ⟨data_step i.data e, sig_step hc hk i.data i.sig (by cases sd <;> rfl) e, fun c hm => ?_, fun hm => (by cases hm)⟩
      rcases hm with hm | hm
      · cases hm; exact hl
      · cases hm
    · cases h
  | reinj =>
    simp only [AsyncLoop.act] at h
    split at h
    · cases h
      refine ⟨i.data, i.sig, fun c hm => ?_, fun hm => (by cases hm)⟩
      rcases hm with hm | hm
      · cases hm; exact hl
      · cases hm
    · cases h
  | test =>
    simp only [AsyncLoop.act] at h
    split at h
    next c hmode =>
      simp only [Option.bind_eq_bind, Option.bind_eq_some_iff] at h
      obtain ⟨⟨o, m1⟩, h1, h⟩ := h
      obtain ⟨w, s', e, rfl⟩ := perform_some h1
      have d := data_step i.data e
      have g := sig_step hc hk i.data i.sig (keeps_user (uses_look sd)) e
      have hc0 := i.cnt c (.inl hmode)
      rcases hr : ready o with _ | _
      · rw [hr] at h
        cases h
        exact ⟨d, g, fun c hm => idle_cnt hm, fun _ => .inr (.inr fun hw => absurd hw (not_work e hr))⟩
      · rw [hr] at h
        cases h
        refine ⟨d, g, fun c' hm => ?_, fun hm => (by cases hm)⟩
        rcases hm with hm | hm
        · cases hm
        · cases hm; exact hc0
    · cases h
  | user op =>
    simp only [AsyncLoop.act] at h
    split at h
    · cases h
    · split at h
      next hu =>
        rw [Option.map_eq_some_iff] at h
        obtain ⟨⟨o, m1⟩, h1, rfl⟩ := h
        obtain ⟨w, s', e, rfl⟩ := perform_some h1
        refine ⟨data_step i.data e, sig_step hc hk i.data i.sig (keeps_user hu) e, i.cnt, fun hm => ?_⟩
        rcases i.idle hm with h2 | h2 | h2
        · exact .inl h2
        · exact .inr (.inl h2)
        · exact .inr (.inr (wake_user i.data h2 hu e))
      · cases h
  | ret b =>
    simp only [AsyncLoop.act] at h
    split at h
    next c hmode =>
      have hc0 := i.cnt c (.inr hmode)
      cases h
      unfold returned
      dsimp only
      split
      · exact ⟨i.data, i.sig, fun c hm => idle_cnt hm, fun _ => .inl rfl⟩
      · split
        · omega
        · split
          · exact ⟨i.data, i.sig, fun c hm => idle_cnt hm, fun _ => .inr (.inl (Nat.succ_pos _))⟩
          · refine ⟨i.data, i.sig, fun c' hm => ?_, fun hm => (by cases hm)⟩
            rcases hm with hm | hm
            · cases hm; omega
            · cases hm
    · cases h
  | activate =>
    simp only [AsyncLoop.act] at h
    split at h
    · cases h
    · simp only [Option.bind_eq_bind, Option.bind_eq_some_iff] at h
      obtain ⟨⟨o, m1⟩, h1, h⟩ := h
      obtain ⟨w, s', e, rfl⟩ := perform_some h1
      have d := data_step i.data e
      have g := sig_step hc hk i.data i.sig (keeps_user (uses_look sd)) e
      cases h
      refine ⟨d, g, i.cnt, fun hm => ?_⟩
      rcases hr : ready o with _ | _
      · exact .inr (.inr fun hw => absurd hw (not_work e hr))
      · exact .inr (.inl (by simp))

theorem Inv.acts {cap sd k} {len : Int} (hc : 0 < cap) (hk : k = .confirm ∨ k = .operation) (hl : 0 ≤ len) {as : List (Act β)} :
    ∀ {m m' : M β}, Inv cap sd k m → acts sd len m as = some m' → Inv cap sd k m' := by
  induction as with
  | nil => intro m m' i h; cases h; exact i
  | cons a as ih =>
    intro m m' i h
    simp only [AsyncLoop.acts, Option.bind_eq_some_iff] at h
    obtain ⟨m1, h1, h2⟩ := h
    exact ih (i.act hc hk hl h1) h2

theorem run_last {s0 s : LT β} {a : List (Op β)} {op : Op β} {h : List (Rec β)} (hr : run s0 (a ++ [op]) = some (h, s)) :
    ∃ h1 s1 o w, run s0 a = some (h1, s1) ∧ step s1 op = some (o, w, s) ∧ h = h1 ++ [⟨op, o, w⟩] := by
  rw [run_append] at hr
  simp only [Option.bind_eq_some_iff, Option.map_eq_some_iff] at hr
  obtain ⟨⟨h1, s1⟩, r1, ⟨h2, s2⟩, r2, hr⟩ := hr
  cases hr
  simp only [run, Option.bind_eq_bind, Option.bind_eq_some_iff] at r2
  obtain ⟨⟨o1, w1, t1⟩, e1, ⟨h3, s3⟩, r2, hr⟩ := r2
  cases r2
  cases hr
  exact ⟨h1, s1, o1, w1, r1, e1, rfl⟩

theorem Inv.begin {cap sd k} (hc : 0 < cap) (hk : k = .confirm ∨ k = .operation) {ops : List (Op β)} {h : List (Rec β)} {s : LT β}
    (hs : Started k sd ops) (hr : run (create cap) ops = some (h, s)) : Inv cap sd k (begin s h) := by
  cases sd with
  | inp =>
    obtain ⟨a, b, c, rfl, h1, h2, h3⟩ := hs
    obtain ⟨d, i⟩ := receiver_life hc hk ⟨a, b, c, [], by simp, h1, h2, h3, by simp⟩ hr
    refine ⟨d, i, fun c hm => idle_cnt hm, fun _ => .inr (.inr fun hw => ?_)⟩
    have e : a ++ Op.assignInp k :: (b ++ Op.setConnected true :: (c ++ [Op.startInp])) = (a ++ Op.assignInp k :: (b ++ Op.setConnected true :: c)) ++ [Op.startInp] := by simp
    rw [e] at hr
    obtain ⟨h1, s1, o, w, -, e1, rfl⟩ := run_last hr
    simp only [step, Option.some.injEq, Prod.mk.injEq] at e1
    obtain ⟨-, rfl, rfl⟩ := e1
    have hw : 0 < s1.queue.size := hw
    have hk' : s1.inpKind = k := i.kind
    change 0 < pendingInp (h1 ++ _)
    rw [pendingInp_snoc]
    have : inpStart s1 = 1 := by
      have he : empty s1 = false := by simp [empty]; omega
      rw [inpStart, hk']
      rcases hk with rfl | rfl <;> simp [he]
    rw [this]; simp
  | out =>
    obtain ⟨a, b, c, rfl, h1, h2, h3⟩ := hs
    obtain ⟨d, i⟩ := sender_life hc hk ⟨a, b, c, [], by simp, h1, h2, h3, by simp⟩ hr
    refine ⟨d, i, fun c hm => idle_cnt hm, fun _ => .inr (.inr fun hw => ?_)⟩
    have e : a ++ Op.assignOut k :: (b ++ Op.setConnected false :: (c ++ [Op.startOut])) = (a ++ Op.assignOut k :: (b ++ Op.setConnected false :: c)) ++ [Op.startOut] := by simp
    rw [e] at hr
    obtain ⟨h1, s1, o, w, -, e1, rfl⟩ := run_last hr
    simp only [step, Option.some.injEq, Prod.mk.injEq] at e1
    obtain ⟨-, rfl, rfl⟩ := e1
    have hw : s1.queue.size < s1.queue.cap := hw
    have hk' : s1.outKind = k := i.kind
    change 0 < pendingOut (h1 ++ _)
    rw [pendingOut_snoc]
    have : outStart s1 = 1 := by
      have he : 0 < numCanSend s1 := by
        rw [numCanSend, full]; rw [if_neg (by simp; omega)]; omega
      rw [outStart, hk']
      rcases hk with rfl | rfl <;> simp [he]
    rw [this]; simp

/-- Other threads do not take data from a connected input. -/
theorem size_env {cap} {h : List (Rec β)} {s s' : LocalTransport.LT β} {op : Op β} {o w} (d : Data cap h s) (hc : s.connInp = true)
    (hn : own .inp op = false) (hs : step s op = some (o, w, s')) : s.queue.size ≤ s'.queue.size := by
  cases op with
  | send b =>
    simp only [step, Option.bind_eq_bind, Option.bind_eq_some_iff] at hs
    obtain ⟨⟨b', w', s''⟩, e, hs⟩ := hs
    cases hs
    cases b with
    | none => simp only [send, Option.some.injEq, Prod.mk.injEq] at e; obtain ⟨-, -, rfl⟩ := e; exact Nat.le_refl _
    | some b =>
      obtain ⟨q, e1, -, -, e4⟩ := send_cases d e
      have : s''.queue = q := by
        rw [show s'' = (sendTail { s with queue := q }).2 from congrArg Prod.snd e1]
        unfold sendTail; dsimp only; split <;> rfl
      rw [this]; exact e4
  | disconnect i =>
    cases i with
    | true => cases hn
    | false =>
      obtain ⟨bs, q, e, -, hq⟩ := disconnect_spec d.rep false
      simp only [step, e, Option.bind_eq_bind, Option.bind_some, Option.some.injEq, Prod.mk.injEq] at hs
      obtain ⟨-, -, rfl⟩ := hs
      rcases hq with hq | hq
      · have : (detach s false).2.connInp = s.connInp := rfl
        rw [this, hc] at hq; cases hq.1
      · change _ ≤ q.size
        rw [hq.2.2]; exact Nat.le_refl _
  | handleOut =>
    simp only [step, Option.some.injEq, Prod.mk.injEq] at hs
    obtain ⟨-, -, rfl⟩ := hs
    split <;> exact Nat.le_refl _
  | setConnected i =>
    simp only [step, Option.some.injEq, Prod.mk.injEq] at hs
    obtain ⟨-, -, rfl⟩ := hs
    cases i <;> exact Nat.le_refl _
  | recv | canRecv | signalWhenFull | handleInp | ignoreInp | startInp | assignInp _ => cases hn
  | _ =>
    simp only [step, Option.some.injEq, Prod.mk.injEq] at hs
    obtain ⟨-, -, rfl⟩ := hs
    exact Nat.le_refl _

/-! ## Length of the loop -/

/-- Calls done and calls left. -/
def Bounded (len : Int) (m : M β) : Prop :=
  match m.mode with
  | .idle => (m.calls : Int) ≤ max len 0 + 1
  | .test c | .user c => (m.calls : Int) + max c 0 ≤ max len 0

theorem Bounded.act {sd} {len : Int} {m m' : M β} {a : Act β} (i : Bounded len m) (h : act sd len m a = some m') : Bounded len m' := by
  have keep : ∀ {op : Op β} {r}, perform m op = some r → r.2.mode = m.mode ∧ r.2.calls = m.calls := by
    intro op r hr
    obtain ⟨o, m1⟩ := r
    obtain ⟨w, s', -, rfl⟩ := perform_some hr
    exact ⟨rfl, rfl⟩
  cases a with
  | env op =>
    simp only [AsyncLoop.act] at h
    split at h
    · cases h
    · rw [Option.map_eq_some_iff] at h
      obtain ⟨r, h1, rfl⟩ := h
      obtain ⟨e1, e2⟩ := keep h1
      unfold Bounded at *; rw [e1, e2]; exact i
  | event =>
    simp only [AsyncLoop.act] at h
    split at h
    · simp only [Option.bind_eq_bind, Option.bind_eq_some_iff] at h
      obtain ⟨r, h1, h⟩ := h
      cases h
      change ((0 : Nat) : Int) + max len 0 ≤ max len 0
      omega
    · cases h
  | reinj =>
    simp only [AsyncLoop.act] at h
    split at h
    · cases h
      change ((0 : Nat) : Int) + max len 0 ≤ max len 0
      omega
    · cases h
  | test =>
    simp only [AsyncLoop.act] at h
    split at h
    next c hmode =>
      simp only [Option.bind_eq_bind, Option.bind_eq_some_iff] at h
      obtain ⟨r, h1, h⟩ := h
      obtain ⟨e1, e2⟩ := keep h1
      have i : (m.calls : Int) + max c 0 ≤ max len 0 := by unfold Bounded at i; rw [hmode] at i; exact i
      rcases hr : ready r.1 with _ | _
      · rw [hr] at h
        cases h
        change (r.2.calls : Int) ≤ max len 0 + 1
        rw [e2]; omega
      · rw [hr] at h
        cases h
        change (r.2.calls : Int) + max c 0 ≤ max len 0
        rw [e2]; exact i
    · cases h
  | user op =>
    simp only [AsyncLoop.act] at h
    split at h
    · cases h
    · split at h
      · rw [Option.map_eq_some_iff] at h
        obtain ⟨r, h1, rfl⟩ := h
        obtain ⟨e1, e2⟩ := keep h1
        unfold Bounded at *; rw [e1, e2]; exact i
      · cases h
  | ret b =>
    simp only [AsyncLoop.act] at h
    split at h
    next c hmode =>
      have i : (m.calls : Int) + max c 0 ≤ max len 0 := by unfold Bounded at i; rw [hmode] at i; exact i
      cases h
      unfold returned
      dsimp only
      split
      · change ((m.calls + 1 : Nat) : Int) ≤ max len 0 + 1; omega
      · split
        · change ((m.calls + 1 : Nat) : Int) ≤ max len 0 + 1; omega
        · split
          · change ((m.calls + 1 : Nat) : Int) ≤ max len 0 + 1; omega
          · change ((m.calls + 1 : Nat) : Int) + max (c - 1) 0 ≤ max len 0; omega
    · cases h
  | activate =>
    simp only [AsyncLoop.act] at h
    split at h
    · cases h
    · simp only [Option.bind_eq_bind, Option.bind_eq_some_iff] at h
      obtain ⟨r, h1, h⟩ := h
      obtain ⟨e1, e2⟩ := keep h1
      cases h
      unfold Bounded at *
      dsimp only
      rw [e1, e2]; exact i

end Verif.AsyncLoop
