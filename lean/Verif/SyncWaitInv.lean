import Verif.Spec.SyncWait
import Verif.AsyncLoopInv

/-!
# Invariants of the blocking operations
-/

namespace Verif.SyncWait
open Verif.LocalTransport Verif.SyncWait.Spec
variable {β : Type}

local notation "LT" => LocalTransport.LT

theorem perform_some {m m' : SM β} {op : Op β} {o : Out β} (h : perform m op = some (o, m')) :
    ∃ w s', step m.lt op = some (o, w, s') ∧ m' = { m with lt := s', hist := m.hist ++ [⟨op, o, w⟩] } := by
  simp only [perform, Option.bind_eq_bind, Option.bind_eq_some_iff] at h
  obtain ⟨⟨o', w, s'⟩, e, h⟩ := h
  cases h
  exact ⟨w, s', e, rfl⟩

/-! ## Timeouts -/

/-- The part of the timeout which was used up is not more than the time since the call. -/
def Clock (m : SM β) : Prop :=
  match m.mode with
  | .idle | .take => True
  | .test tm => tm ≤ m.limit ∧ m.limit - tm ≤ m.now - m.t0
  | .wait tm last _ => tm ≤ m.limit ∧ 0 ≤ tm ∧
    (match last with | none => m.limit - tm ≤ m.now - m.t0 | some l => m.limit - tm ≤ l - m.t0 ∧ l ≤ m.now)

/-- How `single` changes a module. -/
theorem single_cases {m m' : SM β} {e : Ev} (h : single m e = some m') :
    m'.now = m.now ∧ m'.t0 = m.t0 ∧ m'.limit = m.limit ∧ m'.goal = m.goal ∧ m'.onTmout = m.onTmout ∧ m'.onLost = m.onLost ∧
      ((m'.mode = m.mode ∨ ∃ n, m'.mode = note m.mode n) ∧ m'.out = m.out ∨ e = .halt ∧ m'.mode = .idle ∧ m'.out = some .stopped) := by
  cases e with
  | none | other => cases h; exact ⟨rfl, rfl, rfl, rfl, rfl, rfl, .inl ⟨.inl rfl, rfl⟩⟩
  | gone | conn => cases h; exact ⟨rfl, rfl, rfl, rfl, rfl, rfl, .inl ⟨.inr ⟨_, rfl⟩, rfl⟩⟩
  | start | stop => cases h; exact ⟨rfl, rfl, rfl, rfl, rfl, rfl, .inl ⟨.inl rfl, rfl⟩⟩
  | halt => cases h; exact ⟨rfl, rfl, rfl, rfl, rfl, rfl, .inr ⟨rfl, rfl, rfl⟩⟩
  | own =>
    simp only [single] at h
    split at h
    · split at h
      · simp only [Option.bind_eq_bind, Option.bind_eq_some_iff] at h
        obtain ⟨⟨o, m1⟩, h1, h⟩ := h
        obtain ⟨w, s', -, rfl⟩ := perform_some h1
        cases h
        exact ⟨rfl, rfl, rfl, rfl, rfl, rfl, .inl ⟨.inr ⟨_, rfl⟩, rfl⟩⟩
      · rw [Option.map_eq_some_iff] at h
        obtain ⟨⟨o, m1⟩, h1, rfl⟩ := h
        obtain ⟨w, s', -, rfl⟩ := perform_some h1
        exact ⟨rfl, rfl, rfl, rfl, rfl, rfl, .inl ⟨.inl rfl, rfl⟩⟩
    · cases h

theorem Clock.note {m m' : SM β} (c : Clock m) (h1 : m'.now = m.now) (h2 : m'.t0 = m.t0) (h3 : m'.limit = m.limit)
    (h : m'.mode = m.mode ∨ ∃ n, m'.mode = SyncWait.note m.mode n) : Clock m' := by
  unfold Clock at *
  rw [h1, h2, h3]
  rcases h with h | ⟨n, h⟩
  · rw [h]; exact c
  · rw [h]
    rcases hm : m.mode with _ | tm | _ | ⟨tm, last, n'⟩
    · trivial
    · rw [hm] at c; exact c
    · trivial
    · rw [hm] at c
      cases n' <;> exact c

theorem Clock.single {m m' : SM β} {e : Ev} (c : Clock m) (h : single m e = some m') : Clock m' := by
  obtain ⟨h1, h2, h3, -, -, -, h4 | h4⟩ := single_cases h
  · exact c.note h1 h2 h3 h4.1
  · unfold Clock; rw [h4.2.1]; trivial

/-- The check at the head of the loop. -/
theorem Clock.account {m : SM β} {tm last n} (c : Clock m) (hm : m.mode = .wait tm last n) :
    m.limit - (account m.running m.now tm last).1 ≤ m.now - m.t0 ∧
      (¬ (m.running && decide ((account m.running m.now tm last).1 < 0)) = true →
        Clock { m with mode := .wait (account m.running m.now tm last).1 (account m.running m.now tm last).2 n }) := by
  unfold Clock at c
  rw [hm] at c
  obtain ⟨c1, c2, c3⟩ := c
  unfold SyncWait.account
  cases hr : m.running with
  | false =>
    have : m.limit - tm ≤ m.now - m.t0 := by cases last with
      | none => exact c3
      | some l => obtain ⟨c3, c4⟩ := c3; omega
    exact ⟨this, fun _ => ⟨c1, c2, this⟩⟩
  | true =>
    cases last with
    | none => exact ⟨c3, fun _ => ⟨c1, c2, c3, Int.le_refl _⟩⟩
    | some l =>
      obtain ⟨c3, c4⟩ := c3
      refine ⟨by change m.limit - (tm - (m.now - l)) ≤ _; omega, fun hn => ?_⟩
      have hn : ¬ tm - (m.now - l) < 0 := by simpa using hn
      refine ⟨by change tm - (m.now - l) ≤ m.limit; omega, by change 0 ≤ tm - (m.now - l); omega, ?_, Int.le_refl _⟩
      change m.limit - (tm - (m.now - l)) ≤ m.now - m.t0
      omega

theorem Clock.act {m m' : SM β} {a : Act β} (c : Clock m) (h : act m a = some m') : Clock m' := by
  cases a with
  | env op =>
    simp only [SyncWait.act] at h
    split at h
    · cases h
    · rw [Option.map_eq_some_iff] at h
      obtain ⟨⟨o, m1⟩, h1, rfl⟩ := h
      obtain ⟨w, s', -, rfl⟩ := perform_some h1
      exact c
  | time d =>
    cases h
    unfold Clock at *
    dsimp only
    split
    · trivial
    · trivial
    next e => rw [e] at c; dsimp only at c; exact ⟨c.1, by omega⟩
    next e =>
      rw [e] at c
      obtain ⟨c1, c2, c3⟩ := c
      refine ⟨c1, c2, ?_⟩
      split
      · dsimp only at c3; omega
      · dsimp only at c3; omega
  | call g tm =>
    simp only [SyncWait.act] at h
    split at h
    · cases h; exact ⟨Int.le_refl _, by change tm - tm ≤ m.now - m.now; omega⟩
    · cases h
  | look =>
    simp only [SyncWait.act] at h
    split at h
    next tm e =>
      simp only [Option.bind_eq_bind, Option.bind_eq_some_iff] at h
      obtain ⟨⟨o, m1⟩, h1, h⟩ := h
      obtain ⟨w, s', -, rfl⟩ := perform_some h1
      have c : tm ≤ m.limit ∧ m.limit - tm ≤ m.now - m.t0 := by unfold Clock at c; rw [e] at c; exact c
      cases h
      split
      · split <;> trivial
      · split
        · trivial
        next hl => exact ⟨c.1, by omega, c.2⟩
    · cases h
  | take =>
    simp only [SyncWait.act] at h
    split at h
    · simp only [Option.bind_eq_bind, Option.bind_eq_some_iff] at h
      obtain ⟨⟨o, m1⟩, h1, h⟩ := h
      split at h
      · cases h; trivial
      · cases h
    · cases h
  | loop e =>
    simp only [SyncWait.act] at h
    split at h
    next tm last n hm =>
      split at h
      · cases h
      · have k := c.account hm
        split at h
        · cases h; trivial
        next hn => exact (k.2 hn).single h
    · cases h
  | leave =>
    simp only [SyncWait.act] at h
    split at h
    next tm last n hm =>
      split at h
      · split at h
        · cases h; trivial
        · cases h
          unfold Clock at c
          rw [hm] at c
          obtain ⟨c0, -, c⟩ := c
          refine ⟨c0, ?_⟩
          change m.limit - tm ≤ m.now - m.t0
          cases last with
          | none => exact c
          | some l => obtain ⟨c3, c4⟩ := c; omega
      · cases h
    · cases h
  | work e =>
    simp only [SyncWait.act] at h
    split at h
    · exact c.single h
    · cases h

/-! ## Wake-ups -/

/-- Operations for which one buffer is enough. -/
def Goal.one : Goal → Prop
  | .recv => True
  | .input n => n ≤ 1

/-- Invariant of a running module. -/
structure Inv (cap : Nat) (k : Kind) (m : SM β) : Prop where
  data : Data cap m.hist m.lt
  sig : InpInv k m.hist m.lt
  run : m.running = true
  wait : ∀ tm last, m.mode = .wait tm last none → m.goal.one → 0 < m.lt.queue.size → 0 < pendingInp m.hist
  take : m.mode = .take → 0 < m.lt.queue.size

theorem Inv.single {cap k} (hk : k = .confirm ∨ k = .operation) {m m' : SM β} {e : Ev} (i : Inv cap k m) (hm : m.mode ≠ .take) (he : e ≠ .stop)
    (h : single m e = some m') : Inv cap k m' := by
  have noted : ∀ n, Inv cap k { m with mode := SyncWait.note m.mode n } := by
    intro n
    refine ⟨i.data, i.sig, i.run, fun tm last hn => ?_, fun ht => ?_⟩
    · unfold SyncWait.note at hn
      dsimp only at hn
      split at hn
      · cases hn
      next h1 => exact absurd hn (h1 tm last)
    · unfold SyncWait.note at ht
      dsimp only at ht
      split at ht
      · cases ht
      · exact absurd ht hm
  cases e with
  | none | other => cases h; exact i
  | gone | conn => cases h; exact noted _
  | start => cases h; exact ⟨i.data, i.sig, rfl, i.wait, i.take⟩
  | stop => exact absurd rfl he
  | halt => cases h; exact ⟨i.data, i.sig, i.run, fun tm last hn => (by cases hn), fun ht => (by cases ht)⟩
  | own =>
    simp only [SyncWait.single] at h
    split at h
    · rw [if_pos i.run] at h
      simp only [Option.bind_eq_bind, Option.bind_eq_some_iff] at h
      obtain ⟨⟨o, m1⟩, h1, h⟩ := h
      obtain ⟨w, s', e1, rfl⟩ := perform_some h1
      cases h
      refine ⟨data_step i.data e1, inp_step hk i.data i.sig rfl e1, i.run, fun tm last hn => ?_, fun ht => ?_⟩
      · exact absurd ((noted .own).wait tm last hn) (by
          intro _
          unfold SyncWait.note at hn
          dsimp only at hn
          split at hn
          · cases hn
          next h1 => exact absurd hn (h1 tm last))
      · unfold SyncWait.note at ht
        dsimp only at ht
        split at ht
        · cases ht
        · exact absurd ht hm
    · cases h

theorem Inv.act {cap k} (hc : 0 < cap) (hk : k = .confirm ∨ k = .operation) {m m' : SM β} {a : Act β} (i : Inv cap k m) (hn : noStop a = true)
    (h : act m a = some m') : Inv cap k m' := by
  cases a with
  | env op =>
    simp only [SyncWait.act] at h
    split at h
    · cases h
    next ho =>
      have ho : AsyncLoop.own .inp op = false := by simpa [AsyncLoop.own] using ho
      rw [Option.map_eq_some_iff] at h
      obtain ⟨⟨o, m1⟩, h1, rfl⟩ := h
      obtain ⟨w, s', e, rfl⟩ := perform_some h1
      refine ⟨data_step i.data e, inp_step hk i.data i.sig (AsyncLoop.keeps_env ho) e, i.run, fun tm last hw hg => ?_, fun ht => ?_⟩
      · exact AsyncLoop.wake_env (sd := .inp) hc hk i.data i.sig (i.wait tm last hw hg) ho e
      · exact Nat.lt_of_lt_of_le (i.take ht) (AsyncLoop.size_env i.data i.sig.conn ho e)
  | time d => cases h; exact ⟨i.data, i.sig, i.run, i.wait, i.take⟩
  | call g tm =>
    simp only [SyncWait.act] at h
    split at h
    · cases h; exact ⟨i.data, i.sig, i.run, fun tm last hn => (by cases hn), fun ht => (by cases ht)⟩
    · cases h
  | look =>
    simp only [SyncWait.act] at h
    split at h
    next tm e =>
      simp only [Option.bind_eq_bind, Option.bind_eq_some_iff] at h
      obtain ⟨⟨o, m1⟩, h1, h⟩ := h
      obtain ⟨w, s', e1, rfl⟩ := perform_some h1
      have d := data_step i.data e1
      have g := inp_step hk i.data i.sig rfl e1
      simp only [step, Option.some.injEq, Prod.mk.injEq] at e1
      obtain ⟨rfl, rfl, rfl⟩ := e1
      cases h
      split
      next hen =>
        split
        next hg =>
          refine ⟨d, g, i.run, fun tm last hn => (by cases hn), fun _ => ?_⟩
          rw [hg] at hen
          exact of_decide_eq_true hen
        · exact ⟨d, g, i.run, fun tm last hn => (by cases hn), fun ht => (by cases ht)⟩
      next hen =>
        split
        · exact ⟨d, g, i.run, fun tm last hn => (by cases hn), fun ht => (by cases ht)⟩
        · refine ⟨d, g, i.run, fun tm last _ hg hs => ?_, fun ht => (by cases ht)⟩
          exfalso
          apply hen
          have hg : m.goal.one := hg
          have hs : 0 < m.lt.queue.size := hs
          cases hgo : m.goal with
          | recv => exact decide_eq_true hs
          | input n =>
            rw [hgo] at hg
            have hg : n ≤ 1 := hg
            exact decide_eq_true (by omega)
    · cases h
  | take =>
    simp only [SyncWait.act] at h
    split at h
    · simp only [Option.bind_eq_bind, Option.bind_eq_some_iff] at h
      obtain ⟨⟨o, m1⟩, h1, h⟩ := h
      obtain ⟨w, s', e1, rfl⟩ := perform_some h1
      split at h
      · cases h
        exact ⟨data_step i.data e1, inp_step hk i.data i.sig rfl e1, i.run, fun tm last hn => (by cases hn), fun ht => (by cases ht)⟩
      · cases h
    · cases h
  | loop e =>
    simp only [SyncWait.act] at h
    split at h
    next tm last n hm =>
      split at h
      · cases h
      · split at h
        · cases h; exact ⟨i.data, i.sig, i.run, fun tm last hn => (by cases hn), fun ht => (by cases ht)⟩
        · refine Inv.single hk (m := { m with mode := .wait (account m.running m.now tm last).1 (account m.running m.now tm last).2 n }) ?_ (by intro hx; cases hx) (by rintro rfl; cases hn) h
          refine ⟨i.data, i.sig, i.run, fun tm1 last1 hw => ?_, fun ht => (by cases ht)⟩
          cases hw
          exact i.wait tm last hm
    · cases h
  | leave =>
    simp only [SyncWait.act] at h
    split at h
    · split at h
      · split at h
        · cases h; exact ⟨i.data, i.sig, i.run, fun tm last hn => (by cases hn), fun ht => (by cases ht)⟩
        · cases h; exact ⟨i.data, i.sig, i.run, fun tm last hn => (by cases hn), fun ht => (by cases ht)⟩
      · cases h
    · cases h
  | work e =>
    simp only [SyncWait.act] at h
    split at h
    next hm => exact i.single hk (by rw [hm]; intro hx; cases hx) (by rintro rfl; cases hn) h
    · cases h

theorem Inv.acts {cap k} (hc : 0 < cap) (hk : k = .confirm ∨ k = .operation) {as : List (Act β)} :
    ∀ {m m' : SM β}, Inv cap k m → (∀ a ∈ as, noStop a = true) → acts m as = some m' → Inv cap k m' := by
  induction as with
  | nil => intro m m' i _ h; cases h; exact i
  | cons a as ih =>
    intro m m' i hn h
    simp only [SyncWait.acts, Option.bind_eq_some_iff] at h
    obtain ⟨m1, h1, h2⟩ := h
    exact ih (i.act hc hk (hn a (by simp)) h1) (fun b hb => hn b (by simp [hb])) h2

/-- The connection of a running module. -/
theorem connected {cap k} (hc : 0 < cap) {ops : List (Op β)} {h : List (Rec β)} {s : LT β}
    (hl : Connected k ops) (hr : run (create cap) ops = some (h, s)) : Data cap h s ∧ InpInv k h s := by
  obtain ⟨a, b, rfl, ha, hb⟩ := hl
  rw [run_append] at hr
  simp only [Option.bind_eq_some_iff, Option.map_eq_some_iff] at hr
  obtain ⟨⟨h1, s1⟩, r1, ⟨h2, s2⟩, r2, hr⟩ := hr
  cases hr
  have p1 : Data cap h1 s1 ∧ InpOff h1 s1 := by
    have := run_inv (P := fun h s => Data cap h s ∧ InpOff h s) (fun op => inpSide op = false)
      (fun h s op o w s' p g hs => ⟨data_step p.1 hs, (inp_off_step p.1 p.2 g hs).1⟩)
      (h0 := []) (s0 := create cap) ⟨data_init hc, rfl, rfl, rfl⟩ ha r1
    simpa using this
  simp only [run, Option.bind_eq_bind, Option.bind_eq_some_iff] at r2
  obtain ⟨⟨o1, w1, t1⟩, e1, ⟨h3, s3⟩, r2, hr⟩ := r2
  cases hr
  have d1 := data_step p1.1 e1
  have p2 : InpOff (h1 ++ [⟨.assignInp k, o1, w1⟩]) t1 ∧ t1.inpSet = true ∧ t1.inpKind = k := by
    simp only [step, Option.some.injEq, Prod.mk.injEq] at e1
    obtain ⟨-, -, rfl⟩ := e1
    exact ⟨⟨p1.2.conn, p1.2.sig, by rw [receiverWaits_snoc]; exact p1.2.look⟩, rfl, rfl⟩
  obtain ⟨h4, s4, o2, w2, r3, e2, rfl⟩ := AsyncLoop.run_last r2
  have p3 := run_inv (P := fun h s => Data cap h s ∧ InpOff h s ∧ s.inpSet = true ∧ s.inpKind = k) (fun op => inpSide op = false)
    (fun h s op o w s' p g hs => by
      obtain ⟨g1, g2, g3⟩ := inp_off_step p.1 p.2.1 g hs
      exact ⟨data_step p.1 hs, g1, g2.trans p.2.2.1, g3.trans p.2.2.2⟩) ⟨d1, p2⟩ hb r3
  obtain ⟨d3, o3, s3', k3⟩ := p3
  have d4 := data_step d3 e2
  simp only [step, Option.some.injEq, Prod.mk.injEq] at e2
  obtain ⟨rfl, rfl, rfl⟩ := e2
  have e : h1 ++ ⟨.assignInp k, o1, w1⟩ :: (h4 ++ [⟨.setConnected true, .done, []⟩]) = (h1 ++ [⟨.assignInp k, o1, w1⟩] ++ h4) ++ [⟨.setConnected true, .done, []⟩] := by simp
  rw [e]
  have hs3 : s4.signalInp = 3 := o3.sig
  refine ⟨d4, s3', rfl, k3, .inr (.inr hs3), fun hx => ?_, fun hx => ?_, fun hx => ?_, fun hx => ?_⟩
  · have hx : s4.signalInp = 1 := hx; omega
  · have hx : s4.signalInp = 1 := hx; omega
  · have hx : s4.signalInp = 2 := hx; omega
  · rw [receiverWaits_snoc] at hx
    have := o3.look
    simp only [List.append_assoc] at this hx
    rw [this] at hx; cases hx

/-! ## A lost event -/

/-- The queue waits for the confirmation of an event which is not on its way. -/
structure Deaf (cap : Nat) (m : SM β) : Prop where
  data : Data cap m.hist m.lt
  sig : m.lt.signalInp = 1
  kind : m.lt.inpKind = .confirm
  gone : pendingInp m.hist = 0

theorem deaf_step {cap} {h : List (Rec β)} {s s' : LT β} {op : Op β} {o w} (d : Data cap h s) (h1 : s.signalInp = 1) (h2 : s.inpKind = .confirm)
    (h3 : pendingInp h = 0) (hn : inpSide op = false ∨ op = .recv ∨ op = .canRecv) (hs : step s op = some (o, w, s')) :
    s'.signalInp = 1 ∧ s'.inpKind = .confirm ∧ pendingInp (h ++ [⟨op, o, w⟩]) = 0 := by
  rw [pendingInp_snoc]
  cases op with
  | send b =>
    simp only [step, Option.bind_eq_bind, Option.bind_eq_some_iff] at hs
    obtain ⟨⟨b', w', s''⟩, e, hs⟩ := hs
    cases hs
    cases b with
    | none => simp only [send, Option.some.injEq, Prod.mk.injEq] at e; obtain ⟨-, rfl, rfl⟩ := e; exact ⟨h1, h2, by simpa using h3⟩
    | some b =>
      obtain ⟨q, e1, -, -, -⟩ := send_cases d e
      have hsig : signal s.inpKind s.signalInp = (1, false) := by rw [h1, h2]; rfl
      unfold sendTail at e1
      dsimp only at e1
      split at e1
      · rw [hsig, Prod.mk.injEq] at e1
        obtain ⟨rfl, rfl⟩ := e1
        exact ⟨rfl, h2, by simpa using h3⟩
      · rw [Prod.mk.injEq] at e1
        obtain ⟨rfl, rfl⟩ := e1
        exact ⟨h1, h2, by simpa using h3⟩
  | recv =>
    simp only [step, Option.bind_eq_bind, Option.bind_eq_some_iff] at hs
    obtain ⟨⟨b', w', s''⟩, e, hs⟩ := hs
    cases hs
    obtain ⟨q, e1, -, -, -⟩ := recv_cases d e
    unfold recvTail at e1
    dsimp only at e1
    rw [Prod.mk.injEq] at e1
    obtain ⟨rfl, rfl⟩ := e1
    refine ⟨?_, h2, ?_⟩
    · change (if s.signalInp = 2 then 3 else s.signalInp) = 1
      rw [h1]; rfl
    · dsimp only
      rw [h3]
      split <;> rfl
  | disconnect j =>
    cases j with
    | true => rcases hn with hn | hn | hn <;> cases hn
    | false =>
      obtain ⟨bs, q, e1, -, -⟩ := disconnect_spec d.rep false
      simp only [step, e1, Option.bind_eq_bind, Option.bind_some, Option.some.injEq, Prod.mk.injEq] at hs
      obtain ⟨-, rfl, rfl⟩ := hs
      refine ⟨h1, h2, ?_⟩
      dsimp only
      rw [h3, detach]
      simp only [Bool.false_eq_true, if_false]
      split <;> rfl
  | startOut =>
    simp only [step, Option.some.injEq, Prod.mk.injEq] at hs
    obtain ⟨-, rfl, rfl⟩ := hs
    refine ⟨h1, h2, ?_⟩
    dsimp only
    rw [h3, List.count_replicate]
    rfl
  | handleOut =>
    simp only [step, Option.some.injEq, Prod.mk.injEq] at hs
    obtain ⟨-, rfl, rfl⟩ := hs
    refine ⟨?_, ?_, by simpa using h3⟩
    · split
      · exact h1
      · exact h1
    · split
      · exact h2
      · exact h2
  | setConnected j =>
    cases j with
    | true => rcases hn with hn | hn | hn <;> cases hn
    | false =>
      simp only [step, Option.some.injEq, Prod.mk.injEq] at hs
      obtain ⟨-, rfl, rfl⟩ := hs
      exact ⟨h1, h2, by simpa using h3⟩
  | canSend | canRecv | ignoreOut | setBlocking _ _ | assignOut _ =>
    simp only [step, Option.some.injEq, Prod.mk.injEq] at hs
    obtain ⟨-, rfl, rfl⟩ := hs
    exact ⟨h1, h2, by simpa using h3⟩
  | signalWhenFull | handleInp | ignoreInp | startInp | assignInp _ => rcases hn with hn | hn | hn <;> cases hn

theorem Deaf.of {cap} {m m' : SM β} (d : Deaf cap m) (h1 : m'.lt = m.lt) (h2 : m'.hist = m.hist) : Deaf cap m' :=
  ⟨by rw [h1, h2]; exact d.data, by rw [h1]; exact d.sig, by rw [h1]; exact d.kind, by rw [h2]; exact d.gone⟩

theorem Deaf.perform {cap} {m m' : SM β} {op : Op β} {o : Out β} (d : Deaf cap m) (hn : inpSide op = false ∨ op = .recv ∨ op = .canRecv)
    (h : perform m op = some (o, m')) : Deaf cap m' := by
  obtain ⟨w, s', e, rfl⟩ := perform_some h
  obtain ⟨h1, h2, h3⟩ := deaf_step d.data d.sig d.kind d.gone hn e
  exact ⟨data_step d.data e, h1, h2, h3⟩

theorem Deaf.single {cap} {m m' : SM β} {e : Ev} (d : Deaf cap m) (h : single m e = some m') : Deaf cap m' ∧ e ≠ .own := by
  cases e with
  | own =>
    simp only [SyncWait.single] at h
    rw [if_neg (by rw [d.gone]; decide)] at h
    cases h
  | _ => cases h; exact ⟨d.of rfl rfl, by intro hx; cases hx⟩

/-- Nothing repairs it. -/
theorem Deaf.act {cap} {m m' : SM β} {a : Act β} (d : Deaf cap m) (h : act m a = some m') : Deaf cap m' := by
  cases a with
  | env op =>
    simp only [SyncWait.act] at h
    split at h
    · cases h
    next ho =>
      rw [Option.map_eq_some_iff] at h
      obtain ⟨⟨o, m1⟩, h1, rfl⟩ := h
      exact d.perform (.inl (by simpa using ho)) h1
  | time t => cases h; exact d.of rfl rfl
  | call g tm =>
    simp only [SyncWait.act] at h
    split at h
    · cases h; exact d.of rfl rfl
    · cases h
  | look =>
    simp only [SyncWait.act] at h
    split at h
    · simp only [Option.bind_eq_bind, Option.bind_eq_some_iff] at h
      obtain ⟨⟨o, m1⟩, h1, h⟩ := h
      have d1 := d.perform (.inr (.inr rfl)) h1
      cases h
      split
      · split <;> exact d1.of rfl rfl
      · split <;> exact d1.of rfl rfl
    · cases h
  | take =>
    simp only [SyncWait.act] at h
    split at h
    · simp only [Option.bind_eq_bind, Option.bind_eq_some_iff] at h
      obtain ⟨⟨o, m1⟩, h1, h⟩ := h
      have d1 := d.perform (.inr (.inl rfl)) h1
      split at h
      · cases h; exact d1.of rfl rfl
      · cases h
    · cases h
  | loop e =>
    simp only [SyncWait.act] at h
    split at h
    next tm last n hm =>
      split at h
      · cases h
      · split at h
        · cases h; exact d.of rfl rfl
        · exact (Deaf.single (m := { m with mode := .wait (account m.running m.now tm last).1 (account m.running m.now tm last).2 n }) (d.of rfl rfl) h).1
    · cases h
  | leave =>
    simp only [SyncWait.act] at h
    split at h
    · split at h
      · split at h
        · cases h; exact d.of rfl rfl
        · cases h; exact d.of rfl rfl
      · cases h
    · cases h
  | work e =>
    simp only [SyncWait.act] at h
    split at h
    · exact (d.single h).1
    · cases h

end Verif.SyncWait
