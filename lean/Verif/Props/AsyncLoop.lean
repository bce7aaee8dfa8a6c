import Verif.AsyncLoopInv

/-!
# C95: event loops of an asynchronous module
-/

namespace Verif.AsyncLoop
open Verif.LocalTransport Verif.AsyncLoop.Spec
variable {β : Type}

theorem maxLoop_nonneg {k : Kind} (hk : k = .confirm ∨ k = .operation) {loop cap : Nat} (hl : loop < 2147483648) (hc : cap < 2147483648) :
    0 ≤ maxLoop k loop cap := by
  have key : ∀ n, n < 2147483648 → 0 ≤ toInt n := fun n hn => by rw [toInt, if_pos hn]; omega
  have : 0 ≤ toInt (if loop ≠ 0 then loop else cap) := by
    split
    · exact key _ hl
    · exact key _ hc
  rcases hk with rfl | rfl <;> exact this

/-- **C95, nothing is forgotten.** A module which is connected once and started once, with signalling
"confirm" or "operation": whatever other threads do with the queue at any moment, and whatever its methods do
with the port, when the module waits and no event is on its way, then an input is empty and an output is
full - or the last call of the user method returned false and `ActivateInput`/`ActivateOutput` was not called
since. -/
theorem C95_nothing_forgotten (cap : Nat) (hc : 0 < cap) (hc2 : cap < 2147483648) (loop : Nat) (hl : loop < 2147483648) (k : Kind)
    (hk : k = .confirm ∨ k = .operation) (sd : Side) (ops : List (Op β)) (h : List (Rec β)) (s : LocalTransport.LT β) (as : List (Act β)) (m : M β)
    (hs : Started k sd ops) (hr : run (create cap) ops = some (h, s)) (ha : acts sd (maxLoop k loop cap) (begin s h) as = some m)
    (hq : Quiet sd m) : m.refused = true ∨ Done cap m.hist sd := by
  have i := (Inv.begin hc hk hs hr).acts hc hk (maxLoop_nonneg hk hl hc2) ha
  obtain ⟨q1, q2, q3⟩ := hq
  have hlen := i.data.rep.len
  have hle := i.data.rep.le
  have hsz := i.data.size
  rw [List.length_map] at hlen
  rcases i.idle q1 with h1 | h1 | h1
  · exact .inl h1
  · omega
  · right
    cases sd with
    | inp =>
      have q3 : pendingInp m.hist = 0 := q3
      have h1 : 0 < m.lt.queue.size → 0 < pendingInp m.hist := h1
      change waiting m.hist = []
      have : ¬ 0 < m.lt.queue.size := fun hw => by have := h1 hw; omega
      exact List.length_eq_zero_iff.1 (by omega)
    | out =>
      have q3 : pendingOut m.hist = 0 := q3
      have h1 : m.lt.queue.size < m.lt.queue.cap → 0 < pendingOut m.hist := h1
      change (waiting m.hist).length = cap
      have : ¬ m.lt.queue.size < m.lt.queue.cap := fun hw => by have := h1 hw; omega
      omega

/-- A start and a run: three buffers are sent, the module is woken once and gets all of them over two
loops. -/
def demo : List (Act Nat) :=
  [.env (.send (some 1)), .env (.send (some 2)), .env (.send (some 3)), .event, .test, .user .recv, .ret true,
    .test, .user .recv, .ret true, .reinj, .test, .user .recv, .ret true, .test]

def demoOps : List (Op Nat) := [.assignOut .confirm, .assignInp .confirm, .setConnected false, .setConnected true, .startInp]

/-- Hypotheses of `C95_nothing_forgotten` hold in a run in which something happens. -/
example : Started .confirm .inp demoOps ∧ ∃ h s m, run (create 5) demoOps = some (h, s) ∧
    acts .inp (maxLoop .confirm 1 5) (begin s h) demo = some m ∧ Quiet .inp m ∧ m.refused = false ∧ received m.hist = [1, 2, 3] :=
  ⟨⟨[.assignOut .confirm], [.setConnected false], [], rfl, by simp [inpSide], by simp [inpSide], by simp⟩,
    _, _, _, rfl, rfl, ⟨rfl, rfl, rfl⟩, rfl, rfl⟩

/-- **C95, bounded loops.** One event never leads to more calls of the user method than the length of the
loop plus one. -/
theorem C95_bounded (k : Kind) (loop cap : Nat) (sd : Side) (s : LocalTransport.LT β) (h : List (Rec β)) (as : List (Act β)) (m : M β)
    (ha : acts sd (maxLoop k loop cap) (begin s h) as = some m) :
    (m.calls : Int) ≤ max (maxLoop k loop cap) 0 + 1 ∧ ((k = .every ∨ k = .none) → m.calls ≤ 1) := by
  have key : ∀ (as : List (Act β)) (m0 m : M β), Bounded (maxLoop k loop cap) m0 → acts sd (maxLoop k loop cap) m0 as = some m →
      Bounded (maxLoop k loop cap) m := by
    intro as
    induction as with
    | nil => intro m0 m i h; cases h; exact i
    | cons a as ih =>
      intro m0 m i h
      simp only [acts, Option.bind_eq_some_iff] at h
      obtain ⟨m1, h1, h2⟩ := h
      exact ih m1 m (i.act h1) h2
  have b := key as _ _ (by change ((0 : Nat) : Int) ≤ _; omega) ha
  have h1 : (m.calls : Int) ≤ max (maxLoop k loop cap) 0 + 1 := by
    unfold Bounded at b
    split at b <;> omega
  refine ⟨h1, fun hk => ?_⟩
  have : max (maxLoop k loop cap) 0 = 0 := by rcases hk with rfl | rfl <;> simp only [maxLoop] <;> omega
  omega

/-- The bound is reached. -/
example : ∃ h s m, run (create 5) demoOps = some (h, s) ∧ acts .inp (maxLoop .confirm 1 5) (begin s h) (demo.take 10) = some m ∧
    (m.calls : Int) = max (maxLoop .confirm 1 5) 0 + 1 := ⟨_, _, _, rfl, rfl, rfl⟩

/-- **C95, data is there when it is asked for.** When `ProcessRecv` is called, whatever other threads do
before its first `Recv`, that `Recv` returns the oldest buffer. -/
theorem C95_recv_ready (cap : Nat) (hc : 0 < cap) (hc2 : cap < 2147483648) (loop : Nat) (hl : loop < 2147483648) (k : Kind)
    (hk : k = .confirm ∨ k = .operation) (ops : List (Op β)) (h : List (Rec β)) (s : LocalTransport.LT β) (as : List (Act β)) (m0 m1 m2 : M β)
    (hs : Started k .inp ops) (hr : run (create cap) ops = some (h, s)) (ha : acts .inp (maxLoop k loop cap) (begin s h) as = some m0)
    (ht : act .inp (maxLoop k loop cap) m0 .test = some m1) (c : Int) (hm : m1.mode = .user c) (es : List (Op β))
    (he : acts .inp (maxLoop k loop cap) m1 (es.map .env) = some m2) :
    ∃ m3 b, act .inp (maxLoop k loop cap) m2 (.user .recv) = some m3 ∧ (waiting m2.hist).head? = some b ∧
      received m3.hist = received m2.hist ++ [b] := by
  have hn := maxLoop_nonneg hk hl hc2
  have i0 := (Inv.begin hc hk hs hr).acts hc hk hn ha
  have i1 := i0.act hc hk hn ht
  have w1 : 0 < m1.lt.queue.size := by
    simp only [act] at ht
    split at ht
    · simp only [Option.bind_eq_bind, Option.bind_eq_some_iff] at ht
      obtain ⟨⟨o, m'⟩, h1, ht⟩ := ht
      obtain ⟨w, s', e, rfl⟩ := perform_some h1
      simp only [lookOp, step, Option.some.injEq, Prod.mk.injEq] at e
      obtain ⟨rfl, -, rfl⟩ := e
      cases ht
      rcases hz : ready (Out.num m0.lt.queue.size : Out β) with _ | _
      · rw [hz] at hm; cases hm
      · exact of_decide_eq_true hz
    · cases ht
  have key : ∀ (es : List (Op β)) (m m2 : M β), Inv cap .inp k m → 0 < m.lt.queue.size → m.mode = .user c →
      acts .inp (maxLoop k loop cap) m (es.map .env) = some m2 → Inv cap .inp k m2 ∧ 0 < m2.lt.queue.size ∧ m2.mode = .user c := by
    intro es
    induction es with
    | nil => intro m m2 i w u h; cases h; exact ⟨i, w, u⟩
    | cons e es ih =>
      intro m m2 i w u h
      simp only [List.map_cons, acts, Option.bind_eq_some_iff] at h
      obtain ⟨m', h1, h2⟩ := h
      have i' := i.act hc hk hn h1
      simp only [act] at h1
      split at h1
      · cases h1
      next hne =>
        rw [Option.map_eq_some_iff] at h1
        obtain ⟨⟨o, m''⟩, h3, rfl⟩ := h1
        obtain ⟨w', s', e1, rfl⟩ := perform_some h3
        exact ih _ _ i' (Nat.lt_of_lt_of_le w (size_env i.data (InpInv.conn i.sig) (by simpa using hne) e1)) u h2
  obtain ⟨i2, w2, u2⟩ := key es m1 m2 i1 w1 hm he
  have hlen := i2.data.rep.len
  have hrp := i2.data.rep
  rw [List.length_map] at hlen
  rcases hw : waiting m2.hist with _ | ⟨b, l⟩
  · rw [hw] at hlen; simp at hlen; omega
  · rw [hw] at hrp
    obtain ⟨q, e1, -, -⟩ := recv_cons hrp
    obtain ⟨w, s', e2⟩ : ∃ w s', step m2.lt .recv = some (.got (some b), w, s') := ⟨_, _, by rw [step, e1]; rfl⟩
    refine ⟨{ m2 with lt := s', hist := m2.hist ++ [⟨.recv, .got (some b), w⟩] }, b, ?_, rfl, ?_⟩
    · simp only [act, u2, uses, if_pos, perform, e2, Option.bind_eq_bind, Option.bind_some, Option.map_some]
    · simp [received, Rec.received]

example : Started .confirm .inp demoOps ∧ ∃ h s m0 m1 m2, run (create 5) demoOps = some (h, s) ∧
    acts .inp (maxLoop .confirm 1 5) (begin s h) (demo.take 4) = some m0 ∧ act .inp (maxLoop .confirm 1 5) m0 .test = some m1 ∧
    m1.mode = .user 1 ∧ acts .inp (maxLoop .confirm 1 5) m1 ([Op.send (some 7), .disconnect false].map .env) = some m2 :=
  ⟨⟨[.assignOut .confirm], [.setConnected false], [], rfl, by simp [inpSide], by simp [inpSide], by simp⟩, _, _, _, _, _, rfl, rfl, rfl, rfl, rfl⟩

/-- `C95_nothing_forgotten` for an output: two buffers are sent, then the queue is full. -/
example : ∃ h s m, run (create 2) [.assignInp .confirm, .assignOut .operation, .setConnected true, .setConnected false, .startOut] = some (h, s) ∧
    acts .out (maxLoop .operation 0 2) (begin s h) [.event, .test, .user (.send (some 1)), .ret true, .test, .user (.send (some 2)), .ret true, .test] = some (m : M Nat) ∧
    Quiet .out m ∧ m.refused = false ∧ waiting m.hist = [1, 2] := ⟨_, _, _, rfl, rfl, ⟨rfl, rfl, rfl⟩, rfl, rfl⟩

/-- **C95 counterexample.** A loop length above 2147483647 is read as a negative number: the module takes one
buffer of two and is never woken again. -/
theorem C95_length_counterexample :
    ∃ h s m, run (create 5) demoOps = some (h, s) ∧
      acts .inp (maxLoop .confirm 4294967295 5) (begin s h) [.env (.send (some 1)), .env (.send (some 2)), .event, .test, .user .recv, .ret true] = some m ∧
      Quiet .inp m ∧ m.refused = false ∧ waiting m.hist = [2] := ⟨_, _, _, rfl, rfl, ⟨rfl, rfl, rfl⟩, rfl, rfl⟩

end Verif.AsyncLoop
