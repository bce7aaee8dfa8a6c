import Verif.NetTransportStorm

/-!
# C26, C27, C61: network transports
-/

namespace Verif.NetTr

/-- Parameters of `NetworkTransport` which the constructor makes fit, when `TransportQueue` is not larger than the queues of
the ports. -/
theorem fits_mkCfg (inp out : Option Nat) (ackn : Bool) (trInp trOut : Nat) (h1 : ∀ q, inp = some q → trInp ≤ q)
    (h2 : ∀ q, out = some q → trOut ≤ q) : Fits (mkCfg inp out ackn trInp trOut) := by
  unfold mkCfg Fits
  dsimp only
  constructor
  · cases out with
    | none => simp
    | some q => simp [h2 q rfl]
  · intro hi
    cases inp with
    | none => simp at hi
    | some q =>
      have := h1 q rfl
      dsimp only [Option.getD]
      split
      · rename_i hh; simp only [Bool.and_eq_true, decide_eq_true_eq] at hh; omega
      · omega

/-- Both sides of a connection: every output has an input at the other side. -/
theorem joined_mkCfg (inp out out' : Option Nat) (q : Nat) (ackn ackn' : Bool) (t1 t2 t3 t4 : Nat) :
    Joined (mkCfg inp out ackn t1 t2) (mkCfg (some q) out' ackn' t3 t4) := by
  intro _; rfl

/-! ## C26 flow control -/

/-- For every run of a connection where `a` is flow controlled: sends allowed at `a`, buffers under way to `b`, permissions
under way to `a` and permissions which `b` did not yet send are together the receive operations which `b` has submitted, plus
one for every acknowledge packet which `b` got.  Therefore not more buffers are under way than receive operations plus the
acknowledge packets got so far.  Full claim: without this addition (`C26_duplicate_counterexample`). -/
theorem C26_credits_partial (ca cb : Cfg) (hfa : Fits ca) (hfb : Fits cb) (hj : Joined ca cb) (hj' : Joined cb ca)
    (ha : 0 < ca.sendCap) (hb : cb.ackn = true ∧ cb.isInp = true) (ops : List (Bool × Op)) :
    ∃ s, run ca cb ops (Sys.init ca cb) = some s ∧
      s.a.allowed + (datas s.a.wire).length + credits s.b.wire + s.b.ready = s.b.netRecv.length + acks s.gotB ∧
      (datas s.a.wire).length ≤ s.b.netRecv.length + acks s.gotB ∧
      (acks s.gotB = 0 → Controlled s) := by
  obtain ⟨s, e1, e2⟩ := run_inv hfa hfb hj hj' ops (Inv.init ca cb)
  have := e2.ab.credit ha hb
  simp only [potP, potR] at this
  refine ⟨s, e1, by omega, by omega, fun h0 => ?_⟩
  unfold Controlled
  omega

example : Fits (mkCfg (some 2) (some 2) true 1 1) ∧ 0 < (mkCfg (some 2) (some 2) true 1 1).sendCap :=
  ⟨fits_mkCfg _ _ _ _ _ (by simp) (by simp), by decide⟩

/-- No buffer waits for ever for its permission: when everything else is done, nothing waits at `a`. -/
theorem C26_progress (ca cb : Cfg) (hfa : Fits ca) (hfb : Fits cb) (hj : Joined ca cb) (hj' : Joined cb ca)
    (ha : 0 < ca.sendCap) (hb : cb.ackn = true ∧ cb.isInp = true) (hq : cb.inCap ≤ cb.oqCap) (hq0 : 0 < cb.oqCap)
    (ops : List (Bool × Op)) (s : Sys) (hs : run ca cb ops (Sys.init ca cb) = some s) (hquiet : Quiet cb s) :
    s.a.sendQ = [] := by
  obtain ⟨s', e1, e2⟩ := run_inv hfa hfb hj hj' ops (Inv.init ca cb)
  rw [hs] at e1
  obtain rfl := Option.some.inj e1
  obtain ⟨q1, q2, q3, q4, q5⟩ := hquiet
  have hc := e2.ab.credit ha hb
  simp only [potP, potR, q1, q2, q5, datas, credits, List.length_nil] at hc
  have hbusy : s.b.busy = false := by
    have := e2.nb.base.nAck
    rw [q3] at this
    cases h : s.b.busy with
    | false => rfl
    | true => rw [h] at this; simp at this
  have hr := e2.nb.ready hb hbusy
  have hl : lim cb s.b.first ≤ cb.oqCap := by
    unfold lim; dsimp only; split <;> split <;> omega
  exact e2.na.sendq (by omega)

example : ∃ s, run (mkCfg (some 4) (some 4) true 1 1) (mkCfg (some 4) (some 4) true 1 1)
    [(false, .fill 9), (true, .fill 9), (true, .put 7), (true, .input), (true, .recv 9), (false, .sendDone), (true, .sendDone),
      (false, .recv 9), (true, .sendDone), (false, .recv 9), (false, .take), (false, .fill 9), (true, .recv 9), (false, .sendDone),
      (false, .recv 9), (true, .sendDone)]
    (Sys.init (mkCfg (some 4) (some 4) true 1 1) (mkCfg (some 4) (some 4) true 1 1)) = some s ∧
    s.takB = [7] ∧ Quiet (mkCfg (some 4) (some 4) true 1 1) s := by
  refine ⟨_, rfl, ?_⟩; unfold Quiet; decide +kernel

/-- The claim is violated: a connection in both directions, queues of length 2.  The acknowledge packet of `a` uses a receive
operation of `b`; the operation which replaces it is acknowledged as if it were for data. -/
theorem C26_duplicate_counterexample :
    ∃ s, run (mkCfg (some 2) (some 2) true 1 1) (mkCfg (some 2) (some 2) true 1 1)
      [(false, .fill 9), (true, .fill 9), (false, .sendDone), (false, .recv 9), (true, .recv 9), (true, .recv 9),
        (true, .sendDone), (true, .put 1), (true, .put 2), (true, .input), (true, .sendDone), (true, .sendDone),
        (true, .put 3), (true, .input)]
      (Sys.init (mkCfg (some 2) (some 2) true 1 1) (mkCfg (some 2) (some 2) true 1 1)) = some s ∧
      ¬ Controlled s ∧ datas s.a.wire = [1, 2, 3] := by
  refine ⟨_, rfl, ?_⟩
  unfold Controlled
  decide +kernel

/-- The claim is violated: a transport without an input does not wait for permissions at all, base/src/NetworkTransport.cxx:100. -/
theorem C26_output_counterexample :
    ∃ s, run (mkCfg none (some 2) true 1 1) (mkCfg (some 2) none true 1 1)
      [(false, .fill 9), (true, .put 1), (true, .put 2), (true, .input), (true, .sendDone), (true, .sendDone),
        (true, .put 3), (true, .input)]
      (Sys.init (mkCfg none (some 2) true 1 1) (mkCfg (some 2) none true 1 1)) = some s ∧
      ¬ Controlled s ∧ s.b.wire = [.ack 2] ∧ s.gotA = [] := by
  refine ⟨_, rfl, ?_⟩
  unfold Controlled
  decide +kernel

/-- The claim is violated: with queues shorter than `AcknoledgeQueueLength` at both sides the first acknowledge packet is never
sent, and no buffer ever arrives - whatever happens. -/
theorem C26_short_counterexample (ops : List (Bool × Op)) :
    ∃ s, run (mkCfg (some 1) (some 1) true 1 1) (mkCfg (some 1) (some 1) true 1 1) ops
      (Sys.init (mkCfg (some 1) (some 1) true 1 1) (mkCfg (some 1) (some 1) true 1 1)) = some s ∧
      s.gotA = [] ∧ s.gotB = [] ∧ s.a.wire = [] ∧ s.b.wire = [] := by
  have hf : Fits (mkCfg (some 1) (some 1) true 1 1) := fits_mkCfg _ _ _ _ _ (by simp) (by simp)
  have hj : Joined (mkCfg (some 1) (some 1) true 1 1) (mkCfg (some 1) (some 1) true 1 1) := fun _ => rfl
  obtain ⟨s, e1, e2⟩ := run_dead hf hf hj hj (by decide) (by decide) (by decide) (by decide) ops
    (s := Sys.init (mkCfg (some 1) (some 1) true 1 1) (mkCfg (some 1) (some 1) true 1 1))
    ⟨Inv.init _ _, ⟨rfl, rfl, rfl⟩, ⟨rfl, rfl, rfl⟩, rfl, rfl⟩
  exact ⟨s, e1, e2.ga, e2.gb, e2.sa.wire, e2.sb.wire⟩

/-- The claim is violated: with queues of length 2 every acknowledge packet which arrives causes another one, also when no
buffer is sent.  Once both sides have started, there is always an acknowledge packet under way or a send which is not finished
- whatever happens. -/
theorem C26_storm_counterexample (ops : List (Bool × Op)) :
    ∃ s, run (mkCfg (some 2) (some 2) true 1 1) (mkCfg (some 2) (some 2) true 1 1) ((false, .fill 9) :: (true, .fill 9) :: ops)
      (Sys.init (mkCfg (some 2) (some 2) true 1 1) (mkCfg (some 2) (some 2) true 1 1)) = some s ∧
      (0 < acks s.a.wire ∨ 0 < acks s.b.wire ∨ s.a.netSend ≠ [] ∨ s.b.netSend ≠ []) := by
  have hf : Fits (mkCfg (some 2) (some 2) true 1 1) := fits_mkCfg _ _ _ _ _ (by simp) (by simp)
  have hj : Joined (mkCfg (some 2) (some 2) true 1 1) (mkCfg (some 2) (some 2) true 1 1) := fun _ => rfl
  have hg : Grants (mkCfg (some 2) (some 2) true 1 1) := ⟨rfl, rfl⟩
  obtain ⟨s1, e1, e2⟩ := step_inv hf hf hj hj (Inv.init _ _) (false, Op.fill 9)
  obtain ⟨s2, e3, e4⟩ := step_inv hf hf hj hj e2 (true, Op.fill 9)
  have hs : Storm (mkCfg (some 2) (some 2) true 1 1) (mkCfg (some 2) (some 2) true 1 1) s2 := by
    have hrun : run (mkCfg (some 2) (some 2) true 1 1) (mkCfg (some 2) (some 2) true 1 1) [(false, .fill 9), (true, .fill 9)]
        (Sys.init (mkCfg (some 2) (some 2) true 1 1) (mkCfg (some 2) (some 2) true 1 1)) = some s2 := by
      unfold run; rw [e1]; dsimp only; unfold run; rw [e3]; rfl
    have key : ∀ s, run (mkCfg (some 2) (some 2) true 1 1) (mkCfg (some 2) (some 2) true 1 1) [(false, .fill 9), (true, .fill 9)]
        (Sys.init (mkCfg (some 2) (some 2) true 1 1) (mkCfg (some 2) (some 2) true 1 1)) = some s →
        s.a.first = false ∧ s.b.first = false ∧ 0 < potT s.a + potT s.b := by
      intro s hh
      obtain rfl := Option.some.inj hh
      decide +kernel
    obtain ⟨k1, k2, k3⟩ := key s2 hrun
    exact ⟨e4, k1, k2, k3⟩
  obtain ⟨s, e5, e6⟩ := run_storm hf hf hj hj hg hg (by decide) (by decide) ops hs
  refine ⟨s, ?_, e6.busy hg hg (by decide) (by decide)⟩
  unfold run
  rw [e1]
  dsimp only
  unfold run
  rw [e3]
  exact e5

/-! ## C27 operation records -/

/-- `TakeRec` gives a record which was free and changes no other, unless all are used. -/
theorem C27_take (w : Node) (hc : w.counter < w.recs.length) (k : Kind) (e b : Nat) :
    ((∀ (i : Nat) (r : Rec), w.recs[i]? = some r → r.used = true) ∧ takeRec w k e b = none) ∨
    ∃ id w' r, takeRec w k e b = some (id, w') ∧ w.recs[id]? = some r ∧ r.used = false ∧
      w'.recs[id]? = some ⟨true, k, e, b⟩ ∧ (∀ i, i ≠ id → w'.recs[i]? = w.recs[i]?) ∧ w'.recs.length = w.recs.length ∧
      w'.counter < w'.recs.length := by
  unfold takeRec
  have h1 := takeLoop_some w.recs w.recs.length w.counter hc
  have h2 := takeLoop_all w.recs w.counter hc
  generalize takeLoop w.recs w.recs.length w.counter = t at h1 h2
  obtain ⟨x, cnt'⟩ := t
  cases x with
  | none =>
    refine Or.inl ⟨fun i r hr => ?_, rfl⟩
    have := h2 rfl i (lt_get hr)
    unfold usedAt at this
    rwa [hr] at this
  | some id =>
    obtain ⟨h3, h4⟩ := h1.2 id rfl
    refine Or.inr ⟨id, _, w.recs[id], rfl, List.getElem?_eq_getElem h3, ?_, ?_, ?_, ?_, ?_⟩
    · unfold usedAt at h4; rwa [List.getElem?_eq_getElem h3] at h4
    · dsimp only; rw [List.getElem?_set_self h3]
    · intro i hi; dsimp only; rw [List.getElem?_set_ne (fun h => hi h.symm)]
    · simp
    · simpa using h1.1

example : (Node.init (mkCfg (some 2) (some 2) true 1 1)).counter < (Node.init (mkCfg (some 2) (some 2) true 1 1)).recs.length := by
  decide

/-- In every run: the program does not stop; the operations which the network holds, and those which wait for a permission,
have different records; these are the used records; `fInputQueueSize` and `fOutputQueueSize` count them; the queues of the
network interface (`AllocateNet` with two more places) are long enough. -/
theorem C27_records_partial (ca cb : Cfg) (hfa : Fits ca) (hfb : Fits cb) (hj : Joined ca cb) (hj' : Joined cb ca)
    (ops : List (Bool × Op)) :
    ∃ s, run ca cb ops (Sys.init ca cb) = some s ∧
      (s.a.netRecv ++ (s.a.netSend ++ s.a.sendQ)).Nodup ∧
      (∀ i r, s.a.recs[i]? = some r → (r.used = true ↔ i ∈ s.a.netRecv ++ (s.a.netSend ++ s.a.sendQ))) ∧
      (∀ i ∈ s.a.netRecv ++ (s.a.netSend ++ s.a.sendQ), i < ca.inCap + ca.outCap + 1) ∧
      s.a.inSize = s.a.netRecv.length ∧ s.a.netRecv.length ≤ ca.inCap + 2 ∧ s.a.netSend.length ≤ ca.outCap + 2 := by
  obtain ⟨s, e1, e2⟩ := run_inv hfa hfb hj hj' ops (Inv.init ca cb)
  have hB := e2.na.base
  refine ⟨s, e1, hB.nodup, fun i r hr => ?_, fun i hi => ?_, hB.insz, ?_, ?_⟩
  · have := hB.used i (lt_get hr)
    unfold usedAt at this
    rw [hr] at this
    exact this
  · have := hB.valid i hi
    rw [hB.len] at this
    exact this
  · have := hB.inle hfa; have := hB.insz; omega
  · have h1 := filter_split s.a.recs s.a.netSend hB.kSend
    have h2 := hB.nAck
    have h3 := hB.outsz
    have h4 := hB.outle
    have h5 := hB.portle
    have h6 := hfa.1
    split at h2 <;> omega

/-- In every run: all submitted receive operations find a place in the queue to the module. -/
theorem C27_room_partial (ca cb : Cfg) (hfa : Fits ca) (hfb : Fits cb) (hj : Joined ca cb) (hj' : Joined cb ca)
    (hi : ca.isInp = true) (ops : List (Bool × Op)) :
    ∃ s, run ca cb ops (Sys.init ca cb) = some s ∧ s.a.netRecv.length + s.a.outq.length ≤ ca.oqCap := by
  obtain ⟨s, e1, e2⟩ := run_inv hfa hfb hj hj' ops (Inv.init ca cb)
  have := e2.na.base.room
  rw [if_pos hi] at this
  exact ⟨s, e1, by rw [← e2.na.base.insz]; exact this⟩

example : (mkCfg (some 3) (some 4) true 1 1).isInp = true := rfl

/-- Not so when `TransportQueue` is larger than the queues of the ports: the records are not sufficient. -/
theorem C27_queue_counterexample :
    run (mkCfg (some 1) (some 1) false 10 10) (mkCfg (some 1) (some 1) false 10 10) [(true, .fill 20)]
      (Sys.init (mkCfg (some 1) (some 1) false 10 10) (mkCfg (some 1) (some 1) false 10 10)) = none ∧
    run (mkCfg (some 1) (some 1) false 10 10) (mkCfg (some 1) (some 1) false 10 10)
      [(true, .put 1), (true, .put 2), (true, .put 3), (true, .put 4), (true, .input)]
      (Sys.init (mkCfg (some 1) (some 1) false 10 10) (mkCfg (some 1) (some 1) false 10 10)) = none := by
  decide +kernel

/-! ## C61 delivery -/

/-- In every run: the buffers which the module of `b` has taken and those in its queue are the first buffers which the module of
`a` has put, in this order; the others are under way or wait at `a`, in this order. -/
theorem C61_order (ca cb : Cfg) (hfa : Fits ca) (hfb : Fits cb) (hj : Joined ca cb) (hj' : Joined cb ca)
    (ops : List (Bool × Op)) :
    ∃ s, run ca cb ops (Sys.init ca cb) = some s ∧
      ∃ rest, s.putA = s.takB ++ s.b.outq ++ datas s.a.wire ++ rest ∧ rest.length ≤ s.a.port.length := by
  obtain ⟨s, e1, e2⟩ := run_inv hfa hfb hj hj' ops (Inv.init ca cb)
  refine ⟨s, e1, waiting s.a, ?_, ?_⟩
  · rw [e2.ab.hist, e2.ab.taken]; simp [potD]
  · have := e2.na.base.outsz
    have := e2.na.base.outle
    simp only [waiting, List.length_append, List.length_map, List.length_drop]
    omega

/-- Nothing is lost: when the queue of `a` is empty and nothing is under way, `b` got all. -/
theorem C61_complete (ca cb : Cfg) (hfa : Fits ca) (hfb : Fits cb) (hj : Joined ca cb) (hj' : Joined cb ca)
    (ops : List (Bool × Op)) (s : Sys) (hs : run ca cb ops (Sys.init ca cb) = some s) (h1 : s.a.port = [])
    (h2 : s.a.wire = []) (h3 : s.b.outq = []) : s.takB = s.putA := by
  obtain ⟨s', e1, rest, e2, e3⟩ := C61_order ca cb hfa hfb hj hj' ops
  rw [hs] at e1
  obtain rfl := Option.some.inj e1
  rw [h1] at e3
  have : rest = [] := List.eq_nil_of_length_eq_zero (by simpa using e3)
  rw [e2, this, h2, h3]
  simp [datas]

/-- A buffer stays in the queue of the port until its sending is finished: when the network finishes a send of a buffer, it is
the first buffer of the queue. -/
theorem C61_hold (ca cb : Cfg) (hfa : Fits ca) (hfb : Fits cb) (hj : Joined ca cb) (hj' : Joined cb ca)
    (ops : List (Bool × Op)) (s : Sys) (hs : run ca cb ops (Sys.init ca cb) = some s) (id : Nat) (q : List Nat) (r : Rec)
    (h1 : s.a.netSend = id :: q) (h2 : s.a.recs[id]? = some r) (h3 : r.kind = .data) :
    s.a.port.head? = some r.buf ∧ ∃ s', step ca cb s (true, .sendDone) = some s' ∧ s'.a.port = s.a.port.tail := by
  obtain ⟨s', e1, e2⟩ := run_inv hfa hfb hj hj' ops (Inv.init ca cb)
  rw [hs] at e1
  obtain rfl := Option.some.inj e1
  obtain ⟨port, p1, p2, p3⟩ := e2.na.base.freeData h1 h2 h3
  refine ⟨by rw [p1]; rfl, ?_⟩
  unfold step stepA sendCompl
  dsimp only
  rw [h1]
  dsimp only
  rw [h2]
  dsimp only
  rw [h3, p1]
  dsimp only [releaseRec]
  rw [h2]
  exact ⟨_, rfl, rfl⟩

example : ∃ s, run (mkCfg none (some 2) false 1 1) (mkCfg (some 2) none false 1 1)
    [(false, .fill 9), (true, .put 1), (true, .put 2), (true, .input), (false, .recv 3), (true, .sendDone), (false, .recv 3),
      (true, .sendDone), (false, .take), (false, .take)]
    (Sys.init (mkCfg none (some 2) false 1 1) (mkCfg (some 2) none false 1 1)) = some s ∧
    s.a.port = [] ∧ s.a.wire = [] ∧ s.b.outq = [] ∧ s.takB = [1, 2] := by
  refine ⟨_, rfl, ?_⟩; decide +kernel

end Verif.NetTr
