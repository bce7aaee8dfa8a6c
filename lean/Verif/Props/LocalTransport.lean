import Verif.LocalTransportWake

/-! # Properties C24, C25 (`dabc::LocalTransport`); specification in `Verif/Spec/LocalTransport.lean`. -/

namespace Verif.LocalTransport
open Verif.BuffersQueue
variable {β : Type}

/-! ## C24: delivery in order -/

/-- **C24, order.** In every execution of the two sides on a queue of any capacity: what was sent is what
left the connection followed by what waits, in sending order; what waits is what the queue holds and is
never more than the capacity; what was received is a sublist of what was sent. -/
theorem C24_order (cap : Nat) (hc : 0 < cap) (ops : List (Op β)) (h : List (Rec β)) (s : LT β)
    (hr : run (create cap) ops = some (h, s)) :
    sent h = gone h ++ waiting h ∧ (waiting h).length ≤ cap ∧ s.queue.size = (waiting h).length ∧
      (∀ n, n < (waiting h).length → s.queue.item n = ((waiting h)[n]?).map some) ∧ (received h).Sublist (sent h) := by
  have d := data_steps hc (run_steps ops hr).1
  have h1 := d.rep.len
  have h2 := d.rep.le
  rw [List.length_map] at h1
  refine ⟨d.fifo, by rw [h1, ← d.size]; exact h2, h1.symm, fun n hn => ?_, ?_⟩
  · rw [rep_item d.rep (by rw [List.length_map]; exact hn), List.getElem?_map]
  · rw [d.fifo]
    refine List.Sublist.trans ?_ (List.sublist_append_left _ _)
    clear hr d h1 h2
    induction h with
    | nil => exact List.Sublist.refl _
    | cons r h ih =>
      rw [received, gone, List.flatMap_cons, List.flatMap_cons]
      refine List.Sublist.append ?_ ih
      rw [List.append_assoc]
      exact List.sublist_append_left _ _

/-- Every record of a history belongs to a step from the state after the records before. -/
theorem steps_split {s0 s : LT β} {h : List (Rec β)} (hs : Steps s0 h s) : ∀ {p r t}, h = p ++ r :: t →
    ∃ s1 s2, Steps s0 p s1 ∧ step s1 r.op = some (r.out, r.wakes, s2) := by
  induction hs with
  | nil => intro p r t e; simp at e
  | @snoc h s op o w s' a b ih =>
    intro p r t e
    rcases List.eq_nil_or_concat t with rfl | ⟨t', x, rfl⟩
    · obtain ⟨rfl, e2⟩ := List.append_inj' (t₁ := [⟨op, o, w⟩]) (t₂ := [r]) e rfl
      simp only [List.cons.injEq, and_true] at e2
      subst e2
      exact ⟨s, s', a, b⟩
    · have e : h ++ [⟨op, o, w⟩] = (p ++ r :: t') ++ [x] := by rw [e]; simp
      obtain ⟨rfl, -⟩ := List.append_inj' e rfl
      exact ih rfl

/-- **C24, drops.** A `Send` skips a buffer only if the queue is full and the connection does not block at
that moment, and the skipped buffer is the oldest waiting one. -/
theorem C24_skip_oldest (cap : Nat) (hc : 0 < cap) (ops : List (Op β)) (h p t : List (Rec β)) (s : LT β) (r : Rec β) (a : β)
    (hr : run (create cap) ops = some (h, s)) (hp : h = p ++ r :: t) (hs : r.out = .sent (some a)) :
    (∃ b, r.op = .send (some b)) ∧ (waiting p).length = cap ∧ blocks p = false ∧ (waiting p).head? = some a := by
  obtain ⟨s1, s2, e1, e2⟩ := steps_split (run_steps ops hr).1 hp
  have d := data_steps hc e1
  obtain ⟨op, o, w⟩ := r
  dsimp only at hs e2 ⊢
  subst hs
  cases op with
  | send b =>
    cases b with
    | none => simp [step, send] at e2
    | some b =>
      rcases hf : full s1 with _ | _
      · obtain ⟨q, e3, -, -⟩ := send_room d.rep b hf
        simp [step, e3] at e2
      · rcases hb : blocking s1 with _ | _
        · obtain ⟨a', l, q, e0, e3, -, -⟩ := send_skip d.rep b hf hb
          simp only [step, e3, Option.bind_eq_bind, Option.bind_some, Option.some.injEq, Prod.mk.injEq, Out.sent.injEq] at e2
          obtain ⟨rfl, -⟩ := e2
          exact ⟨⟨b, rfl⟩, by rw [(full_iff d.rep).1 hf, d.size], by rw [d.blk, hb], by rw [e0]; rfl⟩
        · simp [step, send_block b hf hb] at e2
  | recv => simp [step, Option.bind_eq_some_iff] at e2
  | disconnect j => simp [step, Option.bind_eq_some_iff] at e2
  | _ => simp [step] at e2

/-- **C24, clean-up.** Buffers are thrown away by a `Disconnect` only when it leaves both sides
unconnected; then all waiting ones are released. -/
theorem C24_clear_when_unused (cap : Nat) (hc : 0 < cap) (ops : List (Op β)) (h p t : List (Rec β)) (s : LT β) (r : Rec β) (bs : List β)
    (hr : run (create cap) ops = some (h, s)) (hp : h = p ++ r :: t) (hs : r.out = .cleared bs) :
    (∃ i, r.op = .disconnect i) ∧
      ((linked true (p ++ [r]) = false ∧ linked false (p ++ [r]) = false ∧ bs = waiting p) ∨
       ((linked true (p ++ [r]) = true ∨ linked false (p ++ [r]) = true) ∧ bs = [])) := by
  obtain ⟨s1, s2, e1, e2⟩ := steps_split (run_steps ops hr).1 hp
  have d := data_steps hc e1
  have d2 := data_step d e2
  obtain ⟨op, o, w⟩ := r
  dsimp only at hs e2 d2 ⊢
  subst hs
  cases op with
  | disconnect j =>
    obtain ⟨bs', q, e3, e4, e5⟩ := disconnect_spec d.rep j
    simp only [step, e3, Option.bind_eq_bind, Option.bind_some, Option.some.injEq, Prod.mk.injEq, Out.cleared.injEq] at e2
    obtain ⟨rfl, -, rfl⟩ := e2
    refine ⟨⟨j, rfl⟩, ?_⟩
    have g1 := d2.inp
    have g2 := d2.out
    dsimp only at g1 g2
    rw [g1, g2]
    rcases e5 with ⟨e6, e7, e8, -⟩ | ⟨e6, e7, -⟩
    · exact Or.inl ⟨e6, e7, e8⟩
    · refine Or.inr ⟨?_, e7⟩
      revert e6
      cases (detach s1 j).2.connInp <;> cases (detach s1 j).2.connOut <;> simp
  | send b => simp [step, Option.bind_eq_some_iff] at e2
  | recv => simp [step, Option.bind_eq_some_iff] at e2
  | _ => simp [step] at e2

/-- **C24, blocking mode.** If the connection blocks in both states and one side stays connected from the
beginning of `ops`, nothing is lost: what was sent is what was received followed by what waits. -/
theorem C24_blocking_lossless (cap : Nat) (hc : 0 < cap) (ops : List (Op β)) (h : List (Rec β)) (s : LT β)
    (hr : run (create cap) ops = some (h, s)) (hb : ∀ p t, h = p ++ t → sent p ≠ [] → blocks p = true)
    (hk : ∀ p t, h = p ++ t → sent p ≠ [] → linked true p = true ∨ linked false p = true) :
    sent h = received h ++ waiting h := by
  have key : ∀ n p t, p.length = n → h = p ++ t → gone p = received p := by
    intro n
    induction n with
    | zero => intro p t hn _; rw [List.length_eq_zero_iff.1 hn]; rfl
    | succ n ih =>
      intro p t hn e
      rcases List.eq_nil_or_concat p with rfl | ⟨p, r, rfl⟩
      · cases hn
      rw [List.concat_eq_append] at hn e ⊢
      have e' : h = p ++ r :: t := by rw [e]; simp
      have ih := ih p _ (by simpa using hn) e'
      have hg : gone (p ++ [r]) = gone p ++ (r.received ++ r.skipped ++ r.cleared) := by simp [gone]
      have hrv : received (p ++ [r]) = received p ++ r.received := by simp [received]
      rw [hg, hrv, ih]
      congr 1
      obtain ⟨s1, s2, e1, e2⟩ := steps_split (run_steps ops hr).1 e'
      have d := data_steps hc e1
      have hsk : r.skipped = [] := by
        rcases ho : r.out with _ | k | b | n | bs
        case sent =>
          cases k with
          | none => simp [Rec.skipped, ho]
          | some a =>
            obtain ⟨-, g2, g3, g4⟩ := C24_skip_oldest cap hc ops h p t s r a hr e' ho
            have hne : sent p ≠ [] := by
              intro h0
              have := d.fifo
              rw [h0] at this
              have := List.append_eq_nil_iff.1 this.symm
              rw [this.2] at g4; cases g4
            rw [hb p _ e' hne] at g3; cases g3
        all_goals simp [Rec.skipped, ho]
      have hcl : r.cleared = [] := by
        rcases ho : r.out with _ | k | b | n | bs
        case cleared =>
          simp only [Rec.cleared, ho]
          obtain ⟨-, ⟨g1, g2, g3⟩ | ⟨-, g3⟩⟩ := C24_clear_when_unused cap hc ops h p t s r bs hr e' ho
          · by_cases h0 : sent (p ++ [r]) = []
            · have h1 : sent p = [] := by
                have : sent (p ++ [r]) = sent p ++ r.sent := by simp [sent]
                rw [this] at h0
                exact (List.append_eq_nil_iff.1 h0).1
              rw [g3, waiting, h1]; simp
            · have := hk (p ++ [r]) t (by rw [e]) h0
              rw [g1, g2] at this
              rcases this with h | h <;> cases h
          · exact g3
        all_goals simp [Rec.cleared, ho]
      rw [hsk, hcl]; simp
  have d := data_steps hc (run_steps ops hr).1
  rw [← key h.length h [] rfl (by simp)]
  exact d.fifo

/-- **C24, failure.** The only operation that may end the program is `Send` of a buffer into a full
blocking queue, which is exactly when `NumCanSend` answers zero. -/
theorem C24_exit_iff (cap : Nat) (hc : 0 < cap) (ops : List (Op β)) (h : List (Rec β)) (s : LT β)
    (hr : run (create cap) ops = some (h, s)) (op : Op β) :
    step s op = none ↔ (∃ b, op = .send (some b)) ∧ (waiting h).length = cap ∧ blocks h = true := by
  have d := data_steps hc (run_steps ops hr).1
  constructor
  · intro e
    cases op with
    | send b =>
      cases b with
      | none => simp [step, send] at e
      | some b =>
        refine ⟨⟨b, rfl⟩, ?_⟩
        rcases hf : full s with _ | _
        · obtain ⟨q, e3, -, -⟩ := send_room d.rep b hf
          simp [step, e3] at e
        · rcases hb : blocking s with _ | _
          · obtain ⟨a', l, q, e0, e3, -, -⟩ := send_skip d.rep b hf hb
            simp [step, e3] at e
          · exact ⟨by rw [(full_iff d.rep).1 hf, d.size], by rw [d.blk, hb]⟩
    | recv =>
      have hrp := d.rep
      rcases hw : waiting h with _ | ⟨a, l⟩
      · rw [hw] at hrp
        simp [step, recv_nil hrp] at e
      · rw [hw] at hrp
        obtain ⟨q, e1, -, -⟩ := recv_cons hrp
        simp [step, e1] at e
    | disconnect j =>
      obtain ⟨bs', q, e3, e4, e5⟩ := disconnect_spec d.rep j
      simp [step, e3] at e
    | _ => simp [step] at e
  · rintro ⟨⟨b, rfl⟩, h1, h2⟩
    rw [d.blk] at h2
    rw [step, send_block b ((full_iff d.rep).2 (by rw [h1, d.size])) h2]
    rfl

/-- **C24, capacity answer.** `NumCanSend` answers the free places, and one for a full queue which does
not block. -/
theorem C24_numCanSend (cap : Nat) (hc : 0 < cap) (ops : List (Op β)) (h : List (Rec β)) (s : LT β)
    (hr : run (create cap) ops = some (h, s)) :
    numCanSend s = if (waiting h).length < cap then cap - (waiting h).length else if blocks h then 0 else 1 := by
  have d := data_steps hc (run_steps ops hr).1
  have h1 := d.rep.len
  have h2 := d.rep.le
  have h3 := d.size
  rw [List.length_map] at h1
  rw [numCanSend, d.blk]
  by_cases hf : full s = true
  · have := (full_iff d.rep).1 hf
    rw [if_pos hf, if_neg (show ¬ (waiting h).length < cap by omega)]
  · have : ¬ _ := fun h => hf ((full_iff d.rep).2 h)
    rw [if_neg hf, if_pos (show (waiting h).length < cap by omega)]; omega

/-- Operations of the receiving side and of the sender's event handling which leave the connection as it is. -/
def plain : Op β → Bool
  | .recv | .canRecv | .signalWhenFull | .handleInp | .ignoreInp | .startInp | .handleOut | .ignoreOut | .startOut | .canSend => true
  | _ => false

theorem plain_step {cap : Nat} {h : List (Rec β)} {s s' : LT β} {op o w} (d : Data cap h s) (hg : plain op = true)
    (hs : step s op = some (o, w, s')) : s'.queue.cap = s.queue.cap ∧ s'.queue.size ≤ s.queue.size ∧ blocking s' = blocking s := by
  cases op with
  | recv =>
    simp only [step, Option.bind_eq_bind, Option.bind_eq_some_iff] at hs
    obtain ⟨⟨b, w', s''⟩, e, hs⟩ := hs
    simp only [Option.some.injEq, Prod.mk.injEq] at hs
    obtain ⟨-, -, rfl⟩ := hs
    obtain ⟨q, e1, e2, e3, e4⟩ := recv_cases d e
    have e6 : s'' = (recvTail { s with queue := q }).2 := congrArg Prod.snd e1
    subst e6
    exact ⟨e2, by show q.size ≤ _; omega, rfl⟩
  | signalWhenFull =>
    simp only [step, Option.some.injEq, Prod.mk.injEq] at hs
    obtain ⟨-, -, rfl⟩ := hs
    rw [signalWhenFull]
    split <;> exact ⟨rfl, Nat.le_refl _, rfl⟩
  | handleInp =>
    simp only [step, Option.some.injEq, Prod.mk.injEq] at hs
    obtain ⟨-, -, rfl⟩ := hs
    split <;> exact ⟨rfl, Nat.le_refl _, rfl⟩
  | handleOut =>
    simp only [step, Option.some.injEq, Prod.mk.injEq] at hs
    obtain ⟨-, -, rfl⟩ := hs
    split <;> exact ⟨rfl, Nat.le_refl _, rfl⟩
  | canRecv | ignoreInp | ignoreOut | startInp | startOut | canSend =>
    simp only [step, Option.some.injEq, Prod.mk.injEq] at hs
    obtain ⟨-, -, rfl⟩ := hs
    exact ⟨rfl, Nat.le_refl _, rfl⟩
  | send _ | setBlocking _ _ | assignInp _ | assignOut _ | setConnected _ | disconnect _ => cases hg

/-- **C24, `CanSend` stays true (partial).** If the sender saw that it can send, then after any operations
of the receiving side which do not change the connection its next `Send` succeeds.  Missing: operations
which connect or disconnect the other side; see the counterexample. -/
theorem C24_canSend_partial (cap : Nat) (hc : 0 < cap) (ops ops' : List (Op β)) (h h' : List (Rec β)) (s s' : LT β) (b : β)
    (hr : run (create cap) ops = some (h, s)) (hn : 0 < numCanSend s)
    (hr' : run s ops' = some (h', s')) (hp : ∀ op ∈ ops', plain op = true) : step s' (.send (some b)) ≠ none := by
  have d := data_steps hc (run_steps ops hr).1
  have key := run_inv (P := fun h t => Data cap h t ∧ t.queue.cap = s.queue.cap ∧ t.queue.size ≤ s.queue.size ∧ blocking t = blocking s) (fun op => plain op = true)
    (fun h t op o w t' p g e => by
      obtain ⟨g1, g2, g3⟩ := plain_step p.1 g e
      exact ⟨data_step p.1 e, g1.trans p.2.1, Nat.le_trans g2 p.2.2.1, g3.trans p.2.2.2⟩) ⟨d, rfl, Nat.le_refl _, rfl⟩ hp hr'
  obtain ⟨d', k1, k2, k3⟩ := key
  rcases hf : full s' with _ | _
  · obtain ⟨q, e3, -, -⟩ := send_room d'.rep b hf
    simp [step, e3]
  · rcases hb : blocking s' with _ | _
    · obtain ⟨a', l, q, e0, e3, -, -⟩ := send_skip d'.rep b hf hb
      simp [step, e3]
    · exfalso
      rw [k3] at hb
      have h1 : full s = true := by
        rw [full, beq_iff_eq] at hf ⊢
        have := d.rep.le
        omega
      rw [numCanSend, if_pos h1, hb] at hn
      simp at hn

/-- **C24 counterexample.** With the default setting the sender sees that it can send into the full queue
of an unconnected port; the receiver connects; the `Send` that follows ends the program. -/
theorem C24_connect_race_counterexample :
    ∃ h s s', run (create 1) [.assignOut .confirm, .setConnected false, .send (some 1)] = some (h, (s : LT Nat)) ∧ 0 < numCanSend s ∧
      run s [.assignInp .confirm, .setConnected true] = some s' ∧ step s'.2 (.send (some 2)) = none :=
  ⟨_, _, _, rfl, by decide, rfl, rfl⟩

/-! ## C25: wake-ups -/

/-- **C25, receiver (partial).** For a receiver which is connected once and started once, with signalling
"confirm" or "operation": whenever the last thing it did was to see an empty queue and there is data now,
an input event is on its way.  Missing: receivers that are stopped and started again or connected again,
see the counterexamples. -/
theorem C25_receiver_partial (cap : Nat) (hc : 0 < cap) (k : Kind) (hk : k = .confirm ∨ k = .operation) (ops : List (Op β))
    (h : List (Rec β)) (s : LT β) (hl : ReceiverLife k ops) (hr : run (create cap) ops = some (h, s))
    (hw : receiverWaits h = true) (hd : waiting h ≠ []) : 0 < pendingInp h := by
  obtain ⟨d, i⟩ := receiver_life hc hk hl hr
  refine i.wait hw ?_
  have := d.rep.len
  rw [List.length_map] at this
  rw [← this]
  exact List.length_pos_iff.2 hd

/-- **C25, sender (partial).** For a sender which is connected once and started once, with signalling
"confirm" or "operation": whenever the last thing it did was to see that it can not send and the queue has
space now, an output event is on its way.  Missing: as for the receiver. -/
theorem C25_sender_partial (cap : Nat) (hc : 0 < cap) (k : Kind) (hk : k = .confirm ∨ k = .operation) (ops : List (Op β))
    (h : List (Rec β)) (s : LT β) (hl : SenderLife k ops) (hr : run (create cap) ops = some (h, s))
    (hw : senderWaits h = true) (hd : (waiting h).length < cap) : 0 < pendingOut h := by
  obtain ⟨d, i⟩ := sender_life hc hk hl hr
  refine i.wait hw ?_
  have := d.rep.len
  rw [List.length_map] at this
  rw [← this, d.size]
  exact hd

/-- **C25, "every".** With signalling "every" each buffer sent to a connected receiver gives one input
event, and each `Recv` gives one output event. -/
theorem C25_every (cap : Nat) (hc : 0 < cap) (ops : List (Op β)) (h : List (Rec β)) (s s' : LT β) (b : β) (o w)
    (hr : run (create cap) ops = some (h, s)) :
    (s.inpKind = .every → s.connInp = true → s.inpSet = true → step s (.send (some b)) = some (o, w, s') → w = [.input]) ∧
    (s.outKind = .every → s.outSet = true → step s .recv = some (o, w, s') → w = [.output]) := by
  have d := data_steps hc (run_steps ops hr).1
  constructor
  · intro h1 h2 h3 hs
    simp only [step, Option.bind_eq_bind, Option.bind_eq_some_iff] at hs
    obtain ⟨⟨k', w', s''⟩, e, hs⟩ := hs
    cases hs
    obtain ⟨q, e1, -⟩ := send_cases d e
    have : w' = (sendTail { s with queue := q }).1 := congrArg Prod.fst e1
    rw [this]
    simp [sendTail, h1, h2, h3, signal]
  · intro h1 h2 hs
    simp only [step, Option.bind_eq_bind, Option.bind_eq_some_iff] at hs
    obtain ⟨⟨b, w', s''⟩, e, hs⟩ := hs
    cases hs
    obtain ⟨q, e1, -⟩ := recv_cases d e
    have : w' = (recvTail { s with queue := q }).1 := congrArg Prod.fst e1
    rw [this]
    simp [recvTail, h1, h2, signal]

/-- An execution which meets the hypotheses of `C25_receiver_partial` (and of the C24 theorems): the second
buffer comes after the receiver has seen the empty queue. -/
def sampleOps : List (Op Nat) :=
  [.assignInp .confirm, .assignOut .confirm, .setConnected true, .setConnected false, .startInp, .send (some 1), .handleInp, .recv, .canRecv, .send (some 2)]

example : ReceiverLife .confirm sampleOps :=
  ⟨[], [.assignOut .confirm], [.setConnected false], [.send (some 1), .handleInp, .recv, .canRecv, .send (some 2)], rfl, by simp, by simp [inpSide], by simp [inpSide], by simp [keepsInp]⟩

example : ∃ h s, run (create 1) sampleOps = some (h, s) ∧ receiverWaits h = true ∧ waiting h = [2] ∧ pendingInp h = 1 ∧ received h = [1] :=
  ⟨_, _, rfl, rfl, rfl, rfl, rfl⟩

/-- An execution which meets the hypotheses of `C25_sender_partial`. -/
def sampleOps2 : List (Op Nat) :=
  [.assignInp .confirm, .setConnected true, .assignOut .confirm, .setConnected false, .startOut, .handleOut, .send (some 1), .canSend, .recv]

example : SenderLife .confirm sampleOps2 :=
  ⟨[.assignInp .confirm, .setConnected true], [], [], [.handleOut, .send (some 1), .canSend, .recv], rfl, by simp [outSide], by simp, by simp, by simp [keepsOut]⟩

example : ∃ h s, run (create 1) sampleOps2 = some (h, s) ∧ senderWaits h = true ∧ waiting h = [] ∧ pendingOut h = 1 :=
  ⟨_, _, rfl, rfl, rfl, rfl⟩

/-- Non-blocking connection: the oldest buffer is skipped. -/
example : ∃ h s, run (create 1) [.setBlocking false false, .send (some 1), .send (some 2), .recv] = some (h, (s : LT Nat)) ∧
    h[2]?.map Rec.skipped = some [1] ∧ received h = [2] := ⟨_, _, rfl, rfl, rfl⟩

/-- Blocking connection with both hypotheses of `C24_blocking_lossless`. -/
example : ∃ h s, run (create 1) [.setBlocking true true, .setConnected true, .send (some 1), .recv, .send (some 2)] = some (h, (s : LT Nat)) ∧
    blocks h = true ∧ linked true h = true ∧ received h = [1] ∧ waiting h = [2] := ⟨_, _, rfl, rfl, rfl, rfl, rfl⟩

/-- **C25 counterexample, restart.** The receiver takes the second buffer in the same loop as the first, so
that its event is still on the way when the module is stopped; the stopped module drops the event; after
the restart no event is ever sent again: the receiver waits, data is there, nothing is on its way. -/
theorem C25_restart_counterexample :
    ∃ h s, run (create 2) [.assignInp .confirm, .assignOut .confirm, .setConnected true, .setConnected false, .startInp,
        .send (some 1), .handleInp, .recv, .send (some 2), .recv, .canRecv, .ignoreInp, .startInp, .canRecv, .send (some 3)] = some (h, (s : LT Nat)) ∧
      receiverWaits h = true ∧ waiting h = [3] ∧ pendingInp h = 0 := ⟨_, _, rfl, rfl, rfl, rfl⟩

/-- **C25 counterexample, reconnect.** A receiver which is connected to a queue whose former receiver did
not take its event is never told about data. -/
theorem C25_reconnect_counterexample :
    ∃ h s, run (create 2) [.assignInp .confirm, .assignOut .confirm, .setConnected true, .setConnected false, .startInp,
        .send (some 1), .handleInp, .recv, .send (some 2), .recv, .disconnect true, .ignoreInp,
        .assignInp .confirm, .setConnected true, .startInp, .canRecv, .send (some 3)] = some (h, (s : LT Nat)) ∧
      receiverWaits h = true ∧ waiting h = [3] ∧ pendingInp h = 0 := ⟨_, _, rfl, rfl, rfl, rfl⟩

/-- **C25 counterexample, sender restart.** The same for a sender: its event is dropped while it is stopped
with a full queue, and no event follows when the queue has space. -/
theorem C25_sender_restart_counterexample :
    ∃ h s, run (create 1) [.assignInp .confirm, .setConnected true, .assignOut .confirm, .setConnected false, .startOut, .handleOut, .send (some 1),
        .recv, .send (some 2), .ignoreOut, .startOut, .canSend, .recv] = some (h, (s : LT Nat)) ∧
      senderWaits h = true ∧ waiting h = [] ∧ pendingOut h = 0 := ⟨_, _, rfl, rfl, rfl, rfl⟩

end Verif.LocalTransport
