import Verif.UdpLemmas

/-! # C38: every datagram is accounted for once, only intact ones are forwarded -/

namespace Verif.Udp

open Verif.Bytes Verif.Pointer Verif.HadTu Verif.HadIter

theorem Does.append {c : Cfg} {st st1 st' : St} {n n' : Prop} (h : Does c st st1 n) (h' : Does c st1 st' n') : Does c st st' False := by
  obtain ⟨_, B, h2, ⟨k, hk⟩, h3, _⟩ := h
  obtain ⟨i, B', g2, ⟨k', hk'⟩, g3, _⟩ := h'
  refine ⟨i, B ++ B', ?_, ⟨k + k', ?_⟩, ?_, fun h => h.elim⟩
  · rw [h2, g2, List.map_append, List.append_assoc]
  · rw [hk', hk, List.drop_drop]
  · intro A hA
    rw [← List.append_assoc]
    exact g3 _ (h3 A hA)

/-- Datagrams brought by an operation. -/
def brought : Op → List (List Byte)
  | .arrive d => [d]
  | _ => []

theorem step_spec {c : Cfg} (hc : c.Ok) {st : St} (h : Inv c st) (hsane : ∀ d ∈ st.net, Sane (d.take c.mtu)) (o : Op) :
    ∃ st', step c st o = some st' ∧ Does c { st with net := st.net ++ brought o } st' False := by
  have net0 : ({ st with net := st.net ++ [] } : St) = st := by rw [List.append_nil]
  cases o with
  | start =>
    obtain ⟨a1, a2, a3, _⟩ := assignNew_spec h
    refine ⟨_, rfl, ?_⟩
    simp only [brought]
    rw [net0]
    obtain ⟨i1, i2, i3, i4, i5, i6, _⟩ := a3
    refine ⟨a1.other rfl rfl rfl rfl rfl rfl rfl, [], ?_, ⟨0, i1⟩, ?_, fun h => h.elim⟩
    · show st.net.map _ = [] ++ (assignNew c st).1.net.map _
      rw [i1]
      rfl
    · intro A hA
      rw [List.append_nil]
      obtain ⟨l1, l2, l3, l4, l5, l6, l7, l8, l9, l10⟩ := hA
      exact ⟨l1, l2, l3, l4, i2.trans l5, i3.trans l6, i4.trans l7, i5.trans l8, i6.trans l9, ((output_other rfl rfl rfl rfl rfl rfl).trans a2).trans l10⟩
  | stop =>
    obtain ⟨a1, a2, a3⟩ := flush_spec true h
    refine ⟨_, rfl, ?_⟩
    simp only [brought]
    rw [net0]
    obtain ⟨i1, i2, i3, i4, i5, i6, _⟩ := a3
    refine ⟨a1.other rfl rfl rfl rfl rfl rfl rfl, [], ?_, ⟨0, i1⟩, ?_, fun h => h.elim⟩
    · show st.net.map _ = [] ++ (flushBuffer c true st).net.map _
      rw [i1]
      rfl
    · intro A hA
      rw [List.append_nil]
      obtain ⟨l1, l2, l3, l4, l5, l6, l7, l8, l9, l10⟩ := hA
      exact ⟨l1, l2, l3, l4, i2.trans l5, i3.trans l6, i4.trans l7, i5.trans l8, i6.trans l9, ((output_other rfl rfl rfl rfl rfl rfl).trans a2).trans l10⟩
  | read =>
    obtain ⟨st', g1, w1, B, w2, w3, w4, _⟩ := readUdp_spec hc h hsane
    refine ⟨st', g1, ?_⟩
    simp only [brought]
    rw [net0]
    exact ⟨w1, B, w2, w3, w4, fun h => h.elim⟩
  | flush =>
    obtain ⟨a1, a2, a3⟩ := flush_spec false h
    refine ⟨_, rfl, ?_⟩
    simp only [brought]
    rw [net0]
    exact Does.none a1 a3 a2
  | poolEvent =>
    obtain ⟨a1, a2, a3, _⟩ := assignNew_spec h
    simp only [step, brought]
    rw [net0]
    by_cases hr : (assignNew c st).2 = true
    · rw [if_pos hr]
      obtain ⟨st', g1, w1, B, w2, w3, w4, _⟩ := readUdp_spec hc a1 (by rw [a3.1]; exact hsane)
      exact ⟨st', g1, Does.before a3 a2 ⟨w1, B, w2, w3, w4, fun h => h.elim⟩⟩
    · rw [if_neg hr]
      exact ⟨_, rfl, Does.none a1 a3 a2⟩
  | sendEvent =>
    obtain ⟨a1, a2, a3, _⟩ := processSend_spec h
    refine ⟨_, rfl, ?_⟩
    simp only [brought]
    rw [net0]
    split
    · exact Does.none a1 a3 a2
    · exact Does.none h (Same.refl st) rfl
  | arrive d =>
    exact ⟨_, rfl, Does.none (h.other rfl rfl rfl rfl rfl rfl rfl) (Same.refl _) rfl⟩
  | provide content =>
    refine ⟨_, rfl, ?_⟩
    simp only [brought]
    rw [net0]
    have hne : ∀ b ∈ st.pool, b ≠ st.fresh := fun b hb he => Nat.lt_irrefl _ (he ▸ h.fresh b hb)
    have hi : Inv c { st with mem := put st.mem st.fresh content, fresh := st.fresh + 1, pool := st.pool ++ [st.fresh] } := by
      refine ⟨?_, ?_, ?_, h.assigned, ?_, h.scratch⟩
      · refine List.nodup_append.2 ⟨h.nodup, List.nodup_cons.2 ⟨List.not_mem_nil, List.nodup_nil⟩, ?_⟩
        intro a ha b hb
        rw [List.mem_singleton] at hb
        rw [hb]
        exact hne a ha
      · intro b hb
        show b < st.fresh + 1
        rcases List.mem_append.1 hb with hb | hb
        · exact Nat.lt_succ_of_lt (h.fresh b hb)
        · rw [List.mem_singleton] at hb
          omega
      · show st.ready ≤ (st.pool ++ [st.fresh]).length
        rw [List.length_append]
        exact Nat.le_trans h.ready (Nat.le_add_right _ _)
      · intro b off hb
        obtain ⟨h1, h2⟩ := h.tgt b off hb
        have hm := List.mem_of_getElem? h1
        refine ⟨?_, ?_⟩
        · show (st.pool ++ [st.fresh])[st.ready]? = some b
          rw [List.getElem?_append_left (List.getElem?_eq_some_iff.1 h1).1]
          exact h1
        · show off ≤ (put st.mem st.fresh content b).length
          rw [put_other _ _ (hne b hm)]
          exact h2
    refine Does.none hi (Same.refl _) ?_
    rw [output_eq, output_eq]
    congr 1
    · congr 1
      unfold waiting
      dsimp only
      rw [List.take_append_of_le_length h.ready]
      congr 1
      apply List.map_congr_left
      intro x hx
      rw [put_other _ _ (hne x (List.mem_of_mem_take hx))]
    · unfold filling
      dsimp only
      cases ht : st.tgt with
      | none => rfl
      | some t =>
        dsimp only
        have h1 := (h.tgt t.1 t.2 ht).1
        rw [put_other _ _ (hne _ (List.mem_of_getElem? h1))]
  | free =>
    refine ⟨_, rfl, ?_⟩
    simp only [brought]
    rw [net0]
    exact Does.none (h.other rfl rfl rfl rfl rfl rfl rfl) (Same.refl _) rfl

theorem run_spec {c : Cfg} (hc : c.Ok) : ∀ (ops : List Op) {st : St} {A : List (Mark × List Byte)}, Inv c st → Ledger st A →
    (∀ d ∈ st.net, Sane (d.take c.mtu)) → (∀ d, Op.arrive d ∈ ops → Sane (d.take c.mtu)) →
    ∃ st' B, run c st ops = some st' ∧ Inv c st' ∧ Ledger st' (A ++ B) ∧ (∀ d ∈ st'.net, Sane (d.take c.mtu)) ∧
      st.net.map (·.take c.mtu) ++ arrivals c ops = B.map Prod.snd ++ st'.net.map (·.take c.mtu) := by
  intro ops
  induction ops with
  | nil =>
    intro st A h hA hs _
    exact ⟨st, [], rfl, h, by rw [List.append_nil]; exact hA, hs, by rw [show arrivals c [] = [] from rfl, List.append_nil]; rfl⟩
  | cons o ops ih =>
    intro st A h hA hs hops
    obtain ⟨st1, g1, w1, B, w2, ⟨k, w3⟩, w4, _⟩ := step_spec hc h hs o
    have hA1 : Ledger { st with net := st.net ++ brought o } A := by
      obtain ⟨l1, l2, l3, l4, l5, l6, l7, l8, l9, l10⟩ := hA
      exact ⟨l1, l2, l3, l4, l5, l6, l7, l8, l9, (output_other rfl rfl rfl rfl rfl rfl).trans l10⟩
    dsimp only at w2 w3
    have hs1 : ∀ d ∈ st1.net, Sane (d.take c.mtu) := by
      intro d hd
      rw [w3] at hd
      rcases List.mem_append.1 (List.mem_of_mem_drop hd) with hd | hd
      · exact hs d hd
      · cases o with
        | arrive d' =>
          rw [show brought (.arrive d') = [d'] from rfl, List.mem_singleton] at hd
          exact hops d (by rw [hd]; exact List.mem_cons_self)
        | _ => exact absurd hd List.not_mem_nil
    obtain ⟨st', B', r1, r2, r3, r4, r5⟩ := ih w1 (w4 A hA1) hs1 (fun d hd => hops d (List.mem_cons_of_mem _ hd))
    refine ⟨st', B ++ B', ?_, r2, by rw [← List.append_assoc]; exact r3, r4, ?_⟩
    · show (step c st o).bind _ = _
      rw [g1]
      exact r1
    · have e : arrivals c (o :: ops) = (brought o).map (·.take c.mtu) ++ arrivals c ops := by
        cases o <;> rfl
      rw [e, ← List.append_assoc, ← List.map_append, w2, List.append_assoc, r5, List.map_append, List.append_assoc]

theorem init_inv {c : Cfg} (lostCnt : Int) {scratch : List Byte} (hs : scratch.length = c.mtu) : Inv c (init lostCnt scratch) :=
  ⟨List.nodup_nil, fun b hb => absurd hb List.not_mem_nil, Nat.le_refl _, rfl, fun b off hb => (by cases hb), hs⟩

theorem init_ledger (lostCnt : Int) (scratch : List Byte) : Ledger (init lostCnt scratch) [] := by
  constructor <;> first | rfl | (intro d hd; exact absurd hd List.not_mem_nil)

/-- **C38** For all sequences of arriving datagrams, events, timers and buffers becoming available: there is no access outside of a
buffer, and the datagrams taken from the network can be marked such that every one has exactly one mark, the accepted ones are intact,
the counters are the numbers of marks, and the output (sent and waiting buffers, and the one being filled) is made of the contents of the
accepted ones in the order of arrival. -/
theorem C38_account_partial {c : Cfg} (hc : c.Ok) (lostCnt : Int) {scratch : List Byte} (hscratch : scratch.length = c.mtu) (ops : List Op)
    (hsane : ∀ d, Op.arrive d ∈ ops → Sane (d.take c.mtu)) :
    ∃ st A, run c (init lostCnt scratch) ops = some st ∧ Ledger st A ∧ arrivals c ops = A.map Prod.snd ++ st.net.map (·.take c.mtu) := by
  obtain ⟨st, B, r1, _, r3, _, r5⟩ := run_spec hc ops (init_inv lostCnt hscratch) (init_ledger lostCnt scratch) (fun d hd => absurd hd List.not_mem_nil) hsane
  exact ⟨st, B, r1, r3, r5⟩

/-- **C38** Every datagram which is not empty is counted exactly once. -/
theorem C38_once_partial {c : Cfg} (hc : c.Ok) (lostCnt : Int) {scratch : List Byte} (hscratch : scratch.length = c.mtu) (ops : List Op)
    (hsane : ∀ d, Op.arrive d ∈ ops → Sane (d.take c.mtu)) (hne : ∀ d, Op.arrive d ∈ ops → d ≠ []) :
    ∃ st, run c (init lostCnt scratch) ops = some st ∧
      (arrivals c ops).length = st.recvPacket + st.discPacket + st.lostPacket + st.net.length := by
  obtain ⟨st, A, h1, h2, h3⟩ := C38_account_partial hc lostCnt hscratch ops hsane
  refine ⟨st, h1, ?_⟩
  rw [h3, List.length_append, List.length_map, List.length_map, h2.packets, h2.discarded, h2.losses]
  have hu : having .unseen A = [] := by
    cases hx : having .unseen A with
    | nil => rfl
    | cons d l =>
      exfalso
      have hd : d ∈ having .unseen A := by rw [hx]; exact List.mem_cons_self
      have h0 := h2.unseen d hd
      have hm : d ∈ arrivals c ops := by
        rw [h3]
        apply List.mem_append_left
        obtain ⟨x, hx1, hx2⟩ := List.mem_map.1 hd
        exact List.mem_map.2 ⟨x, (List.mem_filter.1 hx1).1, hx2⟩
      obtain ⟨o, ho1, ho2⟩ := List.mem_filterMap.1 hm
      cases o with
      | arrive d' =>
        dsimp only at ho2
        injection ho2 with ho2
        rw [h0] at ho2
        have h4 := congrArg List.length ho2
        rw [List.length_take] at h4
        have h5 : 0 < d'.length := List.length_pos_iff.2 (hne d' ho1)
        have h6 := hc.mtu
        simp only [List.length_nil] at h4
        omega
      | _ => cases ho2
  have key : ∀ B : List (Mark × List Byte), B.length = (having .accepted B).length + ((having .damaged B).length + (having .skipped B).length) + (having .lost B).length + (having .unseen B).length := by
    intro B
    induction B with
    | nil => rfl
    | cons x B ih =>
      obtain ⟨m, d⟩ := x
      have e : ∀ k, having k ((m, d) :: B) = having k [(m, d)] ++ having k B := fun k => having_append k [_] B
      simp only [e, having_one, List.length_append, List.length_cons, ih]
      cases m <;> simp <;> omega
  have := key A
  rw [hu] at this
  simp only [List.length_nil] at this
  omega

/-- **C38** While there is a buffer to read into, no intact datagram is thrown away except to simulate losses: in any state reached, all
the datagrams taken by one `ReadUdp` are accepted, damaged or lost. -/
theorem C38_noskip_partial {c : Cfg} (hc : c.Ok) (lostCnt : Int) {scratch : List Byte} (hscratch : scratch.length = c.mtu) (ops : List Op)
    (hsane : ∀ d, Op.arrive d ∈ ops → Sane (d.take c.mtu)) :
    ∃ st A, run c (init lostCnt scratch) ops = some st ∧ Ledger st A ∧ (noTgt st = false →
      ∃ st' B, readUdp c st = some st' ∧ Ledger st' (A ++ B) ∧ having .skipped B = [] ∧
        st.net.map (·.take c.mtu) = B.map Prod.snd ++ st'.net.map (·.take c.mtu)) := by
  obtain ⟨st, A, r1, r2, r3, r4, _⟩ := run_spec hc ops (init_inv lostCnt hscratch) (init_ledger lostCnt scratch) (fun d hd => absurd hd List.not_mem_nil) hsane
  refine ⟨st, A, r1, r3, fun hno => ?_⟩
  obtain ⟨st', g1, _, B, w2, _, w4, w5⟩ := readUdp_spec hc r2 r4
  exact ⟨st', B, g1, w4 A r3, w5 (Or.inl hno), w2⟩

/-! ### Examples and what goes wrong -/

def cfg : Cfg := { mtu := 64, maxLoop := 10, reduce := fun _ _ => false, lost := fun _ => 3 }

theorem cfg_ok : cfg.Ok := ⟨by decide, fun _ => rfl⟩

/-- A transport unit of 16 bytes with its trailer. -/
def packet : List Byte := [16, 0, 0, 0, 1, 0, 3, 0, 1, 2, 3, 4, 5, 6, 7, 8] ++ ([16, 0, 0, 0, 1, 0, 3, 0, 1, 2, 3, 4, 5, 6, 7, 8] ++ [16, 0, 0, 0, 1, 0, 3, 0, 1, 2, 3, 4, 5, 6, 7, 8])

example : Intact packet := by decide +kernel

example : Sane (packet.take cfg.mtu) := by
  intro _
  decide +kernel

/-- Two packets and a short one, room for one packet in a buffer. -/
def work : List Op := [.provide (List.replicate 80 0), .provide (List.replicate 80 0), .start, .arrive packet, .arrive [1, 2], .arrive packet, .read, .read]

example : (run cfg (init (-1) (List.replicate 64 0)) work).map (fun st => (st.recvPacket, st.discPacket, st.ready, st.net.length)) = some (2, 1, 1, 0) := by decide +kernel

example : (run cfg (init (-1) (List.replicate 64 0)) (work ++ [.free, .sendEvent])).map St.sent = some [packet.take 16 ++ packet.take 16] := by decide +kernel

/-- **C38** An 8 byte datagram whose size field is close to 2^32: the sum `GetPaddedSize() + 32` wraps to 8, the datagram passes the check of
the length, and the trailer is looked for 4 GB behind the datagram. -/
theorem C38_wild_counterexample :
    run cfg (init (-1) (List.replicate 64 0)) [.provide (List.replicate 80 0), .start, .arrive [0xe8, 0xff, 0xff, 0xff, 1, 0, 3, 0], .read] = none := by
  decide +kernel

/-- **C38** A datagram with 32 bytes whose header tells 4294967295 bytes: counted as accepted although it is not intact, and nothing of it is
forwarded. -/
theorem C38_wrap_counterexample :
    ¬ Intact ([0xff, 0xff, 0xff, 0xff, 1, 0, 3, 0] ++ List.replicate 24 0) ∧
    (run cfg (init (-1) (List.replicate 64 0)) [.provide (List.replicate 80 0), .start, .arrive ([0xff, 0xff, 0xff, 0xff, 1, 0, 3, 0] ++ List.replicate 24 0), .read]).map
      (fun st => (st.recvPacket, st.discPacket, output st)) = some (1, 0, []) := by
  decide +kernel

/-- **C38** An empty datagram is taken for the end of the connection: it is not counted. -/
theorem C38_empty_counterexample :
    (run cfg (init (-1) (List.replicate 64 0)) [.provide (List.replicate 80 0), .start, .arrive [], .read]).map
      (fun st => (st.recvPacket, st.discPacket, st.lostPacket, st.net.length)) = some (0, 0, 0, 0) := by
  decide +kernel

/-! ## The transport stays open -/

/-- Buffers in the queue have place for a datagram, the transport was not closed. -/
def Open (c : Cfg) (st : St) : Prop := st.closed = false ∧ ∀ b ∈ st.pool, c.mtu ≤ (st.mem b).length

theorem Open.same {c : Cfg} {st st' : St} (h : Open c st) (h1 : st'.closed = st.closed) (h2 : st'.pool = st.pool) (h3 : st'.mem = st.mem) : Open c st' :=
  ⟨h1.trans h.1, by rw [h2, h3]; exact h.2⟩

theorem processSend_open {c : Cfg} {st : St} (h : Open c st) : Open c (processSend st).1 := by
  unfold processSend
  dsimp only
  split
  · split
    · exact h.same rfl rfl rfl
    · rename_i b rest hp
      exact ⟨h.1, fun x hx => h.2 x (by rw [hp]; exact List.mem_cons_of_mem _ hx)⟩
  · exact h

theorem sendLoop_open {c : Cfg} : ∀ (n : Nat) {st : St}, Open c st → Open c (sendLoop n st) := by
  intro n
  induction n with
  | zero => intro st h; exact h
  | succ n ih =>
    intro st h
    rw [sendLoop]
    split
    · exact h
    · dsimp only
      split
      · exact ih (processSend_open h)
      · exact processSend_open h

theorem bufferReady_open {c : Cfg} {st : St} (h : Open c st) : Open c (bufferReady st) :=
  sendLoop_open _ (h.same rfl rfl rfl)

theorem closeBuffer_open {c : Cfg} {st : St} (h : Open c st) : Open c (closeBuffer st).1 := by
  unfold closeBuffer
  split
  · exact h
  · split
    · exact h
    · split
      · exact h
      · exact h.same rfl rfl rfl

theorem assignNew_open {c : Cfg} {st : St} (h : Open c st) : Open c (assignNew c st).1 := by
  unfold assignNew
  by_cases h1 : (st.assigned || decide (st.pool.length ≤ st.ready)) = true
  · rw [if_pos h1]; exact h
  · rw [if_neg h1]
    split
    · exact h
    · rw [Bool.or_eq_true, not_or, decide_eq_true_eq] at h1
      have hl : st.ready < st.pool.length := Nat.lt_of_not_le h1.2
      rw [List.getElem?_eq_getElem hl]
      dsimp only
      rw [if_neg]
      · exact h.same rfl rfl rfl
      · have := h.2 _ (List.getElem_mem hl)
        unfold rawsize
        dsimp only
        omega

theorem receive_open {c : Cfg} {st st' : St} {got area : List Byte} (h : Open c st) (mtubuf : Bool) (hr : receive mtubuf st got = some (st', area)) : Open c st' := by
  unfold receive at hr
  split at hr
  · split at hr
    · cases hr; exact h.same rfl rfl rfl
    · cases hr
  · split at hr
    · cases hr
    · rename_i b off _
      split at hr
      · rename_i hl
        cases hr
        refine ⟨h.1, fun x hx => ?_⟩
        have := h.2 x hx
        by_cases e : x = b
        · rw [e] at this ⊢
          show c.mtu ≤ (put st.mem b _ b).length
          rw [put_same]
          simp only [List.length_append, List.length_take, List.length_drop]
          omega
        · show c.mtu ≤ (put st.mem b _ x).length
          rw [put_other _ _ e]
          exact this
      · cases hr

theorem accept_open {c : Cfg} {st : St} (h : Open c st) (b off p res : Nat) : Open c (accept c st b off p res).1 := by
  unfold accept
  dsimp only
  split
  · exact assignNew_open (bufferReady_open (closeBuffer_open (h.same rfl rfl rfl)))
  · exact h.same rfl rfl rfl

theorem readLoop_open {c : Cfg} (mtubuf : Bool) : ∀ (n : Nat) {st st' : St}, Open c st → readLoop c mtubuf n st = some st' → Open c st' := by
  intro n
  induction n with
  | zero => intro st st' h hr; cases hr; exact h
  | succ n ih =>
    intro st st' h hr
    rw [readLoop] at hr
    split at hr
    · cases hr; exact h
    · dsimp only at hr
      split at hr
      · cases hr; exact h.same rfl rfl rfl
      · split at hr
        · cases hr
        · rename_i st1 area hrec
          have h1 : Open c st1 := by
            refine receive_open ?_ mtubuf hrec
            exact h.same rfl rfl rfl
          split at hr
          · refine ih ?_ hr; exact h1.same rfl rfl rfl
          · generalize hst2 : (if st1.lostCnt > 0 then { st1 with lostCnt := st1.lostCnt - 1 } else st1) = st2 at hr
            have h2 : Open c st2 := by
              rw [← hst2]
              split
              · exact h1.same rfl rfl rfl
              · exact h1
            split at hr
            · cases hr
            · refine ih ?_ hr; exact h2.same rfl rfl rfl
            · refine ih ?_ hr; exact h2.same rfl rfl rfl
            · split at hr
              · cases hr; exact h2.same rfl rfl rfl
              · split at hr
                · cases hr
                · split at hr
                  · exact ih (accept_open h2 _ _ _ _) hr
                  · cases hr; exact accept_open h2 _ _ _ _

theorem readUdp_open {c : Cfg} {st st' : St} (h : Open c st) (hr : readUdp c st = some st') : Open c st' := by
  unfold readUdp at hr
  split at hr
  · cases hr; exact h
  · dsimp only at hr
    generalize hq : (if noTgt st = true then assignNew c st else (st, true)) = r at hr
    have h1 : Open c r.1 := by
      rw [← hq]
      split
      · exact assignNew_open h
      · exact h
    split at hr
    · cases hr; exact h1.same rfl rfl rfl
    · split at hr
      · refine readLoop_open _ _ ?_ hr; exact h1.same rfl rfl rfl
      · split at hr
        · cases hr
        · split at hr
          · cases hr; exact h1
          · refine readLoop_open _ _ ?_ hr; exact h1.same rfl rfl rfl

theorem flush_open {c : Cfg} {st : St} (h : Open c st) (onclose : Bool) : Open c (flushBuffer c onclose st) := by
  unfold flushBuffer
  dsimp only
  refine Open.same (st := if (onclose || decide (st.lastSendCnt = st.sendCnt)) = true then
      (if (closeBuffer st).2 = true then (if onclose = true then bufferReady (closeBuffer st).1 else (assignNew c (bufferReady (closeBuffer st).1)).1) else (closeBuffer st).1)
    else st) ?_ rfl rfl rfl
  split
  · split
    · split
      · exact bufferReady_open (closeBuffer_open h)
      · exact assignNew_open (bufferReady_open (closeBuffer_open h))
    · exact closeBuffer_open h
  · exact h

/-- **C38** (stays open). As long as the pool provides buffers with place for a datagram, the receiver never closes itself. -/
theorem C38_open {c : Cfg} {lostCnt : Int} {scratch : List Byte} : ∀ {ops : List Op} {st : St}, (∀ content, Op.provide content ∈ ops → c.mtu ≤ content.length) →
    run c (init lostCnt scratch) ops = some st → st.closed = false := by
  have main : ∀ (ops : List Op) (st st' : St), (∀ content, Op.provide content ∈ ops → c.mtu ≤ content.length) → Open c st → run c st ops = some st' → Open c st' := by
    intro ops
    induction ops with
    | nil => intro st st' _ h hr; cases hr; exact h
    | cons o os ih =>
      intro st st' hp h hr
      rw [run] at hr
      cases hs : step c st o with
      | none => rw [hs] at hr; cases hr
      | some st1 =>
        rw [hs] at hr
        refine ih st1 st' (fun x hx => hp x (List.mem_cons_of_mem _ hx)) ?_ hr
        cases o with
        | start => cases hs; exact (assignNew_open h).same rfl rfl rfl
        | stop => cases hs; exact (flush_open h true).same rfl rfl rfl
        | read => exact readUdp_open h hs
        | flush => cases hs; exact flush_open h false
        | poolEvent =>
          rw [step] at hs
          split at hs
          · exact readUdp_open (assignNew_open h) hs
          · cases hs; exact assignNew_open h
        | sendEvent =>
          cases hs
          split
          · exact processSend_open h
          · exact h
        | arrive d => cases hs; exact h.same rfl rfl rfl
        | free => cases hs; exact h.same rfl rfl rfl
        | provide content =>
          cases hs
          refine ⟨h.1, fun x hx => ?_⟩
          show c.mtu ≤ (put st.mem st.fresh content x).length
          by_cases e : x = st.fresh
          · rw [e, put_same]
            exact hp content (List.mem_cons_self ..)
          · rw [put_other _ _ e]
            rcases List.mem_append.1 hx with g | g
            · exact h.2 x g
            · exact absurd (List.mem_singleton.1 g) e
  intro ops st hp hr
  exact (main ops _ st hp ⟨rfl, fun b hb => by (cases hb)⟩ hr).1

end Verif.Udp
