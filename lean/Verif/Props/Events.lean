import Verif.EventsLemmas

/-! # Properties C20-C22 (thread events); vocabulary in `Verif/Spec/Events.lean`. -/

namespace Verif.Events
variable {E : Type}

/-! ## C20 -/

/-- **C20.** For every schedule of firing and fetching on a thread with `n` event queues and every
priority `j`: the events delivered, followed by the ones still waiting, are exactly the events fired
with that priority, in firing order.  So nothing is lost, duplicated or reordered. -/
theorem C20_events_fifo_per_priority (n : Nat) (ops : List (Op E)) (outs : List (Option (Nat × E))) (qs : List (EvQ E))
    (hrun : run (initQueues n) ops = some (outs, qs)) (j : Nat) :
    delivered j outs ++ waiting qs j = fired n j ops := by
  have := (run_waiting ops hrun).2 j
  rw [init_waiting] at this
  simpa [initQueues] using this

/-- **C20**, no false negative: a fetch answers "no event" only if no event waits in any queue. -/
theorem C20_fetch_none_only_if_empty (n : Nat) (ops : List (Op E)) (outs : List (Option (Nat × E)))
    (qs : List (EvQ E)) (hrun : run (initQueues n) (ops ++ [.fetch]) = some (outs ++ [none], qs)) (j : Nat) :
    (delivered j outs).length = (fired n j ops).length := by
  rw [run_append] at hrun
  simp only [run, Option.bind_eq_some_iff, Option.map_eq_some_iff] at hrun
  obtain ⟨⟨o1, q1⟩, h1, ⟨o2, q2⟩, h2, h3⟩ := hrun
  simp only [Option.bind_eq_bind, Option.bind_some, Option.some.injEq, Prod.mk.injEq] at h2 h3
  obtain ⟨rfl, rfl⟩ := h2
  obtain ⟨h3, _⟩ := h3
  obtain ⟨rfl, h4⟩ := List.append_inj' h3 rfl
  have hnone : (getNextEvent q1).1 = none := by simpa using h4
  have := C20_events_fifo_per_priority n ops o1 q1 h1 j
  rw [getNextEvent_none _ hnone j] at this
  rw [← this]; simp

/-- Three priorities, three events, fetched by priority; the fourth fetch finds nothing. -/
example : ∃ qs, run (initQueues 3) [.fire 'a' 2, .fire 'b' 0, .fetch, .fire 'c' (-1), .fetch, .fetch, .fetch]
    = some ([some (0, 'b'), some (2, 'a'), some (2, 'c'), none], qs) := ⟨_, rfl⟩

/-! ## C21 -/

/-- **C21.** No starvation: fire an event `e` with priority `j` at a moment when `w` events of this
priority wait.  Whatever is fired afterwards (with any priority), after at most `8^j * (2*w+2)` further
fetches the event has been delivered: it is the delivered event of priority `j` whose number is the
number of such events fired before.  For the three queues of a DABC thread the factor is 2, 16, 128. -/
theorem C21_no_starvation (n : Nat) (before after : List (Op E)) (e : E) (j : Nat) (hj : j < n)
    (outs0 : List (Option (Nat × E))) (qs0 : List (EvQ E)) (h0 : run (initQueues n) before = some (outs0, qs0))
    (outs : List (Option (Nat × E))) (qs : List (EvQ E))
    (hrun : run (initQueues n) (before ++ .fire e j :: after) = some (outs, qs))
    (hfetch : 8 ^ j * (2 * (waiting qs0 j).length + 2) ≤ fetches after) :
    (delivered j outs)[(fired n j before).length]? = some e := by
  rw [run_append, h0] at hrun
  simp only [run, Option.bind_eq_bind, Option.bind_some, Option.map_eq_some_iff, Option.bind_eq_some_iff] at hrun
  obtain ⟨⟨o2, q2⟩, ⟨qs1, h1, h2⟩, h3⟩ := hrun
  cases h3
  have hlen : qs0.length = n := by have := (run_waiting before h0).1; simpa [initQueues] using this
  obtain ⟨k, hk1, hk2, rfl⟩ := pushEvent_some h1
  have hkj : k = j := by
    simp only [prio] at hk1
    rw [if_neg (by omega)] at hk1; omega
  subst hkj
  have hc20 := C20_events_fifo_per_priority n before outs0 qs0 h0 k
  have hw : waiting (qs0.modify k fun q => { q with items := q.items ++ [e] }) k = waiting qs0 k ++ [e] := by
    rw [waiting_modify _ _ _ _ hk2]; simp
  have hsc : ScalersOk (qs0.modify k fun q => { q with items := q.items ++ [e] }) := by
    have : run qs0 [.fire e k] = some ([], qs0.modify k fun q => { q with items := q.items ++ [e] }) := by
      simp [run, h1]
    exact run_scalers _ this (run_scalers _ h0 (init_scalers n))
  have hkey := run_bound after (waiting qs0 k).length k h2 hsc (by rw [hw]; simp) (by
    have := bound_le (waiting qs0 k).length k _ hsc
    exact Int.le_trans this (Int.ofNat_le.mpr hfetch))
  have hafter := (run_waiting after h2).2 k
  rw [hw] at hafter
  have hfst : (delivered k o2)[(waiting qs0 k).length]? = some e := by
    have : (delivered k o2 ++ waiting q2 k)[(waiting qs0 k).length]? = some e := by
      rw [hafter]; simp
    rwa [List.getElem?_append_left hkey] at this
  rw [delivered_append, ← hc20, List.length_append, List.getElem?_append_right (by omega)]
  simpa using hfst

/-- The hypotheses are met by e.g. one low-priority event among high-priority traffic. -/
example : ∃ outs qs, run (initQueues 3) ([.fire 'a' 0] ++ .fire 'z' (1 : Nat) :: List.replicate 16 .fetch) = some (outs, qs) ∧
    8 ^ 1 * (2 * 0 + 2) ≤ fetches (List.replicate 16 (Op.fetch : Op Char)) := ⟨_, _, rfl, by decide⟩

/-! ## C22 -/

/-- **C22.** Code, item and argument are returned unchanged. -/
theorem C22_eventid_roundtrip (code item : BitVec 16) (arg : BitVec 32) :
    getCode (mkEventId code item arg) = code ∧ getItem (mkEventId code item arg) = item ∧
    getArg (mkEventId code item arg) = arg := by
  have h16 : (65535#16) = BitVec.allOnes 16 := by decide
  have h32 : (4294967295#32) = BitVec.allOnes 32 := by decide
  unfold getCode getItem getArg mkEventId
  refine ⟨?_, ?_, ?_⟩
  · rw [BitVec.setWidth_and, BitVec.setWidth_ofNat_of_le (by decide), h16, BitVec.and_allOnes]
    simp
  · apply BitVec.eq_of_getLsbD_eq
    intro i hi
    simp only [BitVec.getLsbD_setWidth, BitVec.getLsbD_ushiftRight, BitVec.getLsbD_or, BitVec.getLsbD_shiftLeft]
    rw [BitVec.getLsbD_of_ge arg _ (by omega), BitVec.getLsbD_of_ge code _ (by omega)]
    simp [hi, show 48 + i < 64 by omega, show i < 64 by omega]
  · rw [BitVec.setWidth_and, BitVec.setWidth_ofNat_of_le (by decide), h32, BitVec.and_allOnes]
    apply BitVec.eq_of_getLsbD_eq
    intro i hi
    simp only [BitVec.getLsbD_setWidth, BitVec.getLsbD_ushiftRight, BitVec.getLsbD_or, BitVec.getLsbD_shiftLeft]
    rw [BitVec.getLsbD_of_ge code _ (by omega)]
    simp [hi, show 16 + i < 64 by omega, show i < 64 by omega, show 16 + i < 48 by omega]

/-- The shorter constructors are the full one with zero arguments. -/
theorem C22_eventid_short (code item : BitVec 16) :
    mkEventId2 code item = mkEventId code item 0 ∧ mkEventId1 code = mkEventId code 0 0 := by
  simp [mkEventId, mkEventId1, mkEventId2]

/-- **C22**, injectivity: equal event values have equal parts. -/
theorem C22_eventid_injective (c1 c2 i1 i2 : BitVec 16) (a1 a2 : BitVec 32)
    (h : mkEventId c1 i1 a1 = mkEventId c2 i2 a2) : c1 = c2 ∧ i1 = i2 ∧ a1 = a2 := by
  have h1 := C22_eventid_roundtrip c1 i1 a1
  have h2 := C22_eventid_roundtrip c2 i2 a2
  rw [h] at h1
  exact ⟨h1.1.symm.trans h2.1, h1.2.1.symm.trans h2.2.1, h1.2.2.symm.trans h2.2.2⟩

example : mkEventId 0xffff 0x8001 0xdeadbeef = 0x8001deadbeefffff#64 := by decide

end Verif.Events
