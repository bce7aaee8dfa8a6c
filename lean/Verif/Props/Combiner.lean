import Verif.CombinerComplete
import Verif.CombinerDest

/-! # C35: the HADAQ event builder combines items of one trigger; C56: destinations -/

namespace Verif.Combiner

open Verif.Trig

theorem arrivals_append (n : Nat) (a b : List Op) : arrivals n (a ++ b) = arrivals n a ++ arrivals n b := by
  unfold arrivals
  rw [List.filterMap_append, itemsOf_append]

theorem init_ledger (c : Cfg) (n : Nat) : Ledger c (fun p => arrivals p []) (init n) [] fun _ => [] := by
  refine ⟨?_, (fun col h => by cases h), fun _ _ => rfl, rfl, (fun _ col h => by cases h), fun _ _ _ => rfl, rfl, rfl, fun _ _ h => (by cases h), rfl, fun _ n e he => (by simp [events, init] at he), fun _ => rfl⟩
  intro p i hi
  unfold init at hi
  dsimp only at hi
  have := List.mem_of_getElem? hi
  rw [List.eq_of_mem_replicate this]
  exact ⟨rfl, (fun k hk => by cases hk), rfl⟩

theorem step_ledger {c : Cfg} {ops : List Op} {st : St} {cols : List (Word × List Item)} {As : Nat → List (Mark × Item)}
    (h : Ledger c (fun p => arrivals p ops) st cols As) (hne : st.inps ≠ []) (o : Op) :
    ∃ st' cols' As', step c st o = some st' ∧ Ledger c (fun p => arrivals p (ops ++ [o])) st' (cols ++ cols') As' ∧ st'.inps.length = st.inps.length := by
  have e : ∀ o, (∀ k b, o ≠ Op.arrive k b) → (fun p => arrivals p (ops ++ [o])) = fun p => arrivals p ops := by
    intro o ho
    funext p
    rw [arrivals_append]
    cases o with
    | arrive k b => exact absurd rfl (ho k b)
    | build env => exact List.append_nil _
    | timer env => exact List.append_nil _
  cases o with
  | arrive k b =>
    refine ⟨_, [], As, rfl, ?_, by simp⟩
    rw [List.append_nil]
    have hl : (st.inps.modify k fun i => { i with queue := i.queue ++ [b] }).length = st.inps.length := List.length_modify ..
    refine ⟨?_, ?_, ?_, h.made, h.tags, ?_, h.counted, h.bytes, h.room, h.types, h.numbers, h.bnet⟩
    · intro p j hj
      dsimp only at hj
      rw [List.getElem?_modify] at hj
      cases hp : st.inps[p]? with
      | none => rw [hp] at hj; cases hj
      | some i =>
        rw [hp] at hj
        change some _ = some j at hj
        have hi := h.input p i hp
        rw [arrivals_append]
        by_cases hk : k = p
        · rw [Option.some.injEq] at hj
          dsimp only at hj
          rw [if_pos hk] at hj
          subst hj
          refine ⟨?_, hi.current, hi.dropped⟩
          have e1 : arrivals p [Op.arrive k b] = itemsOf [b] := by
            unfold arrivals
            rw [List.filterMap_cons]
            dsimp only
            rw [if_pos hk]
            rfl
          rw [e1, hi.all]
          unfold unused
          dsimp only
          rw [itemsOf_append]
          simp only [List.append_assoc]
        · rw [Option.some.injEq] at hj
          dsimp only at hj
          rw [if_neg hk] at hj
          subst hj
          have e1 : arrivals p [Op.arrive k b] = [] := by
            unfold arrivals
            rw [List.filterMap_cons]
            dsimp only
            rw [if_neg hk]
            rfl
          rw [e1, List.append_nil]
          exact hi
    · dsimp only
      rw [hl]
      exact h.whole
    · dsimp only
      rw [hl]
      exact h.built
    · dsimp only
      rw [hl]
      exact h.flushed
  | build env =>
    rw [e _ fun k b h => by cases h]
    obtain ⟨st', r, cols', As', h1, h2, h3⟩ := buildEvent_ledger env h hne
    refine ⟨st', cols', As', ?_, h2, h3⟩
    rw [step, h1]
    rfl
  | timer env =>
    rw [e _ fun k b h => by cases h]
    obtain ⟨f1, f2, f3, f4, f5, f6⟩ := flush_spec c env st
    obtain ⟨As', h1⟩ := h.evolve (st' := (flush c env st).1) (by rw [f2]; exact .refl c _) f1 f3 f4 f5 (by
      intro cap evs ho
      rcases f6 with g | g
      · rw [g] at ho; exact h.room cap evs ho
      · rw [g] at ho; cases ho)
    exact ⟨_, [], As', rfl, by rw [List.append_nil]; exact h1, by rw [f2]⟩

theorem run_append (c : Cfg) : ∀ (a b : List Op) (st : St), run c st (a ++ b) = (run c st a).bind fun st => run c st b := by
  intro a
  induction a with
  | nil => intro b st; rfl
  | cons o a ih =>
    intro b st
    rw [List.cons_append, run, run]
    cases step c st o with
    | none => rfl
    | some s => exact ih b s

theorem run_ledger (c : Cfg) : ∀ (ops' ops : List Op) (st : St) (cols : List (Word × List Item)) (As : Nat → List (Mark × Item)),
    Ledger c (fun p => arrivals p ops) st cols As → st.inps ≠ [] →
    ∃ st' cols' As', run c st ops' = some st' ∧ Ledger c (fun p => arrivals p (ops ++ ops')) st' cols' As' ∧ st'.inps.length = st.inps.length := by
  intro ops'
  induction ops' with
  | nil => intro ops st cols As h _; exact ⟨st, cols, As, rfl, by rw [List.append_nil]; exact h, rfl⟩
  | cons o os ih =>
    intro ops st cols As h hne
    obtain ⟨st1, cols1, As1, h1, h2, h3⟩ := step_ledger h hne o
    obtain ⟨st', cols', As', g1, g2, g3⟩ := ih (ops ++ [o]) st1 _ As1 h2 (by
      intro e
      rw [e] at h3
      exact hne (List.eq_nil_of_length_eq_zero h3.symm))
    refine ⟨st', cols', As', ?_, ?_, g3.trans h3⟩
    · rw [run, h1]; exact g1
    · rw [List.append_assoc] at g2; exact g2

/-- **C35** (account). Whatever arrives at the inputs, in whatever order `BuildEvent` and the timer are called and whatever clocks, outputs and the pool
answer: no call hangs, and all items which arrived are accounted for. Missing for the full statement: items thrown away by `DropAllInputBuffers` are not
counted (`C35_dropall_counterexample`), the error flag of the event is lost (`C35_error_counterexample`). -/
theorem C35_account_partial (c : Cfg) (n : Nat) (hn : 0 < n) (ops : List Op) :
    ∃ st cols As, run c (init n) ops = some st ∧ st.inps.length = n ∧ Ledger c (fun p => arrivals p ops) st cols As := by
  obtain ⟨st, cols, As, h1, h2, h3⟩ := run_ledger c ops [] (init n) [] _ (init_ledger c n) (by
    unfold init
    intro e
    have := congrArg List.length e
    dsimp only at this
    rw [List.length_replicate] at this
    simp at this
    omega)
  exact ⟨st, cols, As, h1, h3.trans (by unfold init; dsimp only; rw [List.length_replicate]), h2⟩

/-- **C35** (completeness). When all inputs have an item with trigger number `n`, their numbers go up, and no timeout or lack of buffers disturbs, then the event with
this number is made, of these items, by at most as many calls as there are items and buffers waiting. -/
theorem C35_complete {c : Cfg} (hR : c.range.toNat < 2 ^ 31) {ninp : Nat} (hn : 0 < ninp) {ops : List Op} {st : St} (hrun : run c (init ninp) ops = some st)
    {n t : Word} {m : Nat} (h : Ready c n t m st) (envs : Nat → Env) (hg : ∀ j, Good (ninp * m) (envs j)) :
    ∃ k st' ev col, k ≤ waiting st ∧ run c st ((List.range (k + 1)).map fun j => Op.build (envs j)) = some st' ∧ ev ∈ events st' ∧ ev.items = kept c col ∧
      col.length = ninp ∧ ∀ (p : Nat) i, st.inps[p]? = some i → ∃ it, col[p]? = some it ∧ (it, n) ∈ labelled c i := by
  obtain ⟨st0, cols, As, r1, r2, r3⟩ := C35_account_partial c ninp hn ops
  rw [hrun] at r1
  cases r1
  clear hrun
  have main : ∀ (w : Nat) (st : St) (envs : Nat → Env) (arr : Nat → List Item) (cols : List (Word × List Item)) (As : Nat → List (Mark × Item)),
      Ledger c arr st cols As → st.inps.length = ninp → Ready c n t m st → (∀ j, Good (ninp * m) (envs j)) → waits st.inps ≤ w →
      ∃ k st' ev col, k ≤ w ∧ run c st ((List.range (k + 1)).map fun j => Op.build (envs j)) = some st' ∧ ev ∈ events st' ∧ ev.items = kept c col ∧
        col.length = ninp ∧ ∀ (p : Nat) i, st.inps[p]? = some i → ∃ it, col[p]? = some it ∧ (it, n) ∈ labelled c i := by
    intro w
    induction w with
    | zero =>
      intro st envs arr cols As hl hlen h hg hw
      obtain ⟨st', r, b1, b2⟩ := buildEvent_good hR h (by rw [hlen]; exact hg 0) hl.room
      rcases b2 with ⟨pre, ev, f1, col, f2, f3, f4⟩ | ⟨f1, f2, f3⟩
      · refine ⟨0, st', ev, col, Nat.le_refl _, ?_, by rw [f1]; simp, f2, f3.trans hlen, f4⟩
        show run c st [Op.build (envs 0)] = _
        rw [run, step, b1]
        rfl
      · omega
    | succ w ih =>
      intro st envs arr cols As hl hlen h hg hw
      obtain ⟨st', r, b1, b2⟩ := buildEvent_good hR h (by rw [hlen]; exact hg 0) hl.room
      rcases b2 with ⟨pre, ev, f1, col, f2, f3, f4⟩ | ⟨f1, f2, f3⟩
      · refine ⟨0, st', ev, col, Nat.zero_le _, ?_, by rw [f1]; simp, f2, f3.trans hlen, f4⟩
        show run c st [Op.build (envs 0)] = _
        rw [run, step, b1]
        rfl
      · obtain ⟨st2, r2, cols2, As2, l1, l2, l3⟩ := buildEvent_ledger (envs 0) hl h.inputs
        rw [b1] at l1
        cases l1
        obtain ⟨k, st3, ev, col, g1, g2, g3, g4, g5, g6⟩ := ih st' (fun j => envs (j + 1)) arr _ As2 l2 (l3.trans hlen) f1 (fun j => hg (j + 1)) (by omega)
        refine ⟨k + 1, st3, ev, col, by omega, ?_, g3, g4, g5, fun p i hp => ?_⟩
        · rw [List.range_succ_eq_map, List.map_cons, run, step, b1]
          rw [List.map_map]
          exact g2
        · obtain ⟨j, j1, j2⟩ := f2.get p i hp
          obtain ⟨it, i1, i2⟩ := g6 p j j1
          exact ⟨it, i1, j2.mem _ i2⟩
  obtain ⟨k, st', ev, col, g1, g2⟩ := main (waits st.inps) st envs _ cols As r3 r2 h hg (Nat.le_refl _)
  exact ⟨k, st', ev, col, g1, g2⟩

/-- **C56** (destinations). As a BNET sender with trigger numbers of up to 24 bits: all events in a buffer sent to output `d` carry trigger numbers whose bunch belongs to output `d`. -/
theorem C56_destination {c : Cfg} (hs : c.send = true) (ho : 2 ≤ c.nout) (hr : 0 < c.range.toNat) (hr2 : c.range.toNat ≤ 2 ^ 24) {n : Nat} (hn : 0 < n) {ops : List Op} {st : St}
    (hrun : run c (init n) ops = some st) : ∀ d evs, (d, evs) ∈ st.sent → ∀ e ∈ evs, d = some ((e.seq >>> 8).toNat / c.bunch % c.nout) := by
  have main : ∀ (ops' ops : List Op) (st : St) (cols : List (Word × List Item)) (As : Nat → List (Mark × Item)), Ledger c (fun p => arrivals p ops) st cols As → st.inps ≠ [] → Dest c st →
      ∀ st', run c st ops' = some st' → Dest c st' := by
    intro ops'
    induction ops' with
    | nil => intro ops st cols As _ _ h st' hr; cases hr; exact h
    | cons o os ih =>
      intro ops st cols As hl hne hd st' hrr
      obtain ⟨st1, cols1, As1, h1, h2, h3⟩ := step_ledger hl hne o
      rw [run, h1] at hrr
      refine ih (ops ++ [o]) st1 _ As1 h2 (fun e => ?_) ?_ st' hrr
      · rw [e] at h3
        exact hne (List.eq_nil_of_length_eq_zero h3.symm)
      · cases o with
        | arrive k b => cases h1; exact hd.same rfl rfl rfl
        | timer env => cases h1; exact (flush_dest hd env).1
        | build env =>
          cases hb : buildEvent c env st with
          | none => rw [step, hb] at h1; cases h1
          | some x =>
            obtain ⟨st2, r⟩ := x
            rw [step, hb] at h1
            cases h1
            refine buildEvent_dest hd hs hr hr2 ?_ env r hb
            intro i hi k hk
            obtain ⟨p, hp⟩ := List.getElem?_of_mem hi
            exact (hl.input p i hp).current k hk
  have hD := main ops [] (init n) [] _ (init_ledger c n) (by
    unfold init
    intro e
    have := congrArg List.length e
    dsimp only at this
    rw [List.length_replicate] at this
    simp at this
    omega) ⟨fun x hx => by (cases hx), fun _ _ h => by (cases h)⟩ st hrun
  intro d evs hx e he
  have := hD.sent _ hx e he
  dsimp only at this
  rw [← this]
  unfold destination
  rw [if_neg]
  rw [hs]
  simp
  omega

/-! ## Examples -/

def cfg0 : Cfg := { range := 0x1000000, recv := false, send := false, checkTag := false, skipEmpty := true, tolerance := 0, timeout := true, bunch := 16, nout := 1 }

def item (n tag : Nat) (size : Nat := 24) : Item := { trig := BitVec.ofNat 32 (n * 256 + tag), size := size, empty := false, err := false, typ := 1, data := n }

def goodEnv : Env := { dropTm := false, buildTm := false, canSend := fun _ => true, pool := some 1000 }

def dropEnv : Env := { dropTm := true, buildTm := true, canSend := fun _ => true, pool := some 1000 }

/-- Events made and items left, for the examples. -/
def summary (o : Option St) : Option (List (List Nat) × List Nat × List Nat) :=
  o.map fun st => ((events st).map fun e => e.items.map Item.data, st.inps.map fun i => (unused i).length, st.inps.map Inp.dropped)

/-- The first input lost trigger 6, the second one trigger 5: 5 and 6 are dropped, 7 is made. -/
def ops0 : List Op := [.arrive 0 (.items [item 5 1, item 7 1]), .arrive 1 (.items [item 6 1]), .arrive 1 .other, .arrive 1 (.items [item 7 1, item 8 1])]

example : summary (run cfg0 (init 2) (ops0 ++ [.build goodEnv, .build goodEnv, .build goodEnv])) = some ([[7, 7]], [0, 1], [1, 1]) := by
  simp [summary, run, ops0, step, buildEvent, gather, shift, next, number, collect, giveUp, align, align1, left, addItem, finish, prepare, makeRoom, build, advance, init, cfg0, goodEnv,
    item, Cfg.mask, diff, chosen, events, unused, itemsOf, sequence, Cur.tag, List.replicate, List.modify]

/-- **C35**, full statement violated: when all input buffers are dropped only the current item of every input is counted. Two items arrived at input 0, both
are gone, one is counted. -/
theorem C35_dropall_counterexample :
    summary (run cfg0 (init 2) [.arrive 0 (.items [item 5 1, item 6 1, item 7 1]), .build dropEnv]) = some ([], [0, 0], [1, 0]) := by
  simp [summary, run, step, buildEvent, gather, shift, next, number, collect, giveUp, init, cfg0, dropEnv, dropAll, dropInput,
    item, Cfg.mask, events, unused, itemsOf, List.replicate, List.modify]

/-- **C35**, full statement violated: an item with an error (subevent decoded with error bit) is put in an event whose id has no error bit. -/
theorem C35_error_counterexample :
    (run cfg0 (init 1) [.arrive 0 (.items [{ item 5 1 with err := true }]), .build goodEnv]).map (fun st => (events st).map fun e => (e.id, e.items.map Item.err, st.dataErrors)) =
      some [(0x2001, [true], 1)] := by
  simp [run, step, buildEvent, gather, shift, next, number, collect, giveUp, align, align1, addItem, finish, prepare, makeRoom, build, advance, init, cfg0, goodEnv,
    item, Cfg.mask, chosen, events, sequence, Cur.tag, List.replicate, List.modify, eventId, trigType, used]

/-- The state after an event too large for the buffers was skipped, when the next one is too large as well. -/
def stuck : St :=
  { inps := [{ rest := [item 7 1], queue := [], cur := some ⟨item 6 1 2000, 6⟩, last := 6, lost := 0, dropped := 1 }], out := some (1000, []), last := 0xffffffff, sent := [],
    runBuild := 0, discEvents := 1, droppedData := 0, recvBytes := 0, tagErrors := 0, dataErrors := 0, fullDrops := 0 }

/-- **C35** (completeness) needs the bound of sizes: after two events larger than the buffer nothing moves, even though outputs and pool are free and trigger 7 has all its items. -/
theorem C35_stuck_counterexample : run cfg0 (init 1) [.arrive 0 (.items [item 5 1 2000, item 6 1 2000, item 7 1]), .build goodEnv] = some stuck ∧
    ∀ env, buildEvent cfg0 env stuck = some (stuck, false) := by
  constructor
  · simp [run, step, buildEvent, gather, shift, next, number, collect, giveUp, align, align1, addItem, finish, prepare, makeRoom, advance, init, cfg0, goodEnv,
      item, Cfg.mask, sequence, Cur.tag, List.replicate, List.modify, used, stuck, diff]
  · intro env
    simp [buildEvent, gather, collect, giveUp, align, align1, addItem, finish, prepare, makeRoom, flush, cfg0, item, Cur.tag, used, stuck]

instance (R a b : Word) : Decidable (Ahead R a b) := inferInstanceAs (Decidable (_ ∧ _))

/-- The state after `ops0`. -/
def st0 : St :=
  { init 2 with inps := [{ rest := [], queue := [.items [item 5 1, item 7 1]], cur := none, last := 0xffffffff, lost := 0, dropped := 0 },
      { rest := [], queue := [.items [item 6 1], .other, .items [item 7 1, item 8 1]], cur := none, last := 0xffffffff, lost := 0, dropped := 0 }] }

/-- The hypotheses of `C35_complete` can be met. -/
example : run cfg0 (init 2) ops0 = some st0 ∧ Ready cfg0 7 1 24 st0 ∧ Good (2 * 24) goodEnv ∧ cfg0.range.toNat < 2 ^ 31 := by
  have m : ∀ {P : Inp → Prop}, (∀ i ∈ st0.inps, P i) ↔ P { rest := [], queue := [.items [item 5 1, item 7 1]], cur := none, last := 0xffffffff, lost := 0, dropped := 0 } ∧
      P { rest := [], queue := [.items [item 6 1], .other, .items [item 7 1, item 8 1]], cur := none, last := 0xffffffff, lost := 0, dropped := 0 } := by
    intro P
    simp [st0]
  refine ⟨by simp [run, ops0, step, init, st0, List.replicate, List.modify], ⟨by simp [st0], ?_, ?_, ?_, ?_, ?_⟩, ⟨rfl, fun _ => rfl, 1000, rfl, by decide, by decide⟩, by decide⟩
  · rw [m]
    exact ⟨⟨item 7 1, by decide +kernel⟩, ⟨item 7 1, by decide +kernel⟩⟩
  · rw [m]
    exact ⟨by decide +kernel, by decide +kernel⟩
  · rw [m]
    exact ⟨by decide +kernel, by decide +kernel⟩
  · intro h
    cases h
  · intro cap evs h
    cases h

def cfg1 : Cfg := { cfg0 with send := true, nout := 2, bunch := 4 }

/-- Triggers 7 and 8 go to outputs 1 and 0. -/
example : (run cfg1 (init 1) [.arrive 0 (.items [item 7 1, item 8 1]), .build goodEnv, .build goodEnv, .timer goodEnv]).map (fun st => st.sent.map fun x => (x.1, x.2.map Ev.seq)) =
    some [(some 1, [0x701]), (some 0, [0x801])] := by
  simp [run, step, buildEvent, gather, shift, next, number, collect, giveUp, align, align1, addItem, finish, prepare, makeRoom, flush, checkDestination, destination, build, advance, init, cfg1, cfg0, goodEnv,
    item, Cfg.mask, chosen, sequence, Cur.tag, List.replicate, List.modify, used, diff]

end Verif.Combiner
