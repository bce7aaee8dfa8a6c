import Verif.MbsCombExact

/-! # The MBS event builder stays inside of its events -/

namespace Verif.MbsComb

open Verif.Bytes Verif.MbsIter

/-- The number of the event can be looked up. -/
def Readable (k : ICfg) (e : Ev) : Prop := k.realNum = true ∨ k.noNum = true ∨ e.subs ≠ []

theorem accept_defined {c : Cfg} {k : ICfg} {e : Ev} (h : Readable k e) : ∃ o, accept c k e = some o := by
  unfold accept
  split
  · exact ⟨_, rfl⟩
  · split
    · exact ⟨_, rfl⟩
    · rename_i hr
      split
      · exact ⟨_, rfl⟩
      · rename_i hn
        split
        · rename_i he
          rcases h with h | h | h
          · exact absurd h hr
          · exact absurd h hn
          · exact absurd (List.isEmpty_iff.1 he) h
        · split
          · exact ⟨_, rfl⟩
          · split <;> exact ⟨_, rfl⟩

theorem scan_defined {c : Cfg} {k : ICfg} : ∀ (l : List Ev), (∀ e ∈ l, Readable k e) → ∃ r, scan c k l = some r
  | [], _ => ⟨_, rfl⟩
  | e :: l, h => by
    unfold scan
    obtain ⟨o, ho⟩ := accept_defined (c := c) (h e (List.mem_cons_self ..))
    rw [ho]
    cases o with
    | none => exact scan_defined l fun x hx => h x (List.mem_cons_of_mem _ hx)
    | some u => exact ⟨_, rfl⟩

theorem find_defined {c : Cfg} {k : ICfg} : ∀ (q : List (List Ev)) (l : List Ev), (∀ e ∈ l ++ q.flatten, Readable k e) → ∃ r, find c k l q = some r
  | [], l, h => by
    unfold find
    obtain ⟨o, ho⟩ := scan_defined (c := c) l fun e he => h e (List.mem_append_left _ he)
    rw [ho]
    cases o <;> exact ⟨_, rfl⟩
  | b :: q, l, h => by
    unfold find
    obtain ⟨o, ho⟩ := scan_defined (c := c) l fun e he => h e (List.mem_append_left _ he)
    rw [ho]
    cases o with
    | none => exact find_defined q b fun e he => h e (List.mem_append_right _ (by rw [List.flatten_cons]; exact he))
    | some y => exact ⟨_, rfl⟩

/-- What an input still has can be read. -/
def InpOk (i : Inp) : Prop := ∀ e ∈ pending i, Readable i.cfg e

theorem shift_defined {c : Cfg} {i : Inp} (h : InpOk i) : ∃ i', shift c i = some i' := by
  unfold shift
  obtain ⟨r, hr⟩ := find_defined (c := c) (k := i.cfg) i.queue i.rest fun e he => h e (by unfold pending; rw [List.append_assoc]; exact List.mem_append_right _ he)
  rw [hr]
  exact ⟨_, rfl⟩

theorem collect_defined {c : Cfg} {env : Env} {mostly : Bool} : ∀ (n : Nat) (is : List Inp), (∀ i ∈ is, InpOk i) → ∃ q, collect c env mostly n is = some q
  | _, [], _ => ⟨_, rfl⟩
  | n, i :: is, h => by
    unfold collect
    have : ∃ i', (if i.cur.isSome then some i else shift c i) = some i' := by
      split
      · exact ⟨_, rfl⟩
      · exact shift_defined (h i (List.mem_cons_self ..))
    obtain ⟨i', hi⟩ := this
    rw [hi]
    dsimp only
    split
    · obtain ⟨q, hq⟩ := collect_defined (c := c) (env := env) (mostly := mostly) (n + 1) is fun j hj => h j (List.mem_cons_of_mem _ hj)
      rw [hq]
      exact ⟨_, rfl⟩
    · exact ⟨_, rfl⟩

theorem advance_defined {c : Cfg} {skip : Bool} : ∀ (l : List (Inp × Option Cur)), (∀ q ∈ l, InpOk q.1) → ∃ is, advance c skip l = some is
  | [], _ => ⟨_, rfl⟩
  | (i, u) :: l, h => by
    unfold advance
    have : ∃ i', (if u.isSome && !(skip && i.cfg.noNum) then shift c i else some i) = some i' := by
      split
      · exact shift_defined (h _ (List.mem_cons_self ..))
      · exact ⟨_, rfl⟩
    obtain ⟨i', hi⟩ := this
    rw [hi]
    obtain ⟨is, his⟩ := advance_defined (c := c) (skip := skip) l fun q hq => h q (List.mem_cons_of_mem _ hq)
    dsimp only
    rw [his]
    exact ⟨_, rfl⟩

theorem header_defined {sel : List (Inp × Option Cur)} (h : given (partsOf sel) ≠ []) : ∃ e, header sel = some e := by
  unfold header
  rw [← given_partsOf]
  dsimp only
  split
  · exact ⟨_, rfl⟩
  · cases hg : given (partsOf sel) with
    | nil => exact absurd hg h
    | cons q g => exact ⟨_, rfl⟩

theorem numbers_mem (c : Cfg) (l : List Word) (x : Word) : (numbers c (minmax l (x, x))).2 ∈ x :: l := by
  obtain ⟨_, _, _, g4, g5⟩ := minmax_spec l x x (BitVec.le_refl _)
  unfold numbers
  split
  · rcases g5 with g | g
    · dsimp only; rw [g]; exact List.mem_cons_self ..
    · exact List.mem_cons_of_mem _ g
  · rcases g4 with g | g
    · dsimp only; rw [g]; exact List.mem_cons_self ..
    · exact List.mem_cons_of_mem _ g

theorem selection_has {m : Word} : ∀ (is : List Inp), (∃ u ∈ numbered is, u.nr = m) → given (partsOf (is.zip (selection m false is))) ≠ []
  | [], h => by obtain ⟨u, hu, _⟩ := h; cases hu
  | i :: is, h => by
    obtain ⟨u, hu, hm⟩ := h
    unfold selection
    rw [given_partsOf]
    have ih := selection_has (m := m) is
    rw [given_partsOf] at ih
    unfold numbered at hu
    rw [List.filterMap_cons] at hu
    cases hc : i.cur with
    | none =>
      rw [hc] at hu
      have hu : u ∈ numbered is := by
        cases hn : i.cfg.noNum <;> (rw [hn] at hu; exact hu)
      exact ih ⟨u, hu, hm⟩
    | some v =>
      dsimp only
      rw [if_neg (by decide)]
      by_cases hv : v.nr = m
      · rw [if_pos (by rw [hv]; simp)]
        exact List.cons_ne_nil _ _
      · have hu : u ∈ numbered is := by
          rw [hc] at hu
          cases hn : i.cfg.noNum with
          | true => rw [hn] at hu; exact hu
          | false =>
            rw [hn] at hu
            rcases List.mem_cons.1 hu with rfl | hu
            · exact absurd hm hv
            · exact hu
        split
        · exact List.cons_ne_nil _ _
        · exact ih ⟨u, hu, hm⟩

theorem assemble_defined {c : Cfg} {env : Env} {s : St} (hs : ∀ i ∈ s.inps, InpOk i) : ∃ q, assemble c env s = some q := by
  unfold assemble
  cases hn : (numbered s.inps).map fun u => u.nr with
  | nil => exact ⟨_, rfl⟩
  | cons x l =>
    dsimp only
    have hm := numbers_mem c l x
    generalize numbers c (minmax l (x, x)) = r at hm
    split
    · exact ⟨_, rfl⟩
    · generalize hsp : ((numbered s.inps).any fun u => u.special) = special
      have hg : given (partsOf (s.inps.zip (selection r.2 special s.inps))) ≠ [] := by
        cases special with
        | true =>
          obtain ⟨i, u, h1, _⟩ := numbered_any_special s.inps hsp r.2
          rw [h1]
          exact List.cons_ne_nil _ _
        | false =>
          apply selection_has
          rw [← hn] at hm
          obtain ⟨u, h1, h2⟩ := List.mem_map.1 hm
          exact ⟨u, h1, h2⟩
      obtain ⟨h, hh⟩ := header_defined hg
      obtain ⟨q, hq⟩ := produce_defined (env := env) (s := s) hh
      obtain ⟨is, his⟩ := advance_defined (c := c) (skip := skips c env special (s.inps.zip (selection r.2 special s.inps))) (s.inps.zip (selection r.2 special s.inps))
        fun p hp => hs p.1 (List.of_mem_zip hp).1
      rw [hq, his]
      obtain ⟨s1, b⟩ := q
      split
      · rename_i heq
        split at heq <;> cases heq
      · exact ⟨_, rfl⟩
      · exact ⟨_, rfl⟩

theorem Rel.inpOk {c : Cfg} {is is' : List Inp} {ps : Parts} (h : Rel c is ps is') (hs : ∀ i ∈ is, InpOk i) : ∀ i ∈ is', InpOk i := by
  induction h with
  | nil => exact hs
  | @cons i i' o is is' ps h1 _ h3 _ ih =>
    intro j hj
    rcases List.mem_cons.1 hj with rfl | hj
    · intro e he
      rw [h1]
      exact hs i (List.mem_cons_self ..) e (((List.sublist_append_right _ _).trans h3).subset he)
    · exact ih (fun k hk => hs k (List.mem_cons_of_mem _ hk)) j hj

theorem buildEvent_defined {c : Cfg} {env : Env} {s : St} (hok : ∀ i ∈ s.inps, CurOk c i) (hs : ∀ i ∈ s.inps, InpOk i) : ∃ q, buildEvent c env s = some q := by
  unfold buildEvent
  dsimp only
  split
  · exact ⟨_, rfl⟩
  · obtain ⟨q, hq⟩ := collect_defined (c := c) (env := env) (mostly := anyInp (fun n i => !i.cfg.opt && env.full n) 0 s.inps) 0 s.inps hs
    rw [hq]
    obtain ⟨b, is⟩ := q
    cases b with
    | false => exact ⟨_, rfl⟩
    | true => exact assemble_defined (s := { s with inps := is }) ((collect_rel c env _ 0 s.inps hok hq).inpOk hs)

/-- Inputs of a run that can be read. -/
structure SafeInv (c : Cfg) (s : St) : Prop where
  ok : ∀ i ∈ s.inps, CurOk c i
  inps : ∀ i ∈ s.inps, InpOk i

theorem SafeInv.build {c : Cfg} {env : Env} {s : St} (h : SafeInv c s) : ∃ s' b, buildEvent c env s = some (s', b) ∧ SafeInv c s' ∧ s'.inps.map Inp.cfg = s.inps.map Inp.cfg := by
  obtain ⟨⟨s', b⟩, hq⟩ := buildEvent_defined (env := env) h.ok h.inps
  refine ⟨s', b, hq, ?_⟩
  rcases buildEvent_spec h.ok hq with ⟨h1, _⟩ | ⟨ps, e, h1, _⟩ <;> exact ⟨⟨h1.ok, h1.inpOk h.inps⟩, h1.cfgs.1⟩

theorem SafeInv.loop {c : Cfg} : ∀ (envs : List Env) {s : St}, SafeInv c s → ∃ s', buildLoop c envs s = some s' ∧ SafeInv c s' ∧ s'.inps.map Inp.cfg = s.inps.map Inp.cfg
  | [], s, h => ⟨s, rfl, h, rfl⟩
  | env :: envs, s, h => by
    obtain ⟨s1, b, h1, h2, h3⟩ := h.build (env := env)
    unfold buildLoop
    rw [h1]
    cases b with
    | true =>
      obtain ⟨s2, g1, g2, g3⟩ := SafeInv.loop envs h2
      exact ⟨s2, g1, g2, g3.trans h3⟩
    | false => exact ⟨s1, rfl, h2, h3⟩

theorem SafeInv.run {c : Cfg} {ks : List ICfg} : ∀ (ops : List Op) {s : St}, SafeInv c s → s.inps.map Inp.cfg = ks →
    (∀ n b, Op.arrive n b ∈ ops → ∀ k, ks[n]? = some k → ∀ e ∈ b, Readable k e) → ∃ s', MbsComb.run c ops s = some s'
  | [], s, _, _, _ => ⟨s, rfl⟩
  | o :: ops, s, h, hk, hr => by
    have hr' := fun n b hb => hr n b (List.mem_cons_of_mem o hb)
    unfold MbsComb.run
    cases o with
    | build env =>
      obtain ⟨s1, b, h1, h2, h3⟩ := h.build (env := env)
      show ∃ s', ((buildEvent c env s).map fun q => q.1).bind (MbsComb.run c ops) = some s'
      rw [h1]
      exact SafeInv.run ops h2 (h3.trans hk) hr'
    | timer envs b =>
      show ∃ s', (MbsComb.timer c envs b s).bind (MbsComb.run c ops) = some s'
      unfold MbsComb.timer
      split
      · obtain ⟨s1, h1, h2, h3⟩ := h.loop envs
        rw [h1]
        have hf := (flush_outputs b s1).2
        refine SafeInv.run ops (s := { (flushBuffer b s1).1 with flush := true }) ⟨?_, ?_⟩ ?_ hr'
        · show ∀ i ∈ (flushBuffer b s1).1.inps, _
          rw [hf]; exact h2.ok
        · show ∀ i ∈ (flushBuffer b s1).1.inps, _
          rw [hf]; exact h2.inps
        · show (flushBuffer b s1).1.inps.map Inp.cfg = ks
          rw [hf]; exact h3.trans hk
      · exact SafeInv.run ops (s := { s with flush := true }) ⟨h.ok, h.inps⟩ hk hr'
    | arrive n b =>
      show ∃ s', MbsComb.run c ops (MbsComb.arrive n b s) = some s'
      unfold MbsComb.arrive
      refine SafeInv.run ops ⟨fun i hi => ?_, fun i hi => ?_⟩ ?_ hr'
      · obtain ⟨m, hm⟩ := List.getElem?_of_mem hi
        rw [List.getElem?_modify] at hm
        cases hs : s.inps[m]? with
        | none => rw [hs] at hm; cases hm
        | some j =>
          rw [hs] at hm
          injection hm with hm
          have hj := h.ok j (List.mem_of_getElem? hs)
          split at hm <;> (subst hm; exact hj)
      · obtain ⟨m, hm⟩ := List.getElem?_of_mem hi
        rw [List.getElem?_modify] at hm
        cases hs : s.inps[m]? with
        | none => rw [hs] at hm; cases hm
        | some j =>
          rw [hs] at hm
          injection hm with hm
          have hj := h.inps j (List.mem_of_getElem? hs)
          split at hm
          · rename_i hnm
            subst hm
            intro e he
            unfold pending at he
            dsimp only at he
            rw [List.flatten_append, List.flatten_singleton, ← List.append_assoc] at he
            rcases List.mem_append.1 he with he | he
            · exact hj e he
            · refine hr n b (List.mem_cons_self ..) j.cfg ?_ e he
              rw [← hk, List.getElem?_map, hnm, hs]
              rfl
          · have hm : j = i := hm
            subst hm
            exact hj
      · rw [← hk]
        apply List.ext_getElem?
        intro k
        rw [List.getElem?_map, List.getElem?_map, List.getElem?_modify]
        cases s.inps[k]? with
        | none => rfl
        | some i => dsimp only [Option.map_some]; split <;> rfl

end Verif.MbsComb
