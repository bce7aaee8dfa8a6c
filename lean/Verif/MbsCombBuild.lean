import Verif.MbsCombLemmas

/-! # What a call of the MBS event builder does -/

namespace Verif.MbsComb

open Verif.Bytes Verif.MbsIter

theorem given_partsOf (sel : List (Inp × Option Cur)) : given (partsOf sel) = sel.filterMap fun q => q.2.map fun u => (q.1.cfg, u.ev) := by
  unfold given partsOf
  rw [List.filterMap_map]
  congr 1
  funext q
  cases q with
  | mk i o => cases o <;> rfl

theorem given_evs (sel : List (Inp × Option Cur)) {α : Type} (f : Ev → α) : (given (partsOf sel)).map (fun q => f q.2) = sel.filterMap fun q => q.2.map fun u => f u.ev := by
  rw [given_partsOf, List.map_filterMap]
  congr 1
  funext q
  cases q with
  | mk i o => cases o <;> rfl

theorem mem_given {sel : List (Inp × Option Cur)} {q : ICfg × Ev} (h : q ∈ given (partsOf sel)) : ∃ i u, (i, some u) ∈ sel ∧ q = (i.cfg, u.ev) := by
  rw [given_partsOf, List.mem_filterMap] at h
  obtain ⟨⟨i, o⟩, h1, h2⟩ := h
  cases o with
  | none => cases h2
  | some u =>
    injection h2 with h2
    exact ⟨i, u, h1, h2.symm⟩

theorem header_spec {sel : List (Inp × Option Cur)} {h : Ev} (hh : header sel = some h) :
    ∃ q ∈ given (partsOf sel), q.2 = h ∧ ((∃ q' ∈ given (partsOf sel), q'.1.opt = false ∧ q'.1.realMbs = true) → q.1.opt = false ∧ q.1.realMbs = true) := by
  unfold header at hh
  rw [← given_partsOf] at hh
  dsimp only at hh
  generalize given (partsOf sel) = g at hh ⊢
  cases hf : g.find? (fun q => !q.1.opt && q.1.realMbs) with
  | some q =>
    rw [hf] at hh
    injection hh with hh
    have hp := List.find?_some hf
    rw [Bool.and_eq_true, Bool.not_eq_true'] at hp
    exact ⟨q, List.mem_of_find?_eq_some hf, hh, fun _ => hp⟩
  | none =>
    rw [hf] at hh
    dsimp only at hh
    have hn := List.find?_eq_none.1 hf
    cases g with
    | nil => cases hh
    | cons q g =>
      injection hh with hh
      refine ⟨q, List.mem_cons_self .., hh, fun ⟨q', h1, h2, h3⟩ => absurd ?_ (hn q' h1)⟩
      rw [h2, h3]
      rfl

theorem flush_outputs (b : Bool) (s : St) : outputs (flushBuffer b s).1 = outputs s ∧ (flushBuffer b s).1.inps = s.inps := by
  unfold flushBuffer
  cases ho : s.out with
  | none => exact ⟨rfl, rfl⟩
  | some o =>
    obtain ⟨n, l⟩ := o
    cases l with
    | nil => exact ⟨rfl, rfl⟩
    | cons e l =>
      cases b with
      | false => exact ⟨rfl, rfl⟩
      | true =>
        refine ⟨?_, rfl⟩
        unfold outputs
        rw [ho]
        simp

/-- The event made from the selected inputs with this header. -/
def built (sel : List (Inp × Option Cur)) (h : Ev) : Ev := { trig := h.trig, number := h.number, subs := ((given (partsOf sel)).map fun q => q.2.subs).flatten }

theorem produce_spec {env : Env} {s s' : St} {sel : List (Inp × Option Cur)} {b : Bool} (hp : produce env s sel = some (s', b)) :
    s'.inps = s.inps ∧ (outputs s' = outputs s ∨ (b = true ∧ ∃ h, header sel = some h ∧ outputs s' = outputs s ++ [built sel h])) := by
  unfold produce at hp
  dsimp only at hp
  generalize hsz : ((sel.filterMap fun q => q.2.map fun u => u.ev).map subsSize).sum % 2 ^ 32 = size at hp
  generalize hr : makeRoom env size s = r at hp
  have h1 : outputs r.1 = outputs s ∧ r.1.inps = s.inps := by
    rw [← hr]
    unfold makeRoom
    split
    · exact ⟨rfl, rfl⟩
    · split
      · exact ⟨rfl, rfl⟩
      · exact flush_outputs _ _
  clear hr
  split at hp
  · injection hp with hp
    injection hp with hp1 hp2
    subst hp1
    exact ⟨h1.2, Or.inl h1.1⟩
  · generalize hr2 : takeOut env r.1 = r2 at hp
    have h2 : outputs r2.1 = outputs s ∧ r2.1.inps = s.inps := by
      rw [← hr2]
      unfold takeOut
      split
      · exact h1
      · rename_i hn
        split
        · exact h1
        · split
          · exact h1
          · refine ⟨?_, h1.2⟩
            rw [← h1.1]
            unfold outputs
            rw [hn]
    clear hr2
    split at hp
    · injection hp with hp
      injection hp with hp1 hp2
      subst hp1
      exact ⟨h2.2, Or.inl h2.1⟩
    · split at hp
      · injection hp with hp
        injection hp with hp1 hp2
        subst hp1
        exact ⟨h2.2, Or.inl h2.1⟩
      · rename_i o ho
        split at hp
        · injection hp with hp
          injection hp with hp1 hp2
          subst hp1
          exact ⟨h2.2, Or.inl h2.1⟩
        · cases hh : header sel with
          | none => rw [hh] at hp; cases hp
          | some h =>
            rw [hh] at hp
            dsimp only at hp
            injection hp with hp
            injection hp with hp1 hp2
            have hev : ((sel.filterMap fun q => q.2.map fun u => u.ev).map Ev.subs) = (given (partsOf sel)).map fun q => q.2.subs := by
              rw [given_evs, List.map_filterMap]
              congr 1
              funext q
              cases q with
              | mk i o => cases o <;> rfl
            have h3 : outputs { r2.1 with out := some (o.1, o.2 ++ [{ trig := h.trig, number := h.number, subs := ((sel.filterMap fun q => q.2.map fun u => u.ev).map Ev.subs).flatten }]) } = outputs s ++ [built sel h] := by
              rw [← h2.1, hev]
              unfold outputs
              rw [ho]
              simp [built]
            split at hp1
            · subst hp1
              exact ⟨h2.2, Or.inr ⟨hp2.symm, h, rfl, h3⟩⟩
            · subst hp1
              refine ⟨(flush_outputs _ _).2.trans h2.2, Or.inr ⟨hp2.symm, h, rfl, ?_⟩⟩
              rw [(flush_outputs _ _).1]
              exact h3

theorem numbered_any_special (is : List Inp) (h : ((numbered is).any fun u => u.special) = true) (nr : Word) :
    ∃ i u, given (partsOf (is.zip (selection nr true is))) = [(i.cfg, u.ev)] ∧ i ∈ is ∧ i.cur = some u ∧ u.special = true := by
  induction is with
  | nil => cases h
  | cons i is ih =>
    have hnil : ∀ is : List Inp, given (partsOf (is.zip (is.map fun _ => (none : Option Cur)))) = [] := by
      intro is
      induction is with
      | nil => rfl
      | cons i is ih => exact ih
    unfold selection
    have hrec : ((numbered is).any fun u => u.special) = true →
        ∃ j u, given (partsOf ((i :: is).zip (none :: selection nr true is))) = [(j.cfg, u.ev)] ∧ j ∈ i :: is ∧ j.cur = some u ∧ u.special = true := by
      intro h
      obtain ⟨j, u, h1, h2, h3⟩ := ih h
      exact ⟨j, u, h1, List.mem_cons_of_mem _ h2, h3⟩
    cases hc : i.cur with
    | none =>
      apply hrec
      unfold numbered at h ⊢
      rw [List.filterMap_cons_none (by rw [hc]; simp)] at h
      exact h
    | some u =>
      dsimp only
      rw [if_pos rfl]
      by_cases hs : (u.special && !i.cfg.noNum) = true
      · rw [if_pos hs]
        refine ⟨i, u, ?_, List.mem_cons_self .., hc, (Bool.and_eq_true_iff.1 hs).1⟩
        show (i.cfg, u.ev) :: given (partsOf (is.zip (is.map fun _ => (none : Option Cur)))) = _
        rw [hnil]
      · rw [if_neg hs]
        apply hrec
        unfold numbered at h ⊢
        by_cases hn : i.cfg.noNum = true
        · rw [List.filterMap_cons_none (by rw [if_pos hn])] at h
          exact h
        · rw [List.filterMap_cons_some (b := u) (by rw [if_neg hn, hc]), List.any_cons, Bool.or_eq_true] at h
          rcases h with h | h
          · rw [h] at hs
            simp at hs
            exact absurd hs hn
          · exact h

/-- Without special events the selected inputs have the number, or no numbers. -/
theorem selection_number (nr : Word) : ∀ (is : List Inp) {i : Inp} {u : Cur}, (i, some u) ∈ is.zip (selection nr false is) → i ∈ is ∧ i.cur = some u ∧ (u.nr = nr ∨ i.cfg.noNum = true)
  | [], _, _, h => by cases h
  | j :: is, i, u, h => by
    unfold selection at h
    cases hc : j.cur with
    | none =>
      rw [hc] at h
      rcases List.mem_cons.1 h with h | h
      · injection h with _ h; cases h
      · obtain ⟨h1, h2⟩ := selection_number nr is h
        exact ⟨List.mem_cons_of_mem _ h1, h2⟩
    | some v =>
      rw [hc] at h
      dsimp only at h
      rw [if_neg (by decide)] at h
      rcases List.mem_cons.1 h with h | h
      · injection h with h h'
        subst h
        split at h'
        · rename_i hb
          injection h' with h'
          subst h'
          refine ⟨List.mem_cons_self .., hc, ?_⟩
          rw [Bool.or_eq_true, decide_eq_true_eq] at hb
          exact hb
        · cases h'
      · obtain ⟨h1, h2⟩ := selection_number nr is h
        exact ⟨List.mem_cons_of_mem _ h1, h2⟩

theorem skipped_none (env : Env) : ∀ (n : Nat) (l : List (Inp × Option Cur)), skipped env n l = false → ∀ i, (i, none) ∈ l → i.cfg.opt = true
  | _, [], _, _, h => by cases h
  | n, (j, u) :: l, hs, i, h => by
    unfold skipped at hs
    rw [Bool.or_eq_false_iff] at hs
    rcases List.mem_cons.1 h with h | h
    · injection h with h h'
      subst h h'
      unfold ICfg.opt
      have := hs.1
      revert this
      cases i.cfg.optional <;> cases i.cfg.noNum <;> simp
    · exact skipped_none env (n + 1) l hs.2 i h

theorem mem_numbered {is : List Inp} {i : Inp} {u : Cur} (hi : i ∈ is) (hc : i.cur = some u) (hn : i.cfg.noNum = false) : u ∈ numbered is := by
  unfold numbered
  rw [List.mem_filterMap]
  exact ⟨i, hi, by rw [if_neg (by rw [hn]; decide), hc]⟩

/-- What is built from a selection is built properly. -/
theorem built_merges {c : Cfg} {env : Env} {is : List Inp} {nr : Word} {special : Bool} {h : Ev} (hok : ∀ i ∈ is, CurOk c i)
    (hsp : special = (numbered is).any fun u => u.special)
    (hskip : skips c env special (is.zip (selection nr special is)) = false)
    (hh : header (is.zip (selection nr special is)) = some h) : Merges c (partsOf (is.zip (selection nr special is))) (built (is.zip (selection nr special is)) h) := by
  unfold skips at hskip
  refine ⟨rfl, ?_, ?_⟩
  · obtain ⟨q, h1, h2, h3⟩ := header_spec hh
    subst h2
    exact ⟨q, h1, rfl, rfl, h3⟩
  · cases hs : special with
    | true =>
      left
      rw [hs] at hsp
      obtain ⟨i, u, h1, h2, h3, h4⟩ := numbered_any_special is hsp.symm nr
      exact ⟨_, h1, (accept_special (hok i h2 u h3)).1 h4⟩
    | false =>
      right
      rw [hs] at hsp hskip
      refine ⟨⟨nr, fun q hq hn => ?_⟩, fun hc q hq hn => ?_, fun hc => ?_⟩
      · obtain ⟨i, u, h1, rfl⟩ := mem_given hq
        obtain ⟨h2, h3, h4⟩ := selection_number nr is h1
        have hns : u.special = false := by
          have := List.any_eq_false.1 hsp.symm u (mem_numbered h2 h3 hn)
          simpa using this
        refine ⟨fun hspec => ?_, ?_⟩
        · have := (accept_special (hok i h2 u h3)).2 hspec
          rw [hns] at this
          cases this
        · have := accept_number (hok i h2 u h3) hns hn
          rcases h4 with h4 | h4
          · rw [← h4]
            exact this
          · rw [show i.cfg.noNum = false from hn] at h4
            cases h4
      · unfold partsOf at hq
        obtain ⟨⟨i, o⟩, h1, rfl⟩ := List.mem_map.1 hq
        cases o with
        | some u => cases hn
        | none =>
          rw [Bool.or_eq_false_iff] at hskip
          refine skipped_none env 0 _ ?_ i h1
          have := hskip.1
          rw [hc] at this
          simpa using this
      · rw [given_evs (f := fun e => e.subs.map Sub.id)]
        rw [Bool.or_eq_false_iff] at hskip
        have := hskip.2
        rw [hc] at this
        simpa using this

theorem assemble_spec {c : Cfg} {env : Env} {s s' : St} {b : Bool} (hok : ∀ i ∈ s.inps, CurOk c i) (h : assemble c env s = some (s', b)) :
    (Rel c s.inps (noParts s.inps) s'.inps ∧ outputs s' = outputs s) ∨
    ∃ ps e, Rel c s.inps ps s'.inps ∧ Merges c ps e ∧ outputs s' = outputs s ++ [e] := by
  unfold assemble at h
  split at h
  · injection h with h
    injection h with h _
    subst h
    exact Or.inl ⟨Rel.refl hok, rfl⟩
  · rename_i x l hx
    dsimp only at h
    generalize numbers c (minmax l (x, x)) = r at h
    generalize hsp : ((numbered s.inps).any fun u => u.special) = special at h
    split at h
    · injection h with h
      injection h with h _
      subst h
      exact Or.inl ⟨Rel.refl hok, rfl⟩
    · generalize hsk : skips c env special (s.inps.zip (selection r.2 special s.inps)) = skip at h
      have hsel := selection_cur r.2 special s.inps
      cases skip with
      | true =>
        rw [if_pos rfl] at h
        dsimp only at h
        cases ha : advance c true (s.inps.zip (selection r.2 special s.inps)) with
        | none => rw [ha] at h; cases h
        | some is' =>
          rw [ha] at h
          injection h with h
          injection h with h _
          subst h
          exact Or.inl ⟨(advance_rel c true s.inps _ hsel hok ha).1, rfl⟩
      | false =>
        rw [if_neg (by decide)] at h
        cases hp : produce env s (s.inps.zip (selection r.2 special s.inps)) with
        | none => rw [hp] at h; cases h
        | some q =>
          obtain ⟨s1, b1⟩ := q
          rw [hp] at h
          obtain ⟨hi, ho⟩ := produce_spec hp
          cases b1 with
          | false =>
            injection h with h
            injection h with h _
            subst h
            rcases ho with ho | ⟨hb, _⟩
            · rw [hi]
              exact Or.inl ⟨Rel.refl hok, ho⟩
            · cases hb
          | true =>
            dsimp only at h
            cases ha : advance c false (s.inps.zip (selection r.2 special s.inps)) with
            | none => rw [ha] at h; cases h
            | some is' =>
              rw [ha] at h
              injection h with h
              injection h with h _
              subst h
              obtain ⟨r1, r2⟩ := advance_rel c false s.inps _ hsel hok ha
              rcases ho with ho | ⟨_, hd, hhd, ho⟩
              · exact Or.inl ⟨r1, ho⟩
              · exact Or.inr ⟨_, _, r2 rfl, built_merges hok hsp.symm hsk hhd, ho⟩

/-- What one call of `BuildEvent` does. -/
theorem buildEvent_spec {c : Cfg} {env : Env} {s s' : St} {b : Bool} (hok : ∀ i ∈ s.inps, CurOk c i) (h : buildEvent c env s = some (s', b)) :
    (Rel c s.inps (noParts s.inps) s'.inps ∧ outputs s' = outputs s) ∨
    ∃ ps e, Rel c s.inps ps s'.inps ∧ Merges c ps e ∧ outputs s' = outputs s ++ [e] := by
  unfold buildEvent at h
  dsimp only at h
  split at h
  · injection h with h
    injection h with h _
    subst h
    exact Or.inl ⟨dropFull_rel c env 0 s.inps hok, rfl⟩
  · split at h
    · cases h
    · rename_i is hcol
      injection h with h
      injection h with h _
      subst h
      exact Or.inl ⟨collect_rel c env _ 0 s.inps hok hcol, rfl⟩
    · rename_i is hcol
      have hrel := collect_rel c env _ 0 s.inps hok hcol
      rcases assemble_spec hrel.ok h with ⟨h1, h2⟩ | ⟨ps, e, h1, h2, h3⟩
      · have h1 : Rel c is (noParts is) s'.inps := h1
        rw [hrel.noParts_eq] at h1
        exact Or.inl ⟨hrel.after h1, h2⟩
      · exact Or.inr ⟨ps, e, hrel.after h1, h2, h3⟩

/-! ## Runs -/

/-- What an input contributed to the events. -/
def usedBy (n : Nat) (prov : List Parts) : List Ev := prov.filterMap fun ps => (ps[n]?).bind fun q => q.2

/-- State of a run: the events built have their parts, which are taken in order from what arrived. -/
structure RunInv (c : Cfg) (ks : List ICfg) (arr : Nat → List Ev) (s : St) (prov : List Parts) : Prop where
  cfgs : s.inps.map Inp.cfg = ks
  ok : ∀ i ∈ s.inps, CurOk c i
  merges : List.Forall₂ (Merges c) prov (outputs s)
  all : ∀ ps ∈ prov, ps.map Prod.fst = ks
  order : ∀ n i, s.inps[n]? = some i → (usedBy n prov ++ pending i).Sublist (arr n)

theorem Rel.cfgs {c : Cfg} {is is' : List Inp} {ps : Parts} (h : Rel c is ps is') : is'.map Inp.cfg = is.map Inp.cfg ∧ ps.map Prod.fst = is.map Inp.cfg := by
  induction h with
  | nil => exact ⟨rfl, rfl⟩
  | cons h1 _ _ _ ih =>
    rw [List.map_cons, List.map_cons, List.map_cons, ih.1, ih.2, h1]
    exact ⟨rfl, rfl⟩

theorem Rel.get {c : Cfg} {is is' : List Inp} {ps : Parts} (h : Rel c is ps is') : ∀ (n : Nat) {i' : Inp}, is'[n]? = some i' →
    ∃ i o, is[n]? = some i ∧ ps[n]? = some (i.cfg, o) ∧ (o.toList ++ pending i').Sublist (pending i) := by
  induction h with
  | nil => intro n i' h; cases h
  | @cons i j o is is' ps h1 h2 h3 _ ih =>
    intro n i' hn
    cases n with
    | zero =>
      injection hn with hn
      subst hn
      exact ⟨i, o, rfl, rfl, h3⟩
    | succ n => exact ih n hn

theorem RunInv.none {c : Cfg} {ks : List ICfg} {arr : Nat → List Ev} {s s' : St} {prov : List Parts} (h : RunInv c ks arr s prov)
    (hr : Rel c s.inps (noParts s.inps) s'.inps) (ho : outputs s' = outputs s) : RunInv c ks arr s' prov := by
  refine ⟨hr.cfgs.1.trans h.cfgs, hr.ok, by rw [ho]; exact h.merges, h.all, fun n i' hi => ?_⟩
  obtain ⟨i, o, h1, _, h3⟩ := hr.get n hi
  exact (List.Sublist.append_left ((List.sublist_append_right _ _).trans h3) _).trans (h.order n i h1)

theorem RunInv.one {c : Cfg} {ks : List ICfg} {arr : Nat → List Ev} {s s' : St} {prov : List Parts} (h : RunInv c ks arr s prov) {ps : Parts} {e : Ev}
    (hr : Rel c s.inps ps s'.inps) (hm : Merges c ps e) (ho : outputs s' = outputs s ++ [e]) : RunInv c ks arr s' (prov ++ [ps]) := by
  refine ⟨hr.cfgs.1.trans h.cfgs, hr.ok, ?_, fun q hq => ?_, fun n i' hi => ?_⟩
  · rw [ho]
    exact List.rel_append h.merges (.cons hm .nil)
  · rcases List.mem_append.1 hq with hq | hq
    · exact h.all q hq
    · rw [List.mem_singleton.1 hq, hr.cfgs.2, h.cfgs]
  · obtain ⟨i, o, h1, h2, h3⟩ := hr.get n hi
    have : usedBy n (prov ++ [ps]) = usedBy n prov ++ o.toList := by
      unfold usedBy
      rw [List.filterMap_append]
      congr 1
      rw [List.filterMap_cons, h2]
      cases o <;> rfl
    rw [this, List.append_assoc]
    exact (List.Sublist.append_left h3 _).trans (h.order n i h1)

theorem RunInv.build {c : Cfg} {ks : List ICfg} {arr : Nat → List Ev} {s s' : St} {prov : List Parts} {env : Env} {b : Bool} (h : RunInv c ks arr s prov)
    (hb : buildEvent c env s = some (s', b)) : ∃ prov', RunInv c ks arr s' prov' := by
  rcases buildEvent_spec h.ok hb with ⟨h1, h2⟩ | ⟨ps, e, h1, h2, h3⟩
  · exact ⟨_, h.none h1 h2⟩
  · exact ⟨_, h.one h1 h2 h3⟩

theorem RunInv.loop {c : Cfg} {ks : List ICfg} {arr : Nat → List Ev} : ∀ {envs : List Env} {s s' : St} {prov : List Parts}, RunInv c ks arr s prov →
    buildLoop c envs s = some s' → ∃ prov', RunInv c ks arr s' prov'
  | [], s, s', prov, h, hl => by
    injection hl with hl
    subst hl
    exact ⟨_, h⟩
  | env :: envs, s, s', prov, h, hl => by
    unfold buildLoop at hl
    cases hb : buildEvent c env s with
    | none => rw [hb] at hl; cases hl
    | some q =>
      obtain ⟨s1, b⟩ := q
      rw [hb] at hl
      obtain ⟨prov1, h1⟩ := h.build hb
      cases b with
      | true => exact RunInv.loop h1 hl
      | false =>
        injection hl with hl
        subst hl
        exact ⟨_, h1⟩

theorem RunInv.flush {c : Cfg} {ks : List ICfg} {arr : Nat → List Ev} {s : St} {prov : List Parts} (h : RunInv c ks arr s prov) (b : Bool) :
    RunInv c ks arr (flushBuffer b s).1 prov := by
  obtain ⟨h1, h2⟩ := flush_outputs b s
  exact ⟨by rw [h2]; exact h.cfgs, by rw [h2]; exact h.ok, by rw [h1]; exact h.merges, h.all, by rw [h2]; exact h.order⟩

theorem RunInv.flag {c : Cfg} {ks : List ICfg} {arr : Nat → List Ev} {s : St} {prov : List Parts} (h : RunInv c ks arr s prov) (b : Bool) :
    RunInv c ks arr { s with flush := b } prov := ⟨h.cfgs, h.ok, h.merges, h.all, h.order⟩

theorem RunInv.timer {c : Cfg} {ks : List ICfg} {arr : Nat → List Ev} {s s' : St} {prov : List Parts} {envs : List Env} {b : Bool} (h : RunInv c ks arr s prov)
    (ht : MbsComb.timer c envs b s = some s') : ∃ prov', RunInv c ks arr s' prov' := by
  unfold MbsComb.timer at ht
  split at ht
  · cases hl : buildLoop c envs s with
    | none => rw [hl] at ht; cases ht
    | some s1 =>
      rw [hl] at ht
      injection ht with ht
      subst ht
      obtain ⟨prov1, h1⟩ := h.loop hl
      exact ⟨_, (h1.flush b).flag true⟩
  · injection ht with ht
    subst ht
    exact ⟨_, h.flag true⟩

theorem RunInv.arrive {c : Cfg} {ks : List ICfg} {arr : Nat → List Ev} {s : St} {prov : List Parts} (h : RunInv c ks arr s prov) (n : Nat) (b : List Ev) :
    RunInv c ks (fun m => arr m ++ if n = m then b else []) (MbsComb.arrive n b s) prov := by
  unfold MbsComb.arrive
  refine ⟨?_, fun i hi => ?_, h.merges, h.all, fun m i hi => ?_⟩
  · rw [← h.cfgs]
    apply List.ext_getElem? ; intro m
    rw [List.getElem?_map, List.getElem?_map, List.getElem?_modify]
    cases s.inps[m]? with
    | none => rfl
    | some i => dsimp only [Option.map_some]; split <;> rfl
  · obtain ⟨m, hm⟩ := List.getElem?_of_mem hi
    rw [List.getElem?_modify] at hm
    cases hs : s.inps[m]? with
    | none => rw [hs] at hm; cases hm
    | some j =>
      rw [hs] at hm
      injection hm with hm
      have hj := h.ok j (List.mem_of_getElem? hs)
      split at hm
      · subst hm
        exact hj
      · subst hm
        exact hj
  · rw [List.getElem?_modify] at hi
    cases hs : s.inps[m]? with
    | none => rw [hs] at hi; cases hi
    | some j =>
      rw [hs] at hi
      injection hi with hi
      have ho := h.order m j hs
      split at hi
      · rename_i hnm
        subst hi
        rw [if_pos hnm]
        unfold pending at ho ⊢
        dsimp only
        rw [List.flatten_append, List.flatten_singleton, ← List.append_assoc _ _ b, ← List.append_assoc _ _ b]
        exact List.Sublist.append_right ho b
      · rename_i hnm
        have hi : j = i := hi
        subst hi
        rw [if_neg hnm, List.append_nil]
        exact ho

theorem RunInv.run {c : Cfg} {ks : List ICfg} : ∀ {ops : List Op} {arr : Nat → List Ev} {s s' : St} {prov : List Parts}, RunInv c ks arr s prov →
    MbsComb.run c ops s = some s' → ∃ prov', RunInv c ks (fun n => arr n ++ arrived n ops) s' prov'
  | [], arr, s, s', prov, h, hr => by
    injection hr with hr
    subst hr
    refine ⟨prov, ?_⟩
    have : (fun n => arr n ++ arrived n []) = arr := funext fun n => List.append_nil _
    rw [this]
    exact h
  | o :: ops, arr, s, s', prov, h, hr => by
    unfold MbsComb.run at hr
    cases ho : o.step c s with
    | none => rw [ho] at hr; cases hr
    | some s1 =>
      rw [ho] at hr
      have hr : MbsComb.run c ops s1 = some s' := hr
      cases o with
      | build env =>
        have ho : (buildEvent c env s).map (fun q => q.1) = some s1 := ho
        show ∃ prov', RunInv c ks (fun n => arr n ++ arrived n ops) s' prov'
        cases hb : buildEvent c env s with
        | none => rw [hb] at ho; cases ho
        | some q =>
          rw [hb] at ho
          injection ho with ho
          subst ho
          obtain ⟨prov1, h1⟩ := h.build (b := q.2) hb
          exact h1.run hr
      | timer envs b =>
        show ∃ prov', RunInv c ks (fun n => arr n ++ arrived n ops) s' prov'
        obtain ⟨prov1, h1⟩ := h.timer ho
        exact h1.run hr
      | arrive n b =>
        injection ho with ho
        subst ho
        obtain ⟨prov2, h2⟩ := (h.arrive n b).run hr
        have : (fun m => (arr m ++ if n = m then b else []) ++ arrived m ops) = fun m => arr m ++ arrived m (Op.arrive n b :: ops) := by
          funext m
          unfold arrived
          rw [List.append_assoc]
          by_cases hnm : n = m
          · rw [if_pos hnm, List.filterMap_cons_some (b := b) (by exact if_pos hnm), List.flatten_cons]
          · rw [if_neg hnm, List.filterMap_cons_none (by exact if_neg hnm), List.nil_append]
        rw [this] at h2
        exact ⟨prov2, h2⟩

theorem init_inv (c : Cfg) (ks : List ICfg) : RunInv c ks (fun _ => []) (init ks) [] := by
  refine ⟨?_, fun i hi => ?_, .nil, fun ps hp => (by cases hp), fun n i hi => ?_⟩
  · unfold init
    rw [List.map_map]
    exact List.map_id _
  · obtain ⟨k, _, rfl⟩ := List.mem_map.1 hi
    intro u hu
    cases hu
  · have hi : (ks.map fun k => (⟨k, none, [], []⟩ : Inp))[n]? = some i := hi
    rw [List.getElem?_map] at hi
    cases hk : ks[n]? with
    | none => rw [hk] at hi; cases hi
    | some k =>
      rw [hk] at hi
      injection hi with hi
      subst hi
      exact List.Sublist.refl _

end Verif.MbsComb
