import Verif.PublRegInv

/-! # C93: hierarchies registered at the publisher -/

namespace Verif.PublReg
open Verif.Hierarchy
variable {D X : Type} [Inhabited D] [Inhabited X] {prod : String → D → D} {stamp : X → X}

/-- Every registration has its own id, and there is at most one command for it under way: exactly one when it is waiting. -/
theorem C93_ids (hprod : ∀ w y, prod w (prod w y) = prod w y) {st : St D X} {l : Hist D X} (h : Reach prod stamp st l) :
    (st.ents.map Entry.id).Nodup ∧ (st.reqs.map Req.id ++ st.reps.map Rep.id).Nodup ∧
    (∀ e ∈ st.ents, e.waiting = true ↔ (∃ r ∈ st.reqs, r.id = e.id) ∨ ∃ r ∈ st.reps, r.id = e.id) ∧
    ∀ r ∈ st.reqs, ∀ e ∈ st.ents, e.id = r.id → r.hier = e.hier ∧ r.version = e.version := by
  have hi := h.inv hprod
  refine ⟨hi.ids, hi.fl, fun e he => ?_, hi.req⟩
  rw [hi.wait e he]
  unfold flight
  rw [List.mem_append, List.mem_map, List.mem_map]

/-- The folder of each registration exists and shows the hierarchy of the worker as it was last told, whatever happened with other registrations.
Partial: nothing is registered below another registration (`C93_below_counterexample`). -/
theorem C93_shows_partial (hprod : ∀ w y, prod w (prod w y) = prod w y) {st : St D X} {l : Hist D X} (h : Reach prod stamp st l) :
    (∀ a ∈ st.ents, ∀ b ∈ st.ents, a.id ≠ b.id → Apart a.path b.path) ∧
    ∀ e ∈ st.ents, ∃ t, subT e.path st.loc = some t ∧ Shows prod e.worker t (l.known e.id) := by
  have hi := h.inv hprod
  refine ⟨hi.apart, fun e he => ?_⟩
  obtain ⟨t, c, h1, _, h3, _⟩ := hi.ent e he
  exact ⟨t, h1, h3⟩

/-- After an answer of the worker came back, the folder shows the hierarchy as it was when the worker answered, when all changes were marked then. -/
theorem C93_refresh_partial (hprod : ∀ w y, prod w (prod w y) = prod w y) {st : St D X} {l : Hist D X} (h : Reach prod stamp st l)
    {e : Entry} (he : e ∈ st.ents) {i : Nat} {r : Req} (hr : st.reqs[i]? = some r) (hid : r.id = e.id) (hd : (st.srv e.hier).dirty = false)
    {j : Nat} (hj : ∃ x, (answer st i).reps[j]? = some x ∧ x.id = e.id) :
    ∃ t, subT e.path (reply prod (answer st i) j).loc = some t ∧ Shows prod e.worker t (.view ((st.srv e.hier).view .names)) ∧
      ∃ e' ∈ (reply prod (answer st i) j).ents, e'.id = e.id ∧ e'.waiting = false ∧ e'.version = (st.srv e.hier).data.nodeVer := by
  have hi := h.inv hprod
  have h1 : Reach prod stamp (answer st i) (l.next st (.answer i)) := h.step (.answer i) trivial
  have hi1 := h1.inv hprod
  have h2 : Reach prod stamp (reply prod (answer st i) j) ((l.next st (.answer i)).next (answer st i) (.reply j)) := h1.step (.reply j) trivial
  have hi2 := h2.inv hprod
  obtain ⟨x, hx, hxid⟩ := hj
  have hh := (hi.req r (List.mem_of_getElem? hr) e he hid.symm).1
  have hreps : (answer st i).reps = st.reps ++ [⟨r.id, some (stream .names r.version (st.srv r.hier), (st.srv r.hier).data.nodeVer)⟩] := by
    simp only [answer, hr]
  have hents : (answer st i).ents = st.ents := by simp only [answer, hr]
  have hxe : x = ⟨r.id, some (stream .names r.version (st.srv r.hier), (st.srv r.hier).data.nodeVer)⟩ := by
    have hm := List.mem_of_getElem? hx
    rw [hreps] at hm
    rcases List.mem_append.mp hm with hm | hm
    · exfalso
      have := hi.fl
      unfold flight at this
      rw [List.nodup_append] at this
      refine this.2.2 r.id (List.mem_map_of_mem (List.mem_of_getElem? hr)) r.id ?_ rfl
      rw [hid, ← hxid]; exact List.mem_map_of_mem hm
    · exact List.mem_singleton.mp hm
  subst hxe
  obtain ⟨a, ha⟩ : ∃ a, (answer st i).ents.find? (fun a => a.id = r.id) = some a := by
    cases hf : (answer st i).ents.find? (fun a => a.id = r.id) with
    | some a => exact ⟨a, rfl⟩
    | none => exact absurd (hid.symm) (by simpa using List.find?_eq_none.mp hf e (by rw [hents]; exact he))
  have hre : (reply prod (answer st i) j).ents = st.ents.map fun x => if x.id = r.id then { x with waiting := false, version := (st.srv r.hier).data.nodeVer } else x := by
    simp only [reply, hx, ha]
    rw [hents]
  have hem : ({ e with waiting := false, version := (st.srv r.hier).data.nodeVer } : Entry) ∈ (reply prod (answer st i) j).ents := by
    rw [hre]
    refine List.mem_map.mpr ⟨e, he, ?_⟩
    rw [if_pos hid.symm]
  obtain ⟨t, ht, hs⟩ := (C93_shows_partial hprod h2).2 _ hem
  refine ⟨t, ht, ?_, _, hem, rfl, rfl, by rw [hh]⟩
  have hk : ((l.next st (.answer i)).next (answer st i) (.reply j)).known e.id = .view ((st.srv e.hier).view .names) := by
    simp only [Hist.next, hx, hr, hid, if_true]
    unfold told
    rw [hh, hd]; rfl
  rw [← hk]
  exact hs

/-- Registration is refused exactly when the path is registered or already used, and changes nothing then.  Otherwise a new empty folder is there
and all other folders are as before. -/
theorem C93_register (hprod : ∀ w y, prod w (prod w y) = prod w y) {st : St D X} {l : Hist D X} (h : Reach prod stamp st l) (p : List String)
    (w : String) (k : Nat) :
    ((register st p w k).1 = true ↔ (∀ e ∈ st.ents, e.path ≠ p) ∧ subT p st.loc = none) ∧
    ((register st p w k).1 = false → (register st p w k).2 = st) ∧
    ((register st p w k).1 = true →
      (register st p w k).2.ents = st.ents ++ [{ id := st.cnt, path := p, worker := w, hier := k, version := 0, waiting := false }] ∧
      (∀ e ∈ st.ents, e.id ≠ st.cnt) ∧
      (∃ n, subT p (register st p w k).2.loc = some (.empty n)) ∧
      ∀ q u, subT q st.loc = some u → ¬ q <+: p → subT q (register st p w k).2.loc = some u) := by
  have hi := h.inv hprod
  by_cases h1 : st.ents.any (fun e => e.path = p) = true
  · have e : register st p w k = (false, st) := by unfold register; rw [if_pos h1]
    rw [e]
    refine ⟨⟨fun hh => (by cases hh), fun hh => ?_⟩, fun _ => rfl, fun hh => (by cases hh)⟩
    obtain ⟨x, hx, hp⟩ := List.any_eq_true.mp h1
    exact absurd (by simpa using hp) (hh.1 x hx)
  · by_cases h2 : (subT p st.loc).isSome = true
    · have e : register st p w k = (false, st) := by unfold register; rw [if_neg h1, if_pos h2]
      rw [e]
      refine ⟨⟨fun hh => (by cases hh), fun hh => ?_⟩, fun _ => rfl, fun hh => (by cases hh)⟩
      rw [hh.2] at h2; cases h2
    · have e : register st p w k = (true, { st with ents := st.ents ++ [{ id := st.cnt, path := p, worker := w, hier := k }], cnt := st.cnt + 1, loc := ensure p st.loc }) := by
        unfold register; rw [if_neg h1, if_neg h2]
      have h2 : subT p st.loc = none := by simpa using h2
      rw [e]
      refine ⟨⟨fun _ => ⟨fun x hx hp => h1 (List.any_eq_true.mpr ⟨x, hx, by simpa using hp⟩), h2⟩, fun _ => rfl⟩, fun hh => (by cases hh), fun _ => ?_⟩
      refine ⟨rfl, fun x hx => Nat.ne_of_lt (hi.lt x hx), subT_ensure p _ h2, fun q u hq hp => subT_ensure_old p q _ _ hq hp⟩

/-- Only the worker which registered a path can unregister it.  The folder is removed, and also all folders above which become empty; nothing changes
for others. -/
theorem C93_unregister_partial (hprod : ∀ w y, prod w (prod w y) = prod w y) {st : St D X} {l : Hist D X} (h : Reach prod stamp st l)
    (p : List String) (w : String) :
    ((unregister st p w).1 = true ↔ ∃ e ∈ st.ents, e.path = p ∧ e.worker = w) ∧
    ((unregister st p w).1 = false → (unregister st p w).2 = st) ∧
    ((unregister st p w).1 = true →
      (∀ e, e ∈ (unregister st p w).2.ents ↔ e ∈ st.ents ∧ e.path ≠ p) ∧
      subT p (unregister st p w).2.loc = none ∧
      (∀ q r u, p = q ++ r → q ≠ [] → r ≠ [] → subT q (unregister st p w).2.loc = some u → u.ch ≠ []) ∧
      ∀ e ∈ st.ents, e.path ≠ p → subT e.path (unregister st p w).2.loc = subT e.path st.loc) := by
  have hi := h.inv hprod
  by_cases h1 : st.ents.any (fun e => e.path = p ∧ e.worker = w) = true
  · obtain ⟨x, hx, hp⟩ := List.any_eq_true.mp h1
    have hp' : x.path = p ∧ x.worker = w := by simpa using hp
    obtain ⟨t, ht⟩ := hi.folder hx
    rw [hp'.1] at ht
    have hsome : (subT p st.loc).isSome = true := by rw [ht]; rfl
    have e : unregister st p w = (true, { st with loc := removeEmpty p st.loc, ents := st.ents.eraseP fun e => e.path = p ∧ e.worker = w }) := by
      unfold unregister; rw [if_pos h1, if_pos hsome]
    have hne : p ≠ [] := hp'.1 ▸ hi.ne x hx
    have hun : ∀ y ∈ st.ents, y.path = p → y = x := by
      intro y hy hyp
      refine ids_inj hi.ids hy hx (Decidable.byContradiction fun hid => ?_)
      have := hi.apart y hy x hx hid
      rw [hyp, hp'.1] at this
      exact this.1 (List.prefix_refl p)
    rw [e]
    refine ⟨⟨fun _ => ⟨x, hx, hp'⟩, fun _ => rfl⟩, fun hh => (by cases hh), fun _ => ⟨?_, subT_removeEmpty p _ hi.wft hne, ?_, ?_⟩⟩
    · intro y
      obtain ⟨a, l1, l2, g1, g2, g3, g4⟩ := List.exists_of_eraseP (p := fun e : Entry => decide (e.path = p ∧ e.worker = w)) hx hp
      show y ∈ st.ents.eraseP _ ↔ _
      rw [g4]
      have ha : a = x := hun a (by rw [g3]; simp) (by
        have : a.path = p ∧ a.worker = w := by simpa using g2
        exact this.1)
      subst ha
      have hids := hi.ids
      rw [g3, List.map_append, List.map_cons, List.nodup_append] at hids
      constructor
      · intro hy
        refine ⟨by rw [g3]; rcases List.mem_append.mp hy with hy | hy <;> simp [hy], fun hyp => ?_⟩
        have hya : y = a := hun y (by rw [g3]; rcases List.mem_append.mp hy with hy | hy <;> simp [hy]) hyp
        subst hya
        rcases List.mem_append.mp hy with hy | hy
        · exact hids.2.2 y.id (List.mem_map_of_mem hy) y.id (by simp) rfl
        · exact (List.nodup_cons.mp hids.2.1).1 (List.mem_map_of_mem hy)
      · intro ⟨hy, hyp⟩
        rw [g3] at hy
        rcases List.mem_append.mp hy with hy | hy
        · exact List.mem_append_left _ hy
        · rcases List.mem_cons.mp hy with hy | hy
          · exact absurd (hy ▸ hp'.1) hyp
          · exact List.mem_append_right _ hy
    · intro q r u hq hq1 hr1 hu
      subst hq
      exact removeEmpty_above q r _ u hi.wft hq1 hr1 hsome hu
    · intro y hy hyp
      obtain ⟨u, hu⟩ := hi.folder hy
      rw [hu]
      refine subT_removeEmpty_ne _ _ _ _ ?_ hu
      have := hi.apart x hx y hy fun hid => hyp (by rw [← ids_inj hi.ids hx hy hid]; exact hp'.1)
      rw [hp'.1] at this; exact this
  · have e : unregister st p w = (false, st) := by unfold unregister; rw [if_neg h1]
    rw [e]
    refine ⟨⟨fun hh => (by cases hh), fun ⟨x, hx, hp⟩ => absurd (List.any_eq_true.mpr ⟨x, hx, by simpa using hp⟩) h1⟩, fun _ => rfl,
      fun hh => (by cases hh)⟩

/-- When a worker is removed, its registrations and their folders are gone; nothing changes for others. -/
theorem C93_remove_worker_partial (hprod : ∀ w y, prod w (prod w y) = prod w y) {st : St D X} {l : Hist D X} (h : Reach prod stamp st l)
    (w : String) :
    (∀ e, e ∈ (removeWorker st w).ents ↔ e ∈ st.ents ∧ e.worker ≠ w) ∧
    (∀ e ∈ st.ents, e.worker = w → subT e.path (removeWorker st w).loc = none) ∧
    ∀ e ∈ st.ents, e.worker ≠ w → subT e.path (removeWorker st w).loc = subT e.path st.loc := by
  have hi := h.inv hprod
  refine ⟨fun e => ?_, fun e he hw => ?_, fun e he hw => ?_⟩
  · show e ∈ st.ents.filter _ ↔ _
    rw [List.mem_filter]; simp
  · obtain ⟨l1, l2, hl⟩ := List.append_of_mem he
    show subT e.path (st.ents.foldl _ st.loc) = none
    have hap : ∀ x ∈ l2, x.worker = w → Apart x.path e.path := by
      intro x hx _
      refine hi.apart x (by rw [hl]; simp [hx]) e he fun hid => ?_
      have hids := hi.ids
      rw [hl, List.map_append, List.map_cons, List.nodup_append] at hids
      exact (List.nodup_cons.mp hids.2.1).1 (hid ▸ List.mem_map_of_mem hx)
    rw [hl, List.foldl_append, List.foldl_cons, fold_destroy l2 _ hap, if_pos hw]
    exact subT_destroy _ _ (fold_WFT _ _ hi.wft) (hi.ne e he)
  · refine fold_destroy _ _ fun x hx hxw => hi.apart x hx e he fun hid => ?_
    have := ids_inj hi.ids hx he hid
    subst this
    exact hw hxw

/-- An answer for a registration which does not exist any more changes nothing, also when the same path is registered again in the meantime. -/
theorem C93_stale (prod : String → D → D) (st : St D X) {i : Nat} {r : Rep D X} (hr : st.reps[i]? = some r) (h : ∀ e ∈ st.ents, e.id ≠ r.id) :
    (reply prod st i).loc = st.loc ∧ (reply prod st i).ents = st.ents := by
  have : st.ents.find? (fun e => e.id = r.id) = none := by
    rw [List.find?_eq_none]; intro e he; simpa using h e he
  simp only [reply, hr, this]
  exact ⟨trivial, trivial⟩

/-- A failed request changes nothing but that the next request can be sent, with the same version. -/
theorem C93_failed (prod : String → D → D) (st : St D X) {i : Nat} {n : Nat} (hr : st.reps[i]? = some ⟨n, none⟩) :
    (reply prod st i).loc = st.loc ∧
    (reply prod st i).ents = st.ents.map fun e => if e.id = n then { e with waiting := false } else e := by
  cases he : st.ents.find? (fun e => e.id = n) with
  | none =>
    simp only [reply, hr, he]
    refine ⟨trivial, ?_⟩
    have : ∀ e ∈ st.ents, (fun e : Entry => if e.id = n then { e with waiting := false } else e) e = id e := by
      intro e hm
      exact if_neg (by simpa using List.find?_eq_none.mp he e hm)
    rw [List.map_congr_left this, List.map_id]
  | some e => simp only [reply, hr, he]; exact ⟨trivial, trivial⟩

/-! ## What goes wrong -/

def noProd : String → Nat → Nat := fun _ y => y

def st0 : St Nat Unit := { loc := .empty "top", srv := fun _ => .node { name := "h", dns := default, val := default } [] }

def run (st : St Nat Unit) (ops : List (Op Nat Unit)) : St Nat Unit := ops.foldl (step noProd id) st

/-- A worker can register below the path of another worker.  With the next answer of the other one the folder disappears, and does not come back. -/
theorem C93_below_counterexample :
    let st := run st0 [.register ["A"] "w1" 0, .register ["A", "B"] "w2" 1, .timeout, .answer 0, .answer 0, .reply 1, .reply 0]
    let st' := run st [.change 1 (.create [] 0 "x"), .change 1 (.mark []), .timeout, .answer 0, .answer 0, .reply 0, .reply 0]
    (register (run st0 [.register ["A"] "w1" 0]) ["A", "B"] "w2" 1).1 = true ∧
    (st.ents.map Entry.path = [["A"], ["A", "B"]] ∧ (subT ["A", "B"] st.loc).isNone = true) ∧
    st'.ents.map (fun e => (e.path, e.version, e.waiting)) = [(["A"], 0, false), (["A", "B"], 1, false)] ∧ (subT ["A", "B"] st'.loc).isNone = true := by
  decide +kernel

/-- The folder of a registration also disappears when the worker which registered a path above is removed. -/
theorem C93_removed_counterexample :
    let st := run st0 [.register ["A"] "w1" 0, .register ["A", "B"] "w2" 1, .removeWorker "w1"]
    st.ents.map (fun e => (e.path, e.worker)) = [(["A", "B"], "w2")] ∧ (subT ["A", "B"] st.loc).isNone = true := by
  decide +kernel

/-- Removal of a worker leaves empty folders, with which the path cannot be registered any more; after `unregister` it can. -/
theorem C93_leftover_counterexample :
    let st := run st0 [.register ["A", "B"] "w1" 0]
    (removeWorker st "w1").ents.isEmpty = true ∧ (register (removeWorker st "w1") ["A"] "w2" 1).1 = false ∧
    (unregister st ["A", "B"] "w1").1 = true ∧ (register (unregister st ["A", "B"] "w1").2 ["A"] "w2" 1).1 = true := by
  decide +kernel

/-- After `unregister` a request with the pointer of the hierarchy can still be under way, so that it is used by the worker later. -/
theorem C93_pointer_counterexample :
    ∃ (st : St Nat Unit) (l : Hist Nat Unit), Reach noProd id st l ∧ (unregister st ["A"] "w").1 = true ∧ (unregister st ["A"] "w").2.ents.length = 0 ∧
      (unregister st ["A"] "w").2.reqs.map Req.hier = [0] := by
  have h : ∃ l, Reach noProd id (run st0 [.register ["A"] "w" 0, .timeout]) l :=
    ⟨_, ((Reach.init "top" (fun _ => "h")).step (.register ["A"] "w" 0) (fun e he => (by cases he))).step .timeout trivial⟩
  obtain ⟨l, h⟩ := h
  refine ⟨_, l, h, ?_, ?_, ?_⟩
  · decide +kernel
  · decide +kernel
  · decide +kernel

/-! ## Examples -/

/-- Two workers, one answer. -/
example : ∃ l, Reach noProd id (run st0 [.register ["A", "B"] "w1" 0, .register ["A", "C"] "w2" 1, .timeout, .answer 1]) l :=
  ⟨_, ((((Reach.init "top" (fun _ => "h")).step (.register ["A", "B"] "w1" 0) (fun e he => (by cases he))).step (.register ["A", "C"] "w2" 1)
    (fun e he => (by
      have : e = { id := 1, path := ["A", "B"], worker := "w1", hier := 0 } := List.mem_singleton.mp he
      subst this
      decide))).step .timeout trivial).step (.answer 1) trivial⟩

example : ∀ (w : String) (y : Nat), noProd w (noProd w y) = noProd w y := fun _ _ => rfl

/-- The second is told and shown, the first still waits. -/
example :
    let st := run st0 [.register ["A", "B"] "w1" 0, .register ["A", "C"] "w2" 1, .change 1 (.create [] 0 "x"), .change 1 (.mark []), .timeout, .answer 1, .reply 0]
    (subT ["A", "C"] st.loc).map (fun t => t.ch.map T.name) = some ["x"] ∧ st.ents.map (fun e => (e.version, e.waiting)) = [(0, true), (1, false)] := by
  decide +kernel

/-- An answer for an old registration, with the path registered again. -/
example :
    let st := run st0 [.register ["A"] "w1" 0, .timeout, .answer 0, .unregister ["A"] "w1", .register ["A"] "w2" 1]
    (st.reps.map Rep.id = [1]) ∧ st.ents.map Entry.id = [2] := by
  decide +kernel

/-- A failed request. -/
example : (run st0 [.register ["A"] "w1" 0, .timeout, .fail 0]).reps.map (fun r => (r.id, r.res.isNone)) = [(1, true)] := by
  decide +kernel

end Verif.PublReg
