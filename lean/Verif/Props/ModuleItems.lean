import Verif.ModuleItemsInv

/-!
# C98: items of a module
-/

namespace Verif.ModuleItems
open Verif.ModuleItems.Spec

theorem run_inv {P : M → Prop} (hP : ∀ m m' op, P m → step m op = some m' → P m') {ops : List Op} : ∀ {m m' : M}, P m → run m ops = some m' → P m' := by
  induction ops with
  | nil => intro m m' i h; cases h; exact i
  | cons op ops ih =>
    intro m m' i h
    simp only [run, Option.bind_eq_some_iff] at h
    obtain ⟨m1, h1, h2⟩ := h
    exact ih (hP _ _ _ i h1) h2

theorem inv_run {ops : List Op} {m : M} (h : run fresh ops = some m) : Inv m := run_inv (fun _ _ _ i h => i.step h) Inv.fresh h

/-- A module with inputs `a`, `b`, `c`, an output and a pool. -/
def demo : List Op := [.create .inp ['a'] true, .create .inp ['b'] true, .create .inp ['c'] true, .create .out ['o'] true, .create .pool ['p'] true]

/-- **C98, index of a created item.** Whatever was created and removed before: the function which creates an item
returns an index of the right kind under which there is an item with the given name; a second call gives the same index
and creates nothing; the index of no other item changes. -/
theorem C98_create (ops : List Op) (m m' : M) (k : Kind) (name : List Char) (i : Nat) (hr : run fresh ops = some m)
    (hc : create m k name true = some (some i, m')) :
    (∃ id, At m' k i id ∧ Named m' id name) ∧ (name ≠ [] → ∀ ok, create m' k name ok = some (some i, m')) ∧
      (∀ k' j id, At m k' j id → At m' k' j id ∧ itemOf m'.items id = itemOf m.items id) := by
  have inv := inv_run hr
  rcases create_cases hc with ⟨j, hf, hj, rfl⟩ | ⟨-, ho, -⟩ | ⟨hf, -, hj, -, he⟩
  · cases hj
    obtain ⟨hn, id, h1, h2⟩ := find_some hf
    refine ⟨⟨id, h1, h2⟩, fun _ ok => ?_, fun k' j id h => ⟨h, rfl⟩⟩
    unfold create
    rw [hf]
  · cases ho
  · cases hj
    have hat : At m' k (m.vec k).length m.items.length := by
      subst he
      unfold At
      simp
    have hnm : itemOf m'.items m.items.length = some ⟨k, name, (m.vec k).length, isSys m k name⟩ := by
      subst he
      rw [itemOf_append, if_pos rfl]
    have hold : ∀ k' j id, At m k' j id → At m' k' j id ∧ itemOf m'.items id = itemOf m.items id := by
      intro k' j id h
      subst he
      refine ⟨?_, ?_⟩
      · unfold At at *
        dsimp only
        split
        next e => subst e; rw [List.getElem?_append_left (List.getElem?_eq_some_iff.1 h).1]; exact h
        · exact h
      · obtain ⟨it, h1, -⟩ := inv.1.kind k' id (List.mem_of_getElem? h)
        rw [itemOf_append, if_neg (Nat.ne_of_lt (itemOf_lt h1))]
    refine ⟨⟨_, hat, _, hnm, rfl⟩, fun hn ok => ?_, hold⟩
    have hfind : find m' k name = some (m.vec k).length := by
      unfold find
      rw [if_neg hn, List.findIdx?_eq_some_iff_getElem]
      have hvk : m'.vec k = m.vec k ++ [m.items.length] := by subst he; simp
      refine ⟨by rw [hvk]; simp, ?_, fun j hj => ?_⟩
      · have : (m'.vec k)[(m.vec k).length]'(by rw [hvk]; simp) = m.items.length := by simp [hvk]
        rw [this, hnm]
        simp
      · have hj' : j < (m.vec k).length := hj
        have : (m'.vec k)[j]'(by rw [hvk]; simp; omega) = (m.vec k)[j] := by simp [hvk, List.getElem_append_left hj']
        rw [this]
        have ho := hold k j _ (List.getElem?_eq_getElem hj')
        rw [ho.2]
        intro hx
        split at hx
        next it e => exact find_none hf hn _ (List.getElem_mem hj') ⟨it, e, of_decide_eq_true hx⟩
        · cases hx
    unfold create
    rw [hfind]

example : ∃ m m', run fresh demo = some m ∧ create m .inp ['d'] true = some (some 3, m') := ⟨_, _, rfl, rfl⟩

/-- **C98, names are unique.** Whatever was created and removed: two items of the same kind with the same name, which is
not empty, are the same item. -/
theorem C98_names (ops : List Op) (m : M) (k : Kind) (i j a b : Nat) (name : List Char) (hr : run fresh ops = some m) (hn : name ≠ [])
    (ha : At m k i a) (hb : At m k j b) (h1 : Named m a name) (h2 : Named m b name) : i = j ∧ a = b := by
  have inv := inv_run hr
  obtain ⟨ia, ha1, ha2⟩ := h1
  obtain ⟨ib, hb1, hb2⟩ := h2
  have hab := inv.1.names k a b ia ib (List.mem_of_getElem? ha) (List.mem_of_getElem? hb) ha1 hb1 (ha2.trans hb2.symm) (by rw [ha2]; exact hn)
  subst hab
  refine ⟨?_, rfl⟩
  have hl := (List.getElem?_eq_some_iff.1 ha).1
  exact (List.getElem?_inj hl (inv.1.nodup k)).1 (ha.trans hb.symm)

example : ∃ m, run fresh demo = some m ∧ At m .inp 1 1 ∧ Named m 1 ['b'] := ⟨_, rfl, rfl, _, rfl, rfl⟩

/-- All indices are right. -/
def AllRight (m : M) : Prop := ∀ k i, Right m k i

theorem AllRight.step {m m' : M} {op : Op} (inv : Inv m) (g : AllRight m) (hl : lastOne m op) (h : step m op = some m') : AllRight m' := by
  cases op with
  | create k name ok =>
    simp only [ModuleItems.step] at h
    split at h
    · cases h
    · rw [Option.map_eq_some_iff] at h
      obtain ⟨⟨r, m1⟩, h1, rfl⟩ := h
      exact fun k' p => Right.create inv h1 (fun _ => g k' p)
  | addConn name => exact fun k' p => Right.addConn inv h (g k' p)
  | remove x =>
    simp only [ModuleItems.step] at h
    split at h
    · cases h
      intro k p
      by_cases hx : At m k p x
      · intro id ha
        exfalso
        obtain ⟨-, -, v, -, -, -⟩ := remove_spec (x := x) inv.1 inv.2
        have hnone := hl k p hx
        have hlen : (m.vec k).length ≤ p + 1 := by
          rw [List.getElem?_eq_none_iff] at hnone
          exact hnone
        have : p < ((remove m x).vec k).length := (List.getElem?_eq_some_iff.1 ha).1
        rw [v k, List.length_erase_of_mem (List.mem_of_getElem? hx)] at this
        omega
      · exact Right.remove inv hx
    · cases h

theorem all_right {ops : List Op} : ∀ {m m' : M}, Inv m → AllRight m → OnlyLast m ops → run m ops = some m' → AllRight m' := by
  induction ops with
  | nil => intro m m' _ g _ h; cases h; exact g
  | cons op ops ih =>
    intro m m' i g hl h
    simp only [run, Option.bind_eq_some_iff] at h
    obtain ⟨m1, h1, h2⟩ := h
    obtain ⟨hl1, hl2⟩ := hl
    rw [h1] at hl2
    exact ih (i.step h1) (g.step i hl1 h1) hl2 h2

/-- The function of which kind is called for produced events. -/
theorem deliver_produce {m : M} (inv : Inv m) {k : Kind} {i id : Nat} {c : Code} (ha : At m k i id) (hr : Right m k i) (hp : produce m k i = some (c, id)) :
    deliver m c id = some (k, i, some id) := by
  obtain ⟨it, h1, h2⟩ := inv.1.kind k id (List.mem_of_getElem? ha)
  have hs := hr id ha
  unfold subOf at hs
  rw [h1] at hs
  have hs : it.sub = i := by simpa using hs
  have hd : dispatch m c id = some (k, i) := by
    unfold produce at hp
    rw [show (m.vec k)[i]? = some id from ha] at hp
    unfold dispatch
    rw [h1]
    cases k <;> simp_all
    all_goals (obtain ⟨rfl, -⟩ := hp; rfl)
  unfold deliver
  rw [hd]
  dsimp only
  rw [show (m.vec k)[i]? = some id from ha]

/-- **C98, events reach their item (partial).** As long as items are removed only from the end of their lists: an event which is
produced for the item with index `i` is handled by the function for this kind of items, with this index, and the
item which is looked at is this one.  Missing: other removals, see the counterexample. -/
theorem C98_deliver_partial (ops : List Op) (m : M) (k : Kind) (i id : Nat) (hr : run fresh ops = some m) (hl : OnlyLast fresh ops)
    (ha : At m k i id) (hk : k ≠ .conn) : ∃ c, produce m k i = some (c, id) ∧ deliver m c id = some (k, i, some id) := by
  have g : AllRight m := all_right Inv.fresh (fun k i id h => (by simp [At, fresh] at h)) hl hr
  have hp : ∃ c, produce m k i = some (c, id) := by
    unfold produce
    rw [show (m.vec k)[i]? = some id from ha]
    cases k <;> first | exact absurd rfl hk | exact ⟨_, rfl⟩
  obtain ⟨c, hp⟩ := hp
  exact ⟨c, hp, deliver_produce (inv_run hr) ha (g k i) hp⟩

/-- The same for `ActivateInput` and `ActivateOutput`. -/
theorem C98_activate_partial (ops : List Op) (m : M) (k : Kind) (i id : Nat) (hr : run fresh ops = some m) (hl : OnlyLast fresh ops)
    (ha : At m k i id) (hk : k = .inp ∨ k = .out) : ∃ c, activate m k i = some (c, id) ∧ deliver m c id = some (k, i, some id) := by
  obtain ⟨c, h1, h2⟩ := C98_deliver_partial ops m k i id hr hl ha (by rcases hk with rfl | rfl <;> simp)
  unfold produce at h1
  unfold activate
  rw [show (m.vec k)[i]? = some id from ha] at h1 ⊢
  rcases hk with rfl | rfl
  · cases h1; exact ⟨_, rfl, h2⟩
  · cases h1; exact ⟨_, rfl, h2⟩

/-- Hypotheses: the last input is removed. -/
example : ∃ m, run fresh (demo ++ [.remove 2, .create .inp ['d'] true]) = some m ∧ OnlyLast fresh (demo ++ [.remove 2, .create .inp ['d'] true]) ∧ At m .inp 2 5 := by
  refine ⟨_, rfl, ⟨trivial, trivial, trivial, trivial, trivial, ?_, trivial, trivial⟩, rfl⟩
  intro k p h
  cases k with
  | inp =>
    rcases p with _ | _ | _ | p
    · cases h
    · cases h
    · rfl
    · cases h
  | out | pool =>
    rcases p with _ | p
    · cases h
    · cases h
  | timer | conn | user => cases h

/-- **C98, at most one index is wrong.** Whatever was created and removed: at most one item of the module, of whatever kind,
gets its events with a wrong index. -/
theorem C98_one_wrong (ops : List Op) (m : M) (hr : run fresh ops = some m) (k k' : Kind) (i j a b : Nat) (ha : At m k i a) (hb : At m k' j b)
    (h1 : subOf m a ≠ some i) (h2 : subOf m b ≠ some j) : k = k' ∧ i = j ∧ a = b := by
  have key : Inv m ∧ ∃ k0 p, ∀ k i, (k ≠ k0 ∨ i ≠ p) → Right m k i := by
    refine run_inv (P := fun m => Inv m ∧ ∃ k0 p, ∀ k i, (k ≠ k0 ∨ i ≠ p) → Right m k i) ?_ ⟨Inv.fresh, .inp, 0, fun k i _ id h => (by simp [At, fresh] at h)⟩ hr
    intro m m' op ⟨inv, k0, p, h0⟩ h
    refine ⟨inv.step h, ?_⟩
    cases op with
    | create k name ok =>
      simp only [step] at h
      split at h
      · cases h
      · rw [Option.map_eq_some_iff] at h
        obtain ⟨⟨r, m1⟩, h1, rfl⟩ := h
        by_cases hp : p < (m.vec k0).length
        · exact ⟨k0, p, fun k' i hne => Right.create inv h1 (fun _ => h0 k' i hne)⟩
        · refine ⟨k0, p, fun k' i hne => Right.create inv h1 (fun _ => h0 k' i hne)⟩
    | addConn name => exact ⟨k0, p, fun k' i hne => Right.addConn inv h (h0 k' i hne)⟩
    | remove x =>
      simp only [step] at h
      split at h
      · cases h
        by_cases hx : ∃ k i, At m k i x
        · obtain ⟨k1, i1, h1⟩ := hx
          refine ⟨k1, i1, fun k i hne => Right.remove inv fun hc => ?_⟩
          have hk := inv.1.disj (List.mem_of_getElem? hc) (List.mem_of_getElem? h1)
          subst hk
          have := (List.getElem?_inj (List.getElem?_eq_some_iff.1 hc).1 (inv.1.nodup k)).1 (hc.trans h1.symm)
          rcases hne with hne | hne
          · exact hne rfl
          · exact hne this
        · exact ⟨.inp, 0, fun k i _ => Right.remove inv fun hc => hx ⟨k, i, hc⟩⟩
      · cases h
  obtain ⟨inv, k0, p, h0⟩ := key
  have e1 : k = k0 ∧ i = p := by
    refine ⟨?_, ?_⟩
    · rcases Decidable.em (k = k0) with e | e
      · exact e
      · exact absurd (h0 k i (.inl e) a ha) h1
    · rcases Decidable.em (i = p) with e | e
      · exact e
      · exact absurd (h0 k i (.inr e) a ha) h1
  have e2 : k' = k0 ∧ j = p := by
    refine ⟨?_, ?_⟩
    · rcases Decidable.em (k' = k0) with e | e
      · exact e
      · exact absurd (h0 k' j (.inl e) b hb) h2
    · rcases Decidable.em (j = p) with e | e
      · exact e
      · exact absurd (h0 k' j (.inr e) b hb) h2
  obtain ⟨rfl, rfl⟩ := e1
  obtain ⟨rfl, rfl⟩ := e2
  refine ⟨rfl, rfl, ?_⟩
  have := ha.symm.trans hb
  simpa using this

example : ∃ m, run fresh (demo ++ [.remove 0]) = some m ∧ At m .inp 0 1 ∧ subOf m 1 ≠ some 0 := ⟨_, rfl, rfl, by decide⟩

/-- **C98 counterexample, the item after a removed one.** In every module whose indices are right: when an input is removed
and another one follows, then the events of the following one are handled with the index of the next input (another
item is looked at), or, when there is no further one, end with a null pointer.  The same for outputs and pools. -/
theorem C98_stale_counterexample (ops : List Op) (m : M) (hr : run fresh ops = some m) (hl : OnlyLast fresh ops) (k : Kind) (hk : k = .inp ∨ k = .out ∨ k = .pool)
    (p x y : Nat) (hx : At m k p x) (hy : At m k (p + 1) y) :
    At (remove m x) k p y ∧ ∃ c, produce (remove m x) k p = some (c, y) ∧
      deliver (remove m x) c y = ((m.vec k)[p + 2]?).map fun z => (k, p + 1, some z) := by
  have inv := inv_run hr
  have g : AllRight m := all_right Inv.fresh (fun k i id h => (by simp [At, fresh] at h)) hl hr
  obtain ⟨b, -, v, -, s, u⟩ := remove_spec (x := x) inv.1 inv.2
  have hxy : y ≠ x := by
    rintro rfl
    have := (List.getElem?_inj (List.getElem?_eq_some_iff.1 hx).1 (inv.1.nodup k)).1 (hx.trans hy.symm)
    omega
  have hpos : ∀ q, p ≤ q → ((m.vec k).erase x)[q]? = (m.vec k)[q + 1]? := by
    intro q hq
    have hidx : (m.vec k).idxOf x = p := by
      obtain ⟨hlt, he⟩ := List.getElem?_eq_some_iff.1 hx
      rw [← he]
      exact List.Nodup.idxOf_getElem (inv.1.nodup k) p hlt
    rw [List.erase_eq_eraseIdx_of_idxOf hidx]
    exact List.getElem?_eraseIdx_of_ge hq
  have hyp : ((m.vec k).erase x)[p]? = some y := (hpos p (Nat.le_refl p)).trans hy
  have hat : At (remove m x) k p y := by unfold At; rw [v k]; exact hyp
  refine ⟨hat, ?_⟩
  obtain ⟨it, h1, h2⟩ := b.kind k y (List.mem_of_getElem? hat)
  have hsub := u k p y hyp
  rw [if_pos (show (m.vec k)[p]? = some x from hx), g k (p + 1) y hy] at hsub
  unfold subOf at hsub
  rw [h1] at hsub
  have hsub : it.sub = p + 1 := by simpa using hsub
  have hnext : ((remove m x).vec k)[p + 1]? = (m.vec k)[p + 2]? := by rw [v k]; exact hpos (p + 1) (by omega)
  have hp : ∃ c, produce (remove m x) k p = some (c, y) := by
    unfold produce
    rw [show ((remove m x).vec k)[p]? = some y from hat]
    rcases hk with rfl | rfl | rfl <;> exact ⟨_, rfl⟩
  obtain ⟨c, hp⟩ := hp
  refine ⟨c, hp, ?_⟩
  have hd : dispatch (remove m x) c y = some (k, p + 1) := by
    unfold produce at hp
    rw [show ((remove m x).vec k)[p]? = some y from hat] at hp
    unfold dispatch
    rw [h1]
    rcases hk with rfl | rfl | rfl <;> simp_all
    all_goals (subst hp; simp)
  unfold deliver
  rw [hd]
  dsimp only
  rw [hnext]
  rcases (m.vec k)[p + 2]? with _ | z
  · rcases hk with rfl | rfl | rfl <;> rfl
  · rfl

example : ∃ m, run fresh demo = some m ∧ OnlyLast fresh demo ∧ At m .inp 0 0 ∧ At m .inp 1 1 := ⟨_, rfl, ⟨trivial, trivial, trivial, trivial, trivial, trivial⟩, rfl, rfl⟩

/-- **C98 counterexample, events of a removed item.** An event which is on its way when its item is removed ends with a null
pointer. -/
theorem C98_removed_counterexample (ops : List Op) (m : M) (hr : run fresh ops = some m) (x : Nat) (c : Code) : deliver (remove m x) c x = none := by
  obtain ⟨-, -, -, h, -, -⟩ := remove_spec (x := x) (inv_run hr).1 (inv_run hr).2
  unfold deliver dispatch
  rw [h]

/-- **C98 counterexample, `ActivatePool`.** The event is handled as an event of the output with the same index, or ends with
a null pointer when there is none: never as an event of the pool. -/
theorem C98_pool_counterexample (ops : List Op) (m : M) (hr : run fresh ops = some m) (hl : OnlyLast fresh ops) (i id : Nat) (ha : At m .pool i id) :
    ∃ c, activate m .pool i = some (c, id) ∧ deliver m c id = ((m.vec .out)[i]?).map fun z => (.out, i, some z) := by
  have inv := inv_run hr
  have g : AllRight m := all_right Inv.fresh (fun k i id h => (by simp [At, fresh] at h)) hl hr
  refine ⟨.outputReinj, by unfold activate; rw [show (m.vec .pool)[i]? = some id from ha], ?_⟩
  obtain ⟨it, h1, h2⟩ := inv.1.kind .pool id (List.mem_of_getElem? ha)
  have hsub := g .pool i id ha
  unfold subOf at hsub
  rw [h1] at hsub
  have hsub : it.sub = i := by simpa using hsub
  unfold deliver dispatch
  rw [h1]
  dsimp only
  rw [hsub]
  rcases (m.vec .out)[i]? with _ | z
  · rfl
  · rfl

example : ∃ m, run fresh demo = some m ∧ At m .pool 0 4 ∧ At m .out 0 3 := ⟨_, rfl, rfl, rfl⟩

/-- A timer which uses the timeout of the module. -/
def SysT (m : M) (id : Nat) : Prop := id ∈ m.vec .timer ∧ ∃ it, itemOf m.items id = some it ∧ it.sys = true

/-- Invariant without removals. -/
def SysInv (m : M) : Prop := (∀ i, m.sysIdx = some i → i < (m.vec .timer).length) ∧ ∀ id, SysT m id ↔ sysTimer m = some id

theorem SysInv.create {m m' : M} {k : Kind} {name : List Char} {ok : Bool} {r : Option Nat} (inv : Inv m) (h : create m k name ok = some (r, m'))
    (hs : SysInv m) : SysInv m' := by
  rcases create_cases h with ⟨_, _, _, rfl⟩ | ⟨_, _, _, rfl⟩ | ⟨hf, -, -, -, rfl⟩
  · exact hs
  · exact hs
  · obtain ⟨hs0, hs⟩ := hs
    have hlt : ∀ id, id ∈ m.vec .timer → id ≠ m.items.length := by
      intro id h
      obtain ⟨it, h1, -⟩ := inv.1.kind .timer id h
      exact Nat.ne_of_lt (itemOf_lt h1)
    by_cases hk : k = .timer
    · subst hk
      cases hsys : isSys m .timer name with
      | true =>
        have hinv : m.sysIdx = none := by
          unfold isSys at hsys
          cases hx : m.sysIdx with
          | none => rfl
          | some i =>
            rw [hx] at hsys
            simp [hs0 i hx] at hsys
        have hno : ∀ id, ¬ SysT m id := by
          intro id hc
          rw [hs id, sysTimer, hinv] at hc
          cases hc
        refine ⟨fun i hi => ?_, fun id => ?_⟩
        · simp at hi
          subst hi
          simp
        · unfold SysT sysTimer
          simp only [if_true, Option.bind_some]
          rw [List.getElem?_append_right (by omega), itemOf_append]
          simp only [Nat.sub_self, List.getElem?_cons_zero, Option.some.injEq, List.mem_append, List.mem_singleton]
          constructor
          · rintro ⟨h1, it, h2, h3⟩
            split at h2
            next e => exact e.symm
            next e =>
              rcases h1 with h1 | h1
              · exact absurd ⟨h1, it, h2, h3⟩ (hno id)
              · exact absurd h1 e
          · rintro rfl
            exact ⟨.inr rfl, _, by rw [if_pos rfl], rfl⟩
      | false =>
        refine ⟨fun i hi => ?_, fun id => ?_⟩
        · have := hs0 i hi
          simp
          omega
        · have e : sysTimer (⟨m.items ++ [some ⟨.timer, name, (m.vec .timer).length, false⟩], fun k' => if k' = .timer then m.vec .timer ++ [m.items.length] else m.vec k', m.sysIdx⟩ : M) = sysTimer m := by
            unfold sysTimer
            cases hx : m.sysIdx with
            | none => rfl
            | some i =>
              simp only [if_true, Option.bind_some]
              rw [List.getElem?_append_left (hs0 i hx)]
          simp only [Bool.false_eq_true, if_false]
          rw [e, ← hs id]
          unfold SysT
          simp only [if_true, List.mem_append, List.mem_singleton]
          rw [itemOf_append]
          constructor
          · rintro ⟨h1, it, h2, h3⟩
            split at h2
            · cases h2; cases h3
            next e => exact ⟨h1.resolve_right e, it, h2, h3⟩
          · rintro ⟨h1, it, h2, h3⟩
            exact ⟨.inl h1, it, by rw [if_neg (hlt id h1)]; exact h2, h3⟩
    · have hsys : isSys m k name = false := by unfold isSys; simp [hk]
      rw [hsys]
      have hkt : ¬ Kind.timer = k := fun e => hk e.symm
      refine ⟨fun i hi => ?_, fun id => ?_⟩
      · simp only [if_neg hkt]
        exact hs0 i hi
      · unfold SysT sysTimer
        simp only [if_neg hkt, Bool.false_eq_true, if_false]
        rw [itemOf_append]
        have := hs id
        unfold SysT sysTimer at this
        rw [← this]
        constructor
        · rintro ⟨h1, it, h2, h3⟩
          rw [if_neg (hlt id h1)] at h2
          exact ⟨h1, it, h2, h3⟩
        · rintro ⟨h1, it, h2, h3⟩
          exact ⟨h1, it, by rw [if_neg (hlt id h1)]; exact h2, h3⟩

/-- **C98, timer of the module (partial).** As long as no item is removed: the timer which is served by the timeout of the module
is the one which was created for this (all others have their own timeout). -/
theorem C98_systimer_partial (ops : List Op) (m : M) (hr : run fresh ops = some m) (hg : ∀ op ∈ ops, grows op = true) (id : Nat) :
    SysT m id ↔ sysTimer m = some id := by
  have key : ∀ (ops : List Op) (m m' : M), Inv m → SysInv m → (∀ op ∈ ops, grows op = true) → run m ops = some m' → SysInv m' := by
    intro ops
    induction ops with
    | nil => intro m m' _ s _ h; cases h; exact s
    | cons op ops ih =>
      intro m m' i s hg h
      simp only [run, Option.bind_eq_some_iff] at h
      obtain ⟨m1, h1, h2⟩ := h
      refine ih m1 m' (i.step h1) ?_ (fun o ho => hg o (by simp [ho])) h2
      cases op with
      | create k name ok =>
        simp only [step] at h1
        split at h1
        · cases h1
        · rw [Option.map_eq_some_iff] at h1
          obtain ⟨⟨r, m2⟩, h3, rfl⟩ := h1
          exact SysInv.create i h3 s
      | addConn name =>
        obtain ⟨-, rfl⟩ := add_conn h1
        refine ⟨s.1, fun id => ?_⟩
        have := s.2 id
        unfold SysT sysTimer at *
        rw [← this]
        constructor
        · rintro ⟨h1, it, h2, h3⟩
          obtain ⟨it', h4, -⟩ := i.1.kind .timer id h1
          dsimp only at h2
          rw [itemOf_append, if_neg (Nat.ne_of_lt (itemOf_lt h4))] at h2
          exact ⟨h1, it, h2, h3⟩
        · rintro ⟨h1, it, h2, h3⟩
          exact ⟨h1, it, by dsimp only; rw [itemOf_append, if_neg (Nat.ne_of_lt (itemOf_lt h2))]; exact h2, h3⟩
      | remove x => exact absurd (hg (.remove x) (by simp)) (by simp [grows])
  exact (key ops fresh m Inv.fresh ⟨fun i h => (by cases h), fun id => ⟨fun h => (by have := h.1; simp [fresh] at this), fun h => (by cases h)⟩⟩ hg hr).2 id

/-- Two timers of users, the timer of the module between them. -/
def demoT : List Op := [.create .timer ['a'] true, .create .timer ['S', 'y', 's', '1'] true, .create .timer ['S', 'y', 's', '2'] true]

example : ∃ m, run fresh demoT = some m ∧ sysTimer m = some 1 ∧ SysT m 1 := ⟨_, rfl, rfl, by simp [fresh], _, rfl, rfl⟩

/-- **C98 counterexample, timer of the module.** After the removal of the first timer the timeout of the module serves
another timer, and the timer of the module gets no events. -/
theorem C98_systimer_counterexample : ∃ m, run fresh (demoT ++ [.remove 0]) = some m ∧ SysT m 1 ∧ sysTimer m = some 2 ∧ ¬ SysT m 2 := by
  refine ⟨_, rfl, ⟨(List.Mem.head _ : 1 ∈ [1, 2]), _, rfl, rfl⟩, rfl, ?_⟩
  rintro ⟨-, it, h1, h2⟩
  cases h1
  cases h2

end Verif.ModuleItems
