import Verif.Spec.ObjIter

/-!
# C101: the iterator visits all objects
-/

namespace Verif.ObjIter
open Verif.ObjIter.Spec

def pathOf (st : List (Tree × Nat)) : List Nat := (st.map (·.2)).reverse

/-- What is left when the current object is done. -/
def rest (g : List Nat → Bool) (max : Int) : List (Tree × Nat) → List (List Nat × Nat)
  | [] => []
  | (f, i) :: st => preL g max (pathOf st) (i + 1) (f.childs.drop (i + 1)) ++ rest g max st

/-- What is left after the current object. -/
def after (g : List Nat → Bool) (max : Int) (t : Tree) (st : List (Tree × Nat)) : List (List Nat × Nat) :=
  (if g (pathOf st) = true ∧ (max < 0 ∨ (st.length : Int) < max) then preL g max (pathOf st) 0 t.childs else []) ++ rest g max st

theorem pathOf_cons (f : Tree) (i : Nat) (st : List (Tree × Nat)) : pathOf ((f, i) :: st) = pathOf st ++ [i] := by simp [pathOf]

theorem pathOf_length (st : List (Tree × Nat)) : (pathOf st).length = st.length := by simp [pathOf]

theorem pre_eq (g : List Nat → Bool) (max : Int) (t : Tree) (st : List (Tree × Nat)) : pre g max (pathOf st) t ++ rest g max st = (pathOf st, t.id) :: after g max t st := by
  cases t with
  | node id ch =>
    rw [pre, pathOf_length]
    rfl

theorem preL_drop (g : List Nat → Bool) (max : Int) (p : List Nat) (i : Nat) (ch : List Tree) : preL g max p i (ch.drop i) =
    match ch[i]? with | some c => pre g max (p ++ [i]) c ++ preL g max p (i + 1) (ch.drop (i + 1)) | none => [] := by
  cases h : ch[i]? with
  | none =>
    rw [List.drop_eq_nil_of_le (List.getElem?_eq_none_iff.1 h), preL]
  | some c =>
    obtain ⟨h1, h2⟩ := List.getElem?_eq_some_iff.1 h
    rw [List.drop_eq_getElem_cons h1, h2, preL]

theorem climb_spec (g : List Nat → Bool) (max : Int) : ∀ st, match climb st with
    | (none, st') => st' = [] ∧ rest g max st = []
    | (some c, st') => rest g max st = (pathOf st', c.id) :: after g max c st'
  | [] => ⟨rfl, rfl⟩
  | (f, i) :: st => by
    have ih := climb_spec g max st
    unfold climb
    cases h : f.childs[i + 1]? with
    | none =>
      have e : rest g max ((f, i) :: st) = rest g max st := by
        rw [rest, preL_drop, h]
        rfl
      rw [e]
      exact ih
    | some c =>
      show rest g max ((f, i) :: st) = _
      rw [← pre_eq, pathOf_cons, rest, preL_drop, h, rest, List.append_assoc]

/-- One call, when the iterator is at an object. -/
theorem next_spec (g : List Nat → Bool) (it : It) (t : Tree) (h : it.cur = some t) :
    match (next it (g it.path)).cur with
    | none => (next it (g it.path)) = { it with cur := none, st := [] } ∧ after g it.max t it.st = []
    | some c => after g it.max t it.st = ((next it (g it.path)).path, c.id) :: after g it.max c (next it (g it.path)).st ∧ (next it (g it.path)).max = it.max ∧
        (next it (g it.path)).top = it.top := by
  have hp : it.path = pathOf it.st := rfl
  have hcl := climb_spec g it.max it.st
  have key : ∀ b, ((if b && (it.max < 0 || it.st.length < it.max) then t.childs[0]? else none) = none) → next it b = { it with cur := (climb it.st).1, st := (climb it.st).2 } := by
    intro b hb
    unfold next
    rw [h]
    dsimp only
    rw [hb]
  cases hc : (if g it.path && (it.max < 0 || it.st.length < it.max) then t.childs[0]? else none) with
  | none =>
    rw [key _ hc]
    have ha : after g it.max t it.st = rest g it.max it.st := by
      unfold after
      by_cases c : g (pathOf it.st) = true ∧ (it.max < 0 ∨ (it.st.length : Int) < it.max)
      · rw [if_pos c]
        rw [if_pos (by rw [hp]; simpa using c)] at hc
        have := preL_drop g it.max (pathOf it.st) 0 t.childs
        rw [hc, List.drop_zero] at this
        rw [this]
        rfl
      · rw [if_neg c]; rfl
    rw [ha]
    cases hcc : climb it.st with
    | mk a b =>
      rw [hcc] at hcl
      cases a with
      | none =>
        obtain ⟨h1, h2⟩ := hcl
        exact ⟨by rw [h1], h2⟩
      | some c => exact ⟨hcl, rfl, rfl⟩
  | some c =>
    have e : next it (g it.path) = { it with cur := some c, st := (t, 0) :: it.st } := by
      unfold next
      rw [h]
      dsimp only
      rw [hc]
    rw [e]
    dsimp only
    have hcond : g (pathOf it.st) = true ∧ (it.max < 0 ∨ (it.st.length : Int) < it.max) := by
      by_cases c' : (g it.path && (decide (it.max < 0) || decide ((it.st.length : Int) < it.max))) = true
      · rw [hp] at c'; simpa using c'
      · rw [if_neg c'] at hc; cases hc
    rw [if_pos (by rw [hp]; simpa using hcond)] at hc
    refine ⟨?_, rfl, rfl⟩
    show _ = (pathOf ((t, 0) :: it.st), c.id) :: after g it.max c ((t, 0) :: it.st)
    rw [← pre_eq, pathOf_cons]
    unfold after
    rw [if_pos hcond]
    have := preL_drop g it.max (pathOf it.st) 0 t.childs
    rw [hc, List.drop_zero] at this
    rw [this, rest, List.append_assoc]

theorem calls_after (g : List Nat → Bool) : ∀ (xs : List (List Nat × Nat)) (it : It) (t : Tree), it.cur = some t → after g it.max t it.st = xs →
    calls g (xs.length + 1) it = (xs.map some ++ [none], ⟨it.top, it.max, none, []⟩)
  | [], it, t, h, ha => by
    have k := next_spec g it t h
    rw [List.length_nil]
    unfold calls
    dsimp only
    cases hn : (next it (g it.path)).cur with
    | none =>
      rw [hn] at k
      simp only [calls, k.1]
      rfl
    | some c =>
      rw [hn] at k
      rw [ha] at k
      cases k.1
  | x :: xs, it, t, h, ha => by
    have k := next_spec g it t h
    rw [List.length_cons, calls]
    cases hn : (next it (g it.path)).cur with
    | none =>
      rw [hn] at k
      rw [ha] at k
      cases k.2
    | some c =>
      rw [hn] at k
      obtain ⟨k1, k2, k3⟩ := k
      rw [ha] at k1
      simp only [List.cons.injEq] at k1
      have ih := calls_after g xs (next it (g it.path)) c hn (by rw [k2]; exact k1.2.symm)
      rw [ih, k2, k3, ← k1.1.symm]
      simp [k1.1]

/-- **C101, visits.** The calls of `next` give every object of the tree (down to the maximal level and without the objects whose parents are
skipped) exactly once, parents before their childs and childs in order, then null; after that the iterator is as new. -/
theorem C101_visits (g : List Nat → Bool) (max : Int) (t : Tree) :
    calls g ((pre g max [] t).length + 1) (new (some t) max) = ((pre g max [] t).map some ++ [none], new (some t) max) := by
  have e : pre g max [] t = ([], t.id) :: after g max t [] := by
    have := pre_eq g max t []
    rw [show rest g max [] = [] from rfl, List.append_nil] at this
    exact this
  rw [e, List.length_cons, calls]
  have hn : next (new (some t) max) (g (new (some t) max).path) = ⟨some t, max, some t, []⟩ := rfl
  rw [hn, calls_after g _ ⟨some t, max, some t, []⟩ t rfl rfl]
  rfl

/-- **C101, no object.** Without top object there is nothing. -/
theorem C101_null (g : List Nat → Bool) (max : Int) : ∀ n, calls g n (new none max) = (List.replicate n none, new none max)
  | 0 => rfl
  | n + 1 => by
    unfold calls
    dsimp only
    have hn : next (new none max) (g (new none max).path) = new none max := rfl
    rw [hn, C101_null g max n]
    rfl

mutual
theorem pre_all (p : List Nat) : ∀ t : Tree, ∀ q c, at_ t q = some c → (p ++ q, c.id) ∈ pre (fun _ => true) (-1) p t
  | .node id ch, [], c, h => by
    cases h
    simp [pre, Tree.id]
  | .node id ch, i :: q, c, h => by
    rw [pre, if_pos ⟨rfl, .inl (by decide)⟩]
    refine List.mem_cons_of_mem _ ?_
    cases hc : ch[i]? with
    | none =>
      simp only [at_, Tree.childs, hc] at h
      cases h
    | some d =>
      simp only [at_, Tree.childs, hc] at h
      have := preL_all p 0 ch i d hc q c h
      rw [Nat.zero_add] at this
      exact this

theorem preL_all (p : List Nat) (k : Nat) : ∀ (ch : List Tree) (i : Nat) (d : Tree), ch[i]? = some d → ∀ q c, at_ d q = some c →
    (p ++ (k + i) :: q, c.id) ∈ preL (fun _ => true) (-1) p k ch
  | [], i, d, h, _, _, _ => by simp at h
  | t :: ts, 0, d, h, q, c, hq => by
    cases h
    rw [preL]
    refine List.mem_append_left _ ?_
    have := pre_all (p ++ [k]) t q c hq
    rw [List.append_assoc] at this
    exact this
  | t :: ts, i + 1, d, h, q, c, hq => by
    rw [preL]
    refine List.mem_append_right _ ?_
    have := preL_all p (k + 1) ts i d h q c hq
    rw [show k + (i + 1) = k + 1 + i from by omega]
    exact this
end

mutual
theorem pre_only (g : List Nat → Bool) (max : Int) (p : List Nat) : ∀ t : Tree, ∀ x ∈ pre g max p t, ∃ q c, x = (p ++ q, c.id) ∧ at_ t q = some c ∧ (0 ≤ max → ∀ j, q ≠ [] → j < q.length → ((p.length + j : Nat) : Int) < max) ∧
      ∀ a b, q = a ++ b → b ≠ [] → g (p ++ a) = true
  | .node id ch, x, h => by
    rw [pre] at h
    rcases List.mem_cons.1 h with rfl | h
    · exact ⟨[], .node id ch, by rw [List.append_nil]; rfl, rfl, fun _ j hq => absurd rfl hq, by
        intro a b e hb
        cases a with
        | nil => exact absurd e.symm hb
        | cons _ _ => cases e⟩
    · split at h
      · next hc =>
        obtain ⟨i, d, q, c, e, h1, h2, h3, h4⟩ := preL_only g max p 0 ch x h
        rw [Nat.zero_add] at e h4
        refine ⟨i :: q, c, e, ?_, ?_, ?_⟩
        · simp only [at_, Tree.childs, h1]
          exact h2
        · intro hm j _ hj
          cases j with
          | zero => rcases hc.2 with k | k
                    · omega
                    · simpa using k
          | succ j =>
            have hj' : j < q.length := by simpa using hj
            have := h3 hm j (by intro e; rw [e] at hj'; simp at hj') hj'
            omega
        · intro a b e hb
          cases a with
          | nil => rw [List.append_nil]; exact hc.1
          | cons y a =>
            simp only [List.cons_append, List.cons.injEq] at e
            have := h4 a b e.2 hb
            rw [← e.1]
            rw [List.append_assoc] at this
            exact this
      · simp at h

theorem preL_only (g : List Nat → Bool) (max : Int) (p : List Nat) (k : Nat) : ∀ (ch : List Tree), ∀ x ∈ preL g max p k ch,
    ∃ i d q c, x = (p ++ (k + i) :: q, c.id) ∧ ch[i]? = some d ∧ at_ d q = some c ∧ (0 ≤ max → ∀ j, q ≠ [] → j < q.length → ((p.length + 1 + j : Nat) : Int) < max) ∧
      ∀ a b, q = a ++ b → b ≠ [] → g (p ++ [k + i] ++ a) = true
  | [], x, h => by simp [preL] at h
  | t :: ts, x, h => by
    rw [preL] at h
    rcases List.mem_append.1 h with h | h
    · obtain ⟨q, c, e, h1, h2, h3⟩ := pre_only g max (p ++ [k]) t x h
      refine ⟨0, t, q, c, by rw [e, List.append_assoc]; rfl, rfl, h1, ?_, h3⟩
      intro hm j hq hj
      have := h2 hm j hq hj
      rw [List.length_append, List.length_singleton] at this
      exact this
    · obtain ⟨i, d, q, c, e, h1, h2, h3, h4⟩ := preL_only g max p (k + 1) ts x h
      refine ⟨i + 1, d, q, c, by rw [e, show k + (i + 1) = k + 1 + i from by omega], h1, h2, h3, ?_⟩
      rw [show k + (i + 1) = k + 1 + i from by omega]
      exact h4
end

mutual
theorem pre_nodup (g : List Nat → Bool) (max : Int) (p : List Nat) : ∀ t : Tree, ((pre g max p t).map (·.1)).Nodup
  | .node id ch => by
    rw [pre, List.map_cons, List.nodup_cons]
    split
    · next hc =>
      refine ⟨?_, preL_nodup g max p 0 ch⟩
      intro h
      obtain ⟨x, hx, e⟩ := List.mem_map.1 h
      obtain ⟨i, d, q, c, e', -⟩ := preL_only g max p 0 ch x hx
      rw [e'] at e
      have := congrArg List.length e
      simp at this
    · exact ⟨by simp, by simp⟩

theorem preL_nodup (g : List Nat → Bool) (max : Int) (p : List Nat) (k : Nat) : ∀ ch : List Tree, ((preL g max p k ch).map (·.1)).Nodup
  | [] => by simp [preL]
  | t :: ts => by
    rw [preL, List.map_append, List.nodup_append]
    refine ⟨pre_nodup g max (p ++ [k]) t, preL_nodup g max p (k + 1) ts, ?_⟩
    intro a ha b hb e
    obtain ⟨x, hx, ex⟩ := List.mem_map.1 ha
    obtain ⟨y, hy, ey⟩ := List.mem_map.1 hb
    obtain ⟨q, c, e1, -⟩ := pre_only g max (p ++ [k]) t x hx
    obtain ⟨i, d, q', c', e2, -⟩ := preL_only g max p (k + 1) ts y hy
    rw [e1] at ex
    rw [e2] at ey
    rw [← ex, ← ey] at e
    simp only [List.append_assoc, List.append_cancel_left_eq, List.singleton_append, List.cons.injEq] at e
    omega
end

/-- **C101, all objects once.** The list of visits has every position at most once, only positions of the tree with the object there, within the
levels and not below skipped objects; without limits it has all positions. -/
theorem C101_all (g : List Nat → Bool) (max : Int) (t : Tree) :
    ((pre g max [] t).map (·.1)).Nodup ∧
      (∀ x ∈ pre g max [] t, ∃ c, at_ t x.1 = some c ∧ x.2 = c.id ∧ (0 ≤ max → (x.1.length : Int) ≤ max) ∧ ∀ a b, x.1 = a ++ b → b ≠ [] → g a = true) ∧
      (∀ p c, at_ t p = some c → (p, c.id) ∈ pre (fun _ => true) (-1) [] t) := by
  refine ⟨pre_nodup g max [] t, ?_, fun p c h => pre_all [] t p c h⟩
  intro x hx
  obtain ⟨q, c, e, h1, h2, h3⟩ := pre_only g max [] t x hx
  rw [e]
  refine ⟨c, h1, rfl, ?_, ?_⟩
  · intro hm
    simp only [List.nil_append]
    cases q with
    | nil => exact hm
    | cons a q =>
      have := h2 hm q.length (by simp) (by simp)
      simp only [List.length_nil, List.length_cons] at this ⊢
      omega
  · intro a b e' hb
    exact h3 a b e' hb

example : at_ (.node 1 [.node 2 [], .node 3 [.node 4 []]]) [1, 0] = some (.node 4 []) := rfl
example : (calls (fun _ => true) 6 (new (some (.node 1 [.node 2 [], .node 3 [.node 4 []]])) (-1))).1 =
    [some ([], 1), some ([0], 2), some ([1], 3), some ([1, 0], 4), none, some ([], 1)] := by decide

/-! ## Parents -/

/-- The stack fits to the tree. -/
def Valid (t : Tree) : List (Tree × Nat) → Tree → Prop
  | [], c => c = t
  | (f, i) :: st, c => f.childs[i]? = some c ∧ Valid t st f

theorem at_snoc : ∀ (p : List Nat) (t f c : Tree) (i : Nat), at_ t p = some f → f.childs[i]? = some c → at_ t (p ++ [i]) = some c
  | [], t, f, c, i, h, hc => by
    cases h
    simp [at_, hc]
  | j :: p, t, f, c, i, h, hc => by
    rw [List.cons_append, at_]
    rw [at_] at h
    cases hj : t.childs[j]? with
    | none => rw [hj] at h; cases h
    | some d =>
      rw [hj] at h
      exact at_snoc p d f c i h hc

theorem valid_at {t : Tree} : ∀ {st : List (Tree × Nat)} {c : Tree}, Valid t st c → at_ t (pathOf st) = some c ∧
    ∀ l, l < st.length → ∃ d, (st.reverse[l]?).map (·.1) = some d ∧ at_ t ((pathOf st).take l) = some d
  | [], c, h => by
    cases h
    exact ⟨rfl, by simp⟩
  | (f, i) :: st, c, h => by
    obtain ⟨h1, h2⟩ := valid_at h.2
    refine ⟨by rw [pathOf_cons]; exact at_snoc _ _ _ _ _ h1 h.1, ?_⟩
    intro l hl
    rw [pathOf_cons, List.reverse_cons]
    by_cases e : l < st.length
    · obtain ⟨d, k1, k2⟩ := h2 l e
      refine ⟨d, ?_, ?_⟩
      · rw [List.getElem?_append_left (by simpa using e)]
        exact k1
      · rw [List.take_append_of_le_length (by rw [pathOf_length]; omega)]
        exact k2
    · have e' : l = st.length := by simp only [List.length_cons] at hl; omega
      subst e'
      refine ⟨f, ?_, ?_⟩
      · rw [List.getElem?_append_right (by simp)]
        simp
      · rw [← pathOf_length st, List.take_left']
        · exact h1
        · rfl

theorem valid_climb {t : Tree} : ∀ {st : List (Tree × Nat)} {c : Tree}, Valid t st c → ∀ d, (climb st).1 = some d → Valid t (climb st).2 d
  | [], _, _, d, h => by cases h
  | (f, i) :: st, c, h, d, hd => by
    unfold climb at hd ⊢
    cases e : f.childs[i + 1]? with
    | none =>
      rw [e] at hd
      exact valid_climb h.2 d hd
    | some x =>
      rw [e] at hd
      cases hd
      exact ⟨e, h.2⟩

def Ok (t : Tree) (it : It) : Prop := it.top = some t ∧ ∀ c, it.cur = some c → Valid t it.st c

theorem ok_next {t : Tree} {it : It} (h : Ok t it) (b : Bool) : Ok t (next it b) := by
  obtain ⟨h1, h2⟩ := h
  unfold next
  cases hc : it.cur with
  | none => exact ⟨h1, fun c e => by dsimp only at e; rw [h1] at e; cases e; rfl⟩
  | some x =>
    have hv := h2 x hc
    dsimp only
    split
    · next c' e =>
      refine ⟨h1, fun d hd => ?_⟩
      cases hd
      split at e
      · exact ⟨e, hv⟩
      · cases e
    · exact ⟨h1, fun d hd => valid_climb hv d hd⟩

theorem ok_calls {t : Tree} (g : List Nat → Bool) : ∀ n {it : It}, Ok t it → Ok t (calls g n it).2
  | 0, _, h => h
  | n + 1, _, h => ok_calls g n (ok_next h _)

/-- **C101, position.** The current object is the one at the position of the iterator, `level` is its level and `parent` gives the objects above
it. -/
theorem C101_parents (g : List Nat → Bool) (max : Int) (t : Tree) (n : Nat) (it : It) (hit : it = (calls g n (new (some t) max)).2) (c : Tree) (hc : it.cur = some c) :
    at_ t it.path = some c ∧ it.level = it.path.length ∧ ∀ l, l < it.level → ∃ d, it.parent l = some d ∧ at_ t (it.path.take l) = some d := by
  have hk : Ok t it := by
    rw [hit]
    exact ok_calls g n ⟨rfl, fun _ e => by cases e⟩
  obtain ⟨h1, h2⟩ := valid_at (hk.2 c hc)
  exact ⟨h1, (pathOf_length it.st).symm, h2⟩

example : ∃ it c, it = (calls (fun _ => true) 4 (new (some (.node 1 [.node 2 [], .node 3 [.node 4 []]])) (-1))).2 ∧ it.cur = some c ∧ it.level = 2 :=
  ⟨_, .node 4 [], rfl, rfl, rfl⟩

end Verif.ObjIter
