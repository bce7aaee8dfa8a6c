import Verif.Spec.StreamRun
/-!
# Invariants of the parallel analysis
-/

namespace Verif.StreamRun

theorem run_ind {P : List Act → St → Prop} {s0 : St} (h0 : P [] s0)
    (hs : ∀ acts s a s', P acts s → step s a = some s' → P (acts ++ [a]) s') {acts : List Act} {s : St}
    (h : run s0 acts = some s) : P acts s := by
  have key : ∀ (acts pre : List Act) (t : St), P pre t → run t acts = some s → P (pre ++ acts) s := by
    intro acts
    induction acts with
    | nil =>
      intro pre t hp hr
      simp only [run, Option.some.injEq] at hr
      rw [List.append_nil, ← hr]; exact hp
    | cons a as ih =>
      intro pre t hp hr
      simp only [run, Option.bind_eq_some_iff] at hr
      obtain ⟨t', h1, h2⟩ := hr
      have := ih (pre ++ [a]) t' (hs _ _ _ _ hp h1) h2
      simpa using this
  simpa using key acts [] s0 h0 h

theorem run_append (a b : List Act) (s : St) : run s (a ++ b) = (run s a).bind (fun t => run t b) := by
  induction a generalizing s with
  | nil => rfl
  | cons x xs ih =>
    simp only [List.cons_append, run]
    cases step s x with
    | none => rfl
    | some t => simp only [Option.bind_some]; exact ih t

theorem arrived_append (a b : List Act) : arrived (a ++ b) = arrived a ++ arrived b := by
  induction a with
  | nil => rfl
  | cons x xs ih => cases x <;> simp [arrived, ih]

theorem dataOf_append (a b : List Item) : dataOf (a ++ b) = dataOf a ++ dataOf b := by
  induction a with
  | nil => rfl
  | cons x xs ih => cases x <;> simp [dataOf, ih]

theorem upd_get (g : Slave → Slave) (l : List Slave) (n m : Nat) :
    (upd g n l)[m]? = if m = n then l[m]?.map g else l[m]? := by
  induction l generalizing n m with
  | nil => cases n <;> simp [upd]
  | cons x xs ih =>
    cases n with
    | zero => cases m <;> simp [upd]
    | succ n => cases m with
      | zero => simp [upd]
      | succ m => simp [upd, ih]

theorem upd_length (g : Slave → Slave) (l : List Slave) (n : Nat) : (upd g n l).length = l.length := by
  induction l generalizing n with
  | nil => cases n <;> rfl
  | cons x xs ih => cases n <;> simp [upd, ih]

theorem mem_upd {g : Slave → Slave} {l : List Slave} {n : Nat} {x : Slave} (h : x ∈ upd g n l) :
    x ∈ l ∨ ∃ y, l[n]? = some y ∧ x = g y := by
  obtain ⟨m, hm⟩ := List.mem_iff_getElem?.1 h
  rw [upd_get] at hm
  by_cases e : m = n
  · rw [if_pos e] at hm
    subst e
    rw [Option.map_eq_some_iff] at hm
    obtain ⟨y, h1, h2⟩ := hm
    exact Or.inr ⟨y, h1, h2.symm⟩
  · rw [if_neg e] at hm
    exact Or.inl (List.mem_iff_getElem?.2 ⟨m, hm⟩)

def sumOf (f : Slave → Nat) : List Slave → Nat
  | [] => 0
  | x :: xs => f x + sumOf f xs

theorem sumOf_upd (f : Slave → Nat) (g : Slave → Slave) (l : List Slave) (n : Nat) (y : Slave) (h : l[n]? = some y) :
    sumOf f (upd g n l) + f y = sumOf f l + f (g y) := by
  induction l generalizing n with
  | nil => simp at h
  | cons x xs ih =>
    cases n with
    | zero => simp only [List.getElem?_cons_zero, Option.some.injEq] at h; subst h; simp only [upd, sumOf]; omega
    | succ n => simp only [List.getElem?_cons_succ] at h; have := ih n h; simp only [upd, sumOf]; omega

theorem sumOf_pos {f : Slave → Nat} {l : List Slave} (h : sumOf f l = 0) : ∀ x ∈ l, f x = 0 := by
  induction l with
  | nil => simp
  | cons x xs ih =>
    simp only [sumOf] at h
    intro y hy
    rcases List.mem_cons.1 hy with e | e
    · subst e; omega
    · exact ih (by omega) y e

theorem sumOf_zero {f : Slave → Nat} {l : List Slave} (h : ∀ x ∈ l, f x = 0) : sumOf f l = 0 := by
  induction l with
  | nil => rfl
  | cons x xs ih =>
    simp only [sumOf]
    rw [h x (by simp), ih (fun y hy => h y (by simp [hy]))]

theorem sumOf_one {f : Slave → Nat} {l : List Slave} (h : ∀ x ∈ l, f x = 1) : sumOf f l = l.length := by
  induction l with
  | nil => rfl
  | cons x xs ih =>
    simp only [sumOf, List.length_cons]
    rw [h x (by simp), ih (fun y hy => h y (by simp [hy]))]
    omega

theorem sumOf_map (f : Slave → Nat) (g : Slave → Slave) (l : List Slave) : sumOf f (l.map g) = sumOf (fun x => f (g x)) l := by
  induction l with
  | nil => rfl
  | cons x xs ih => simp only [List.map_cons, sumOf, ih]

theorem pick_spec (l : List Slave) : ∀ (indx max min n k mx mn : Nat), pick indx max min n l = (k, mx, mn) →
    ((mx = max ∧ k = indx ∧ ∀ x ∈ l, x.room ≤ max) ∨
      ∃ j x, l[j]? = some x ∧ k = n + j ∧ mx = x.room ∧ max < mx ∧
        ∀ m y, l[m]? = some y → y.room ≤ mx ∧ (m < j → y.room < mx)) ∧
    (mn ≠ 0 ↔ min ≠ 0 ∧ ∀ x ∈ l, x.room > 0) := by
  induction l with
  | nil =>
    intro indx max min n k mx mn h
    simp only [pick, Prod.mk.injEq] at h
    obtain ⟨rfl, rfl, rfl⟩ := h
    simp
  | cons x xs ih =>
    intro indx max min n k mx mn h
    unfold pick at h
    dsimp only at h
    obtain ⟨h1, h2⟩ := ih _ _ _ _ _ _ _ h
    constructor
    · by_cases hx : x.room > max
      · simp only [if_pos hx] at h1
        rcases h1 with ⟨e1, e2, e3⟩ | ⟨j, y, e1, e2, e3, e4, e5⟩
        · refine Or.inr ⟨0, x, rfl, by omega, e1, by omega, ?_⟩
          intro m z hm
          cases m with
          | zero => simp only [List.getElem?_cons_zero, Option.some.injEq] at hm; subst hm; exact ⟨by omega, by omega⟩
          | succ m =>
            simp only [List.getElem?_cons_succ] at hm
            have := e3 z (List.mem_iff_getElem?.2 ⟨m, hm⟩)
            exact ⟨by omega, by omega⟩
        · refine Or.inr ⟨j + 1, y, by simpa using e1, by omega, e3, by omega, ?_⟩
          intro m z hm
          cases m with
          | zero => simp only [List.getElem?_cons_zero, Option.some.injEq] at hm; subst hm; exact ⟨by omega, by omega⟩
          | succ m =>
            simp only [List.getElem?_cons_succ] at hm
            have := e5 m z hm
            exact ⟨this.1, fun h => this.2 (by omega)⟩
      · simp only [if_neg hx] at h1
        rcases h1 with ⟨e1, e2, e3⟩ | ⟨j, y, e1, e2, e3, e4, e5⟩
        · refine Or.inl ⟨e1, e2, ?_⟩
          intro z hz
          rcases List.mem_cons.1 hz with e | e
          · subst e; omega
          · exact e3 z e
        · refine Or.inr ⟨j + 1, y, by simpa using e1, by omega, e3, e4, ?_⟩
          intro m z hm
          cases m with
          | zero => simp only [List.getElem?_cons_zero, Option.some.injEq] at hm; subst hm; exact ⟨by omega, by omega⟩
          | succ m =>
            simp only [List.getElem?_cons_succ] at hm
            have := e5 m z hm
            exact ⟨this.1, fun h => this.2 (by omega)⟩
    · rw [h2]
      simp only [List.mem_cons, forall_eq_or_imp]
      split <;> constructor <;> rintro ⟨a, b⟩ <;> refine ⟨?_, ?_⟩ <;> first | assumption | omega | exact ⟨by omega, b⟩ | exact b.2

/-- The output chosen in the loop. -/
theorem pick_main {l : List Slave} {k mx mn : Nat} (h : pick 0 0 10 0 l = (k, mx, mn)) (hm : mx ≠ 0) :
    ∃ x, l[k]? = some x ∧ x.room > 0 ∧ ∀ m y, l[m]? = some y → y.room ≤ x.room ∧ (m < k → y.room < x.room) := by
  rcases (pick_spec l 0 0 10 0 k mx mn h).1 with ⟨e, _, _⟩ | ⟨j, x, e1, e2, e3, e4, e5⟩
  · exact absurd e hm
  · have : k = j := by omega
    subst this
    refine ⟨x, e1, by omega, ?_⟩
    intro m y hy
    have := e5 m y hy
    exact ⟨by omega, fun h => by have := this.2 h; omega⟩

/-! ### All runs -/

structure Inv (caps : List Nat) (acts : List Act) (s : St) : Prop where
  taken : ∃ c, arrived acts = c ++ s.inp ∧ dataOf c = s.sent.map (·.2)
  len : s.slaves.map (·.cap) = caps
  idx : ∀ p ∈ s.sent, p.1 < s.slaves.length
  parts : ∀ n x, s.slaves[n]? = some x → share n s.sent = x.done ++ dataOf x.queue
  fits : ∀ x ∈ s.slaves, x.queue.length ≤ x.cap
  sizes : ∀ x ∈ s.slaves, x.totalSize = (x.done.map (·.size)).sum ∧ x.totalEvnts = (x.done.map (·.analysed)).sum
  total : s.totalSize = (s.sent.map (·.2.size)).sum ∧ s.totalEvnts = (s.sent.map (·.2.events)).sum

theorem share_append (n : Nat) (l : List (Nat × Buf)) (k : Nat) (b : Buf) :
    share n (l ++ [(k, b)]) = share n l ++ if k = n then [b] else [] := by
  simp only [share, List.filter_append, List.map_append]
  by_cases h : k = n <;> simp [h]

theorem inv_init (caps : List Nat) : Inv caps [] (init caps) where
  taken := ⟨[], rfl, rfl⟩
  len := by simp [init, Function.comp_def]
  idx := by simp [init]
  parts := by
    intro n x h
    simp only [init, List.getElem?_map, Option.map_eq_some_iff] at h
    obtain ⟨c, _, rfl⟩ := h
    rfl
  fits := by simp [init]
  sizes := by simp [init]
  total := by simp [init]

theorem Inv.same {caps : List Nat} {acts : List Act} {a : Act} {s s' : St} (h : Inv caps acts s) (ha : arrived [a] = [])
    (hi : s'.inp = s.inp) (hs : s'.slaves = s.slaves) (ht : s'.sent = s.sent) (h1 : s'.totalSize = s.totalSize)
    (h2 : s'.totalEvnts = s.totalEvnts) : Inv caps (acts ++ [a]) s' := by
  constructor
  · rw [arrived_append, ha, List.append_nil, hi, ht]; exact h.taken
  · rw [hs]; exact h.len
  · rw [hs, ht]; exact h.idx
  · rw [hs, ht]; exact h.parts
  · rw [hs]; exact h.fits
  · rw [hs]; exact h.sizes
  · rw [ht, h1, h2]; exact h.total

theorem Inv.sendAll {caps : List Nat} {acts : List Act} {s : St} (h : Inv caps acts s) :
    Inv caps acts { s with slaves := sendAll .eof s.slaves } := by
  constructor
  · exact h.taken
  · rw [← h.len]
    simp only [StreamRun.sendAll, List.map_map]
    apply List.map_congr_left
    intro x _
    simp only [Function.comp]
    split <;> rfl
  · intro p hp
    simp only [StreamRun.sendAll, List.length_map]
    exact h.idx p hp
  · intro n x hx
    simp only [StreamRun.sendAll, List.getElem?_map, Option.map_eq_some_iff] at hx
    obtain ⟨y, hy, rfl⟩ := hx
    have := h.parts n y hy
    split
    · simp only [Slave.put, dataOf_append, dataOf, List.append_nil]; exact this
    · exact this
  · intro x hx
    simp only [StreamRun.sendAll, List.mem_map] at hx
    obtain ⟨y, hy, rfl⟩ := hx
    have := h.fits y hy
    split
    · rename_i hr
      simp only [Slave.put, Slave.room, List.length_append, List.length_singleton] at *
      omega
    · exact this
  · intro x hx
    simp only [StreamRun.sendAll, List.mem_map] at hx
    obtain ⟨y, hy, rfl⟩ := hx
    have := h.sizes y hy
    split
    · exact this
    · exact this
  · exact h.total

theorem Inv.generate {caps : List Nat} {acts : List Act} {s : St} (h : Inv caps acts s) (buf : Bool) :
    Inv caps acts (generate buf s) := by
  unfold StreamRun.generate
  split
  · exact h
  · cases buf
    · exact ⟨h.taken, h.len, h.idx, h.parts, h.fits, h.sizes, h.total⟩
    · have h := h.sendAll
      exact ⟨h.taken, h.len, h.idx, h.parts, h.fits, h.sizes, h.total⟩

theorem Inv.pc {caps : List Nat} {acts : List Act} {s : St} (h : Inv caps acts s) (p : Pc) : Inv caps acts { s with pc := p } :=
  ⟨h.taken, h.len, h.idx, h.parts, h.fits, h.sizes, h.total⟩

theorem Inv.merge {caps : List Nat} {acts : List Act} {s : St} (h : Inv caps acts s) : Inv caps acts (merge s) := by
  unfold StreamRun.merge
  split
  · exact h
  · constructor
    · exact h.taken
    · rw [← h.len]; simp [Function.comp_def]
    · intro p hp; simp only [List.length_map]; exact h.idx p hp
    · intro n x hx
      simp only [List.getElem?_map, Option.map_eq_some_iff] at hx
      obtain ⟨y, hy, rfl⟩ := hx
      exact h.parts n y hy
    · intro x hx
      simp only [List.mem_map] at hx
      obtain ⟨y, hy, rfl⟩ := hx
      exact h.fits y hy
    · intro x hx
      simp only [List.mem_map] at hx
      obtain ⟨y, hy, rfl⟩ := hx
      exact h.sizes y hy
    · exact h.total

theorem Inv.act {caps : List Nat} {acts : List Act} {a : Act} {s : St} (h : Inv caps acts s) (ha : arrived [a] = []) :
    Inv caps (acts ++ [a]) s := h.same ha rfl rfl rfl rfl rfl

theorem Inv.put {caps : List Nat} {acts : List Act} {s : St} (h : Inv caps acts s) {b : Buf} {inp : List Item} {k : Nat} {x : Slave}
    (hi : s.inp = .data b :: inp) (hk : s.slaves[k]? = some x) (hr : x.room > 0) :
    Inv caps acts { s with inp := inp, totalSize := s.totalSize + b.size, totalEvnts := s.totalEvnts + b.events,
                           slaves := upd (Slave.put (.data b)) k s.slaves, sent := s.sent ++ [(k, b)] } := by
  constructor
  · obtain ⟨c, h1, h2⟩ := h.taken
    refine ⟨c ++ [.data b], by rw [h1, hi]; simp, ?_⟩
    rw [dataOf_append, h2]; simp [dataOf]
  · rw [← h.len]
    apply List.ext_getElem?
    intro m
    simp only [List.getElem?_map, upd_get]
    split
    · cases s.slaves[m]? <;> rfl
    · rfl
  · intro p hp
    simp only [upd_length]
    rcases List.mem_append.1 hp with e | e
    · exact h.idx p e
    · simp only [List.mem_singleton] at e; subst e
      exact (List.getElem?_eq_some_iff.1 hk).1
  · intro n y hy
    simp only [upd_get] at hy
    rw [share_append]
    by_cases e : n = k
    · subst e
      rw [if_pos rfl, Option.map_eq_some_iff] at hy
      obtain ⟨z, hz, rfl⟩ := hy
      rw [if_pos rfl, h.parts n z hz]
      simp [Slave.put, dataOf_append, dataOf]
    · rw [if_neg e] at hy
      rw [if_neg (fun h => e h.symm), List.append_nil]
      exact h.parts n y hy
  · intro y hy
    rcases mem_upd hy with e | ⟨z, hz, rfl⟩
    · exact h.fits y e
    · rw [hk] at hz; obtain rfl := Option.some.inj hz
      simp only [Slave.put, Slave.room, List.length_append, List.length_singleton] at *
      omega
  · intro y hy
    rcases mem_upd hy with e | ⟨z, hz, rfl⟩
    · exact h.sizes y e
    · exact h.sizes z (List.mem_iff_getElem?.2 ⟨k, hz⟩)
  · have := h.total
    simp only [List.map_append, List.sum_append, List.map_cons, List.map_nil, List.sum_singleton]
    exact ⟨by omega, by omega⟩

theorem Inv.eofTaken {caps : List Nat} {acts : List Act} {s : St} (h : Inv caps acts s) {inp : List Item}
    (hi : s.inp = .eof :: inp) : Inv caps acts { s with inp := inp } := by
  refine ⟨?_, h.len, h.idx, h.parts, h.fits, h.sizes, h.total⟩
  obtain ⟨c, h1, h2⟩ := h.taken
  refine ⟨c ++ [.eof], by rw [h1, hi]; simp, ?_⟩
  rw [dataOf_append, h2]; simp [dataOf]

/-- The three ways through one call of the loop. -/
theorem iter_cases (s : St) :
    iter s = leave s ∨
    (∃ inp, s.inp = .eof :: inp ∧ (∀ x ∈ s.slaves, x.room > 0) ∧ iter s = leave (generate true { s with inp := inp })) ∨
    ∃ b inp k x, s.inp = .data b :: inp ∧ s.slaves[k]? = some x ∧ x.room > 0 ∧
      (∀ m y, s.slaves[m]? = some y → y.room ≤ x.room ∧ (m < k → y.room < x.room)) ∧
      iter s = { s with inp := inp, totalSize := s.totalSize + b.size, totalEvnts := s.totalEvnts + b.events,
                        slaves := upd (Slave.put (.data b)) k s.slaves, sent := s.sent ++ [(k, b)] } := by
  unfold iter
  split
  · exact Or.inl rfl
  · rename_i i inp hi
    dsimp only
    rcases hp : pick 0 0 10 0 s.slaves with ⟨k, mx, mn⟩
    dsimp only
    split
    · exact Or.inl rfl
    · rename_i hm
      cases i with
      | eof =>
        dsimp only
        split
        · exact Or.inl rfl
        · rename_i hn
          exact Or.inr (Or.inl ⟨inp, hi, ((pick_spec _ _ _ _ _ _ _ _ hp).2.1 hn).2, rfl⟩)
      | data b =>
        obtain ⟨x, h1, h2, h3⟩ := pick_main hp hm
        exact Or.inr (Or.inr ⟨b, inp, k, x, hi, h1, h2, h3, rfl⟩)

theorem Inv.step {caps : List Nat} {acts : List Act} {s s' : St} {a : Act} (h : Inv caps acts s) (hs : step s a = some s') :
    Inv caps (acts ++ [a]) s' := by
  cases a with
  | arrive i =>
    simp only [StreamRun.step, Option.ite_none_right_eq_some, Option.some.injEq] at hs
    obtain ⟨_, rfl⟩ := hs
    refine ⟨?_, h.len, h.idx, h.parts, h.fits, h.sizes, h.total⟩
    obtain ⟨c, h1, h2⟩ := h.taken
    exact ⟨c, by rw [arrived_append, h1]; simp [arrived], h2⟩
  | disconnect =>
    simp only [StreamRun.step, Option.ite_none_right_eq_some, Option.some.injEq] at hs
    obtain ⟨_, rfl⟩ := hs
    exact h.same rfl rfl rfl rfl rfl rfl
  | recv =>
    simp only [StreamRun.step, Option.ite_none_right_eq_some, Option.some.injEq] at hs
    obtain ⟨_, rfl⟩ := hs
    exact h.same rfl rfl rfl rfl rfl rfl
  | timer =>
    simp only [StreamRun.step, Option.ite_none_right_eq_some, Option.some.injEq] at hs
    obtain ⟨_, rfl⟩ := hs
    exact h.same rfl rfl rfl rfl rfl rfl
  | iter =>
    have hs : iter s = s' := by
      unfold StreamRun.step at hs
      dsimp only at hs
      split at hs
      · exact Option.some.inj hs
      · exact absurd hs (by simp)
    refine Inv.act ?_ rfl
    rw [← hs]
    rcases iter_cases s with e | ⟨inp, e1, _, e⟩ | ⟨b, inp, k, x, e1, e2, e3, _, e⟩
    · rw [e]; exact h.pc _
    · rw [e]; exact ((h.eofTaken e1).generate true).pc _
    · rw [e]; exact h.put e1 e2 e3
  | check buf =>
    simp only [StreamRun.step, Option.ite_none_right_eq_some, Option.some.injEq] at hs
    obtain ⟨_, rfl⟩ := hs
    refine Inv.act ?_ rfl
    unfold check
    dsimp only
    split
    · exact (h.generate buf).pc _
    · exact h.pc _
  | work n =>
    unfold StreamRun.step at hs
    dsimp only at hs
    split at hs
    · exact absurd hs (by simp)
    · rename_i x hx
      split at hs
      · rename_i hq
        obtain rfl := Option.some.inj hs
        refine Inv.act ?_ rfl
        have hnext : x.next.1.cap = x.cap ∧ x.next.1.done ++ dataOf x.next.1.queue = x.done ++ dataOf x.queue ∧
            x.next.1.queue.length ≤ x.queue.length ∧
            (x.totalSize = (x.done.map (·.size)).sum ∧ x.totalEvnts = (x.done.map (·.analysed)).sum →
              x.next.1.totalSize = (x.next.1.done.map (·.size)).sum ∧
              x.next.1.totalEvnts = (x.next.1.done.map (·.analysed)).sum) := by
          unfold Slave.next
          split
          · exact ⟨rfl, rfl, Nat.le_refl _, fun h => h⟩
          · rename_i q hq'
            rw [hq']
            exact ⟨rfl, rfl, by simp, fun h => h⟩
          · rename_i b q hq'
            rw [hq']
            refine ⟨rfl, by simp [dataOf], by simp, ?_⟩
            intro h
            simp only [List.map_append, List.sum_append, List.map_cons, List.map_nil, List.sum_singleton]
            omega
        constructor
        · exact h.taken
        · rw [← h.len]
          apply List.ext_getElem?
          intro m
          simp only [List.getElem?_map, upd_get]
          split
          · rename_i e; subst e; rw [hx]; simp [hnext.1]
          · rfl
        · intro p hp; simp only [upd_length]; exact h.idx p hp
        · intro m y hy
          simp only [upd_get] at hy
          split at hy
          · rename_i e; subst e
            rw [hx, Option.map_some, Option.some.injEq] at hy
            subst hy
            rw [hnext.2.1]; exact h.parts m x hx
          · exact h.parts m y hy
        · intro y hy
          rcases mem_upd hy with e | ⟨z, hz, rfl⟩
          · exact h.fits y e
          · rw [hx] at hz; obtain rfl := Option.some.inj hz
            have := h.fits x (List.mem_iff_getElem?.2 ⟨n, hx⟩)
            rw [hnext.1]; omega
        · intro y hy
          rcases mem_upd hy with e | ⟨z, hz, rfl⟩
          · exact h.sizes y e
          · rw [hx] at hz; obtain rfl := Option.some.inj hz
            exact hnext.2.2.2 (h.sizes x (List.mem_iff_getElem?.2 ⟨n, hx⟩))
        · exact h.total
      · exact absurd hs (by simp)
  | finished =>
    simp only [StreamRun.step, Option.ite_none_right_eq_some, Option.some.injEq] at hs
    obtain ⟨_, rfl⟩ := hs
    refine Inv.act ?_ rfl
    have h' : Inv caps acts { s with cmds := s.cmds - 1, stopMode := s.stopMode - 1 } :=
      ⟨h.taken, h.len, h.idx, h.parts, h.fits, h.sizes, h.total⟩
    unfold finished
    dsimp only
    split
    · have h' := h'.merge
      exact ⟨h'.taken, h'.len, h'.idx, h'.parts, h'.fits, h'.sizes, h'.total⟩
    · exact h'
  | stop =>
    simp only [StreamRun.step, Option.ite_none_right_eq_some, Option.some.injEq] at hs
    obtain ⟨_, rfl⟩ := hs
    refine Inv.act ?_ rfl
    have h' := h.merge
    exact ⟨h'.taken, h'.len, h'.idx, h'.parts, h'.fits, h'.sizes, h'.total⟩

theorem inv_run {caps : List Nat} {acts : List Act} {s : St} (h : run (init caps) acts = some s) : Inv caps acts s :=
  run_ind (inv_init caps) (fun _ _ _ _ h hs => h.step hs) h

end Verif.StreamRun
