import Verif.Queue

/-! Representation invariant of the ring queue and one lemma per operation (helper file). -/

namespace Verif.Queue
variable {α : Type}

/-- `q` is a healthy queue that stores the list `l` (oldest first). -/
structure Rep (q : Q α) (l : List α) : Prop where
  len : l.length = q.size
  le : q.size ≤ q.cap
  tl : q.tail < q.cap ∨ (q.cap = 0 ∧ q.tail = 0)
  hd : q.head = q.at q.size
  cells : ∀ k, k < l.length → q.mem (q.at k) = l[k]?

theorem Rep.head_lt {q : Q α} {l} (h : Rep q l) : q.head < q.cap ∨ (q.cap = 0 ∧ q.head = 0) := by
  have := h.hd; have := h.tl; have := h.le
  simp only [Q.at] at *
  split at * <;> omega

theorem rep_empty : Rep (Q.empty : Q α) [] := by
  constructor <;> simp [Q.empty, Q.at]

theorem rep_allocate (q : Q α) {n} (hn : 0 < n) : Rep (q.allocate n) [] := by
  constructor <;> (simp only [Q.allocate]; split <;> simp [Q.at, hn])

theorem allocate_cap (q : Q α) {n} (hn : 0 < n) : (q.allocate n).cap = n := by
  simp only [Q.allocate]; split <;> simp [hn]

theorem rep_init {n} : Rep ((Q.empty : Q α).init n) [] := by
  by_cases hn : 0 < n
  · exact rep_allocate _ hn
  · constructor <;> simp [Q.init, Q.allocate, Q.empty, Q.at, hn]

theorem init_cap {n} : ((Q.empty : Q α).init n).cap = n := by
  by_cases hn : 0 < n
  · exact allocate_cap _ hn
  · simp [Q.init, Q.allocate, Q.empty, hn]; omega

theorem expand_cap (q : Q α) (n) :
    (q.expand n).cap = max 16 (if n ≤ q.cap then q.cap * 2 else n) := by
  simp only [Q.expand]
  split <;> split <;> omega

theorem rep_expand {q : Q α} {l} (h : Rep q l) (n) : Rep (q.expand n) l := by
  have h1 := h.len; have h2 := h.le; have h3 := h.tl; have h4 := h.hd; have h5 := h.cells
  have hcap := expand_cap q n
  have hgt : (q.expand n).cap > q.cap := by
    rw [hcap]; split <;> omega
  have e1 : (q.expand n).size = q.size := rfl
  have e2 : (q.expand n).head = q.size := rfl
  have e3 : (q.expand n).tail = 0 := rfl
  have e4 : (q.expand n).mem = q.copyTo := rfl
  constructor
  · rw [e1]; exact h1
  · rw [e1]; omega
  · rw [e3]; omega
  · rw [e1, e2, Q.at, e3]; split <;> omega
  · intro k hk
    have : (q.expand n).at k = k := by rw [Q.at, e3]; split <;> omega
    rw [this, e4, ← h5 k hk]
    simp only [Q.at] at h4 ⊢
    simp only [Q.copyTo]
    have hs : q.size > 0 := by omega
    simp only [hs, if_true]
    by_cases c1 : q.tail + q.size ≥ q.cap
    · rw [if_pos c1] at h4
      rw [if_neg (by omega)]
      by_cases c2 : k < q.cap - q.tail
      · rw [if_pos c2, if_neg (by omega)]
      · rw [if_neg c2, if_pos (by omega), if_pos (by omega)]
        congr 1; omega
    · rw [if_neg c1] at h4
      rw [if_pos (by omega)]
      rw [if_pos (by omega), if_neg (by omega)]

theorem rep_push_room {q : Q α} {l} (h : Rep q l) (v : α) (hr : q.size < q.cap) :
    ∃ q1, q.wr q.head v = some q1 ∧
      Rep { q1 with head := q1.next q1.head, size := q1.size + 1 } (l ++ [v]) ∧ q1.cap = q.cap := by
  have h1 := h.len; have h2 := h.le; have h3 := h.tl; have h4 := h.hd; have h5 := h.cells
  have h6 := h.head_lt
  have hl : q.head < q.cap := by omega
  refine ⟨{ q with mem := fun j => if j = q.head then some v else q.mem j }, by simp only [Q.wr, hl, if_true], ?_, rfl⟩
  constructor
  · simp [h1]
  · exact hr
  · exact h3
  · simp only [Q.next, Q.at] at *
    split at h4 <;> split <;> split <;> omega
  · intro k hk
    simp only [Q.at] at h4 h5 ⊢
    simp only [List.length_append, List.length_singleton] at hk
    by_cases hk' : k < l.length
    · rw [List.getElem?_append_left hk', ← h5 k hk']
      rw [if_neg]
      by_cases c1 : q.tail + q.size ≥ q.cap
      · rw [if_pos c1] at h4; split <;> omega
      · rw [if_neg c1] at h4; split <;> omega
    · have : k = l.length := by omega
      subst this
      rw [List.getElem?_append_right (Nat.le_refl _), if_pos (by rw [h4, h1])]
      simp

theorem rep_push {q : Q α} {l} (h : Rep q l) (ce : Bool) (v : α) (hr : q.size < q.cap ∨ ce = true) :
    ∃ q', q.push ce v = some q' ∧ Rep q' (l ++ [v]) ∧
      q'.cap = if q.size < q.cap then q.cap else max 16 (q.cap * 2) := by
  by_cases hs : q.size < q.cap
  · obtain ⟨q1, e1, e2, e3⟩ := rep_push_room h v hs
    exact ⟨_, by simp [Q.push, Q.makePlace, hs, e1], e2, by simp [hs, e3]⟩
  · have hce : ce = true := by simpa [hs] using hr
    have hc := expand_cap q 0
    have h2 := h.le
    have hroom : q.expand.size < q.expand.cap := by
      show q.size < _
      rw [hc]; split <;> omega
    obtain ⟨q1, e1, e2, e3⟩ := rep_push_room (rep_expand h 0) v hroom
    refine ⟨_, by simp [Q.push, Q.makePlace, hs, hce, e1], e2, ?_⟩
    simp only [hs, if_false]
    show q1.cap = _
    rw [e3, hc]; simp

theorem rep_push_full {q : Q α} (v : α) (hs : ¬ q.size < q.cap) : q.push false v = some q := by
  simp [Q.push, Q.makePlace, hs]

theorem rep_tail {q : Q α} {a l} (h : Rep q (a :: l)) :
    q.rd q.tail = some a ∧ Rep { q with size := q.size - 1, tail := q.next q.tail } l := by
  have h1 := h.len; have h2 := h.le; have h3 := h.tl; have h4 := h.hd; have h5 := h.cells
  simp only [List.length_cons] at h1 h5
  have ht : q.tail < q.cap := by omega
  refine ⟨?_, ?_⟩
  · simp only [Q.rd, ht, if_true]
    have := h5 0 (by omega)
    simp only [Q.at] at this
    rw [if_neg (by omega)] at this
    simpa using this
  · constructor
    · simp; omega
    · simp; omega
    · simp only [Q.next]; split <;> omega
    · simp only [Q.next, Q.at] at *
      split at h4 <;> split <;> split <;> omega
    · intro k hk
      have := h5 (k+1) (by omega)
      rw [List.getElem?_cons_succ] at this
      rw [← this]
      simp only [Q.next, Q.at]
      congr 1
      split <;> split <;> split <;> omega

theorem rep_popOnly {q : Q α} {l} (h : Rep q l) : Rep q.popOnly l.tail := by
  cases l with
  | nil =>
    have : q.size = 0 := by simpa using h.len.symm
    simpa [Q.popOnly, this] using h
  | cons a l =>
    have : q.size > 0 := by have := h.len; simp at this; omega
    simpa [Q.popOnly, this] using (rep_tail h).2

theorem rep_pop {q : Q α} {a l} (h : Rep q (a :: l)) :
    ∃ q', q.pop = some (a, q') ∧ Rep q' l ∧ q'.cap = q.cap := by
  have : q.size ≠ 0 := by have := h.len; simp at this; omega
  exact ⟨_, by simp [Q.pop, this, (rep_tail h).1], (rep_tail h).2, rfl⟩

theorem rep_item {q : Q α} {l} (h : Rep q l) {i} (hi : i < l.length) : q.item i = l[i]? := by
  have h1 := h.len; have h2 := h.le; have h3 := h.tl; have h5 := h.cells i hi
  rw [← h5, Q.item, Q.rd, if_pos]
  simp only [Q.at]; split <;> omega

theorem rep_reset {q : Q α} {l} (h : Rep q l) : Rep q.reset [] := by
  have := h.tl
  constructor <;> simp [Q.reset, Q.at]
  omega

/-- Invariant of the shifting loop of `RemoveItem`: position `i` is to be overwritten. -/
theorem removeItemLoop_spec (fuel : Nat) : ∀ (q : Q α) (l : List α) (i : Nat), Rep q l → i < l.length →
    l.length - i ≤ fuel →
    ∃ q' tgt, q.removeItemLoop (q.at i) fuel = some (q', tgt) ∧
      Rep { q' with head := tgt, size := q'.size - 1 } (l.eraseIdx i) ∧ q'.cap = q.cap := by
  induction fuel with
  | zero => intro q l i _ hi hf; omega
  | succ fuel ih =>
    intro q l i h hi hf
    have h1 := h.len; have h2 := h.le; have h3 := h.tl; have h4 := h.hd; have h5 := h.cells
    simp only [Q.removeItemLoop]
    have hnext : q.next (q.at i) = q.at (i+1) := by
      simp only [Q.next, Q.at]; split <;> split <;> split <;> omega
    rw [hnext]
    by_cases hlast : i + 1 = l.length
    · rw [if_pos (by rw [hlast, h1, ← h4])]
      refine ⟨_, _, rfl, ?_, rfl⟩
      have hel : l.eraseIdx i = l.take i := by
        rw [List.eraseIdx_eq_take_drop_succ, hlast]; simp
      constructor
      · simp [hel]; omega
      · simp; omega
      · exact h3
      · show q.at i = _
        simp only [Q.at]; have : i = q.size - 1 := by omega
        rw [this]
      · intro k hk
        rw [hel] at hk ⊢
        have hk' : k < i := by simp at hk; omega
        rw [List.getElem?_take, if_pos hk', ← h5 k (by omega)]
        rfl
    · have hne : q.at (i+1) ≠ q.head := by
        rw [h4]; simp only [Q.at]; split <;> split <;> omega
      rw [if_neg hne]
      have hlt : i + 1 < l.length := by omega
      have hrd : q.rd (q.at (i+1)) = some l[i+1] := by
        rw [Q.rd, if_pos, h5 _ hlt, List.getElem?_eq_getElem hlt]
        simp only [Q.at]; split <;> omega
      have hwlt : q.at i < q.cap := by simp only [Q.at]; split <;> omega
      let q2 : Q α := { q with mem := fun j => if j = q.at i then some l[i+1] else q.mem j }
      have hwr : q.wr (q.at i) l[i+1] = some q2 := by simp only [Q.wr, hwlt, if_true, q2]
      have hrep2 : Rep q2 (l.set i l[i+1]) := by
        constructor
        · simpa using h1
        · exact h2
        · exact h3
        · exact h4
        · intro k hk
          simp only [List.length_set] at hk
          show (if q.at k = q.at i then some l[i+1] else q.mem (q.at k)) = _
          by_cases hki : k = i
          · subst hki
            rw [if_pos rfl, List.getElem?_set_self hi]
          · rw [if_neg, List.getElem?_set_ne (Ne.symm hki), h5 k hk]
            simp only [Q.at]; split <;> split <;> omega
      have hat : q.at (i+1) = q2.at (i+1) := rfl
      rw [hrd]
      simp only [hwr, Option.bind_eq_bind, Option.bind_some, hat]
      obtain ⟨q', tgt, e1, e2, e3⟩ := ih q2 (l.set i l[i+1]) (i+1) hrep2 (by simpa using hlt) (by simp; omega)
      refine ⟨q', tgt, e1, ?_, e3⟩
      have : (l.set i l[i+1]).eraseIdx (i+1) = l.eraseIdx i := by
        apply List.ext_getElem?
        intro k
        rw [List.getElem?_eraseIdx, List.getElem?_eraseIdx]
        by_cases hk : k < i
        · rw [if_pos (by omega), if_pos hk, List.getElem?_set_ne (by omega)]
        · by_cases hk2 : k = i
          · subst hk2
            rw [if_pos (by omega), if_neg hk, List.getElem?_set_self hi, List.getElem?_eq_getElem hlt]
          · rw [if_neg (by omega), if_neg hk, List.getElem?_set_ne (by omega)]
      rwa [this] at e2

theorem rep_removeItem {q : Q α} {l} (h : Rep q l) {i} (hi : i < l.length) :
    ∃ q', q.removeItem i = some (true, q') ∧ Rep q' (l.eraseIdx i) ∧ q'.cap = q.cap := by
  have h1 := h.len; have h2 := h.le
  obtain ⟨q', tgt, e1, e2, e3⟩ := removeItemLoop_spec q.cap q l i h hi (by omega)
  refine ⟨_, ?_, e2, e3⟩
  have : ¬ i ≥ q.size := by omega
  simp [Q.removeItem, this, e1]

theorem removeItem_out {q : Q α} {l} (h : Rep q l) {i} (hi : ¬ i < l.length) :
    q.removeItem i = some (false, q) := by
  have : i ≥ q.size := by have := h.len; omega
  simp [Q.removeItem, this]

/-- Invariant of the compacting loop of `Remove`.  `pre` are the first kept elements, `mid` the gap,
`x :: rest` the elements not yet looked at. -/
theorem removeLoop_spec [DecidableEq α] (value : α) (rest : List α) : ∀ (fuel : Nat) (q : Q α) (size0 : Nat)
    (pre mid : List α) (x : α),
    rest.length < fuel → Rep { q with size := size0 } (pre ++ mid ++ x :: rest) → q.size + mid.length = size0 →
    ∃ q' tgt, q.removeLoop value (q.at pre.length) (q.at (pre.length + mid.length)) fuel
        = some (q', tgt, q.head) ∧
      tgt = q.at (pre.length + ((x :: rest).filter (· ≠ value)).length) ∧
      Rep { q' with head := tgt } (pre ++ (x :: rest).filter (· ≠ value)) ∧ q'.cap = q.cap := by
  induction rest with
  | nil =>
    intro fuel q size0 pre mid x hf h hs
    obtain ⟨fuel, rfl⟩ : ∃ f, fuel = f + 1 := ⟨fuel - 1, by simp at hf; omega⟩
    have h1 := h.len; have h2 := h.le; have h3 := h.tl; have h4 := h.hd; have h5 := h.cells
    simp only [List.length_append, List.length_cons, List.length_nil] at h1 h2 h3 h4 h5
    have hrd : q.rd (q.at (pre.length + mid.length)) = some x := by
      have := h5 (pre.length + mid.length) (by omega)
      rw [Q.rd, if_pos]
      · exact this.trans (by simp [List.getElem?_append_right])
      · simp only [Q.at]; split <;> omega
    have hn : q.next (q.at (pre.length + mid.length)) = q.head := by
      simp only [Q.at] at h4
      simp only [Q.next, Q.at]; split <;> split <;> split at h4 <;> omega
    by_cases hx : x = value
    · refine ⟨{ q with size := q.size - 1 }, q.at pre.length, ?_, ?_, ?_, rfl⟩
      · subst hx
        have hn' : Q.next { q with size := q.size - 1 } (q.at (pre.length + mid.length)) = q.head := hn
        simp [Q.removeLoop, hrd, hn']
      · simp [hx]
      · simp only [hx, ne_eq, not_true_eq_false, decide_false, Bool.false_eq_true, not_false_eq_true, List.filter_cons_of_neg, List.filter_nil, List.append_nil]
        constructor
        · simp; omega
        · simp; omega
        · simpa using h3
        · simp only [Q.at]; have : q.size - 1 = pre.length := by omega
          rw [this]
        · intro k hk
          have := h5 k (by omega)
          refine Eq.trans this ?_
          rw [List.append_assoc, List.getElem?_append_left hk]
    · simp only [Q.removeLoop, hrd, Option.bind_eq_bind, Option.bind_some, ne_eq, hx, not_false_eq_true, if_true]
      have hlt : q.at pre.length < q.cap := by simp only [Q.at]; split <;> omega
      have htn : q.next (q.at pre.length) = q.at (pre.length + 1) := by
        simp only [Q.next, Q.at]; split <;> split <;> split <;> omega
      by_cases hm : mid.length = 0
      · have hmid : mid = [] := List.length_eq_zero_iff.mp hm
        subst hmid
        simp only [List.length_nil, Nat.add_zero] at hn ⊢
        simp only [not_true_eq_false, if_false, Option.bind_some, hn, if_true]
        refine ⟨_, _, rfl, ?_, ?_, rfl⟩
        · rw [← hn, htn]; simp [hx]
        · have : q.size = size0 := by simpa using hs
          subst this
          simpa [hx] using h
      · have hne : ¬ q.at pre.length = q.at (pre.length + mid.length) := by
          simp only [Q.at]; split <;> split <;> omega
        simp only [hne, not_false_eq_true, if_true, Q.wr, hlt, Option.bind_some]
        have hn' : Q.next { q with mem := fun j => if j = q.at pre.length then some x else q.mem j } (q.at (pre.length + mid.length)) = q.head := hn
        simp only [hn', if_true]
        refine ⟨_, _, rfl, ?_, ?_, rfl⟩
        · simp only [List.filter_cons, List.filter_nil, decide_true, hx, ne_eq, not_false_eq_true, if_true, List.length_cons, List.length_nil]
          exact htn
        · simp only [List.filter_cons, List.filter_nil, decide_true, hx, ne_eq, not_false_eq_true, if_true]
          constructor
          · simp; omega
          · simp; omega
          · simpa using h3
          · show q.next (q.at pre.length) = _
            rw [htn]; simp only [Q.at]
            have : q.size = pre.length + 1 := by omega
            rw [this]
          · intro k hk
            show (if q.at k = q.at pre.length then some x else q.mem (q.at k)) = _
            simp only [List.length_append, List.length_cons, List.length_nil] at hk
            by_cases hk' : k = pre.length
            · subst hk'; simp
            · rw [if_neg, List.getElem?_append_left (by omega)]
              · have := h5 k (by omega)
                refine Eq.trans this ?_
                rw [List.append_assoc, List.getElem?_append_left (by omega)]
              · simp only [Q.at]; split <;> split <;> omega
  | cons y rest ih =>
    intro fuel q size0 pre mid x hf h hs
    obtain ⟨fuel, rfl⟩ : ∃ f, fuel = f + 1 := ⟨fuel - 1, by simp at hf; omega⟩
    have h1 := h.len; have h2 := h.le; have h3 := h.tl; have h4 := h.hd; have h5 := h.cells
    simp only [List.length_append, List.length_cons] at h1 h2 h3 h4 h5 hf
    have hrd : q.rd (q.at (pre.length + mid.length)) = some x := by
      have := h5 (pre.length + mid.length) (by omega)
      rw [Q.rd, if_pos]
      · exact this.trans (by simp [List.getElem?_append_right])
      · simp only [Q.at]; split <;> omega
    have hn : q.next (q.at (pre.length + mid.length)) = q.at (pre.length + mid.length + 1) := by
      simp only [Q.next, Q.at]; split <;> split <;> split <;> omega
    have hnh : ¬ q.at (pre.length + mid.length + 1) = q.head := by
      simp only [Q.at] at h4
      rw [h4]
      simp only [Q.at]; split <;> split <;> omega
    by_cases hx : x = value
    · let q2 : Q α := { q with size := q.size - 1 }
      have hih := ih fuel q2 size0 pre (mid ++ [x]) y (by omega) (by simpa [q2] using h) (by simp [q2]; omega)
      obtain ⟨q', tgt, e1, e2, e3, e4⟩ := hih
      refine ⟨q', tgt, ?_, ?_, ?_, e4⟩
      · rw [← show q2.head = q.head from rfl, ← e1]
        subst hx
        have hn2 : Q.next q2 (q.at (pre.length + mid.length)) = q.at (pre.length + mid.length + 1) := hn
        simp only [Q.removeLoop]
        simp only [hrd, Option.bind_eq_bind, Option.bind_some, ne_eq, not_true_eq_false, if_false]
        show (if q2.next (q.at (pre.length + mid.length)) = q.head then _ else _) = _
        rw [hn2, if_neg hnh]
        simp [q2, Q.at, Nat.add_assoc]
      · rw [e2]; simp [q2, Q.at, hx]
      · simpa [hx] using e3
    · have hlt : q.at pre.length < q.cap := by simp only [Q.at]; split <;> omega
      have htn : q.next (q.at pre.length) = q.at (pre.length + 1) := by
        simp only [Q.next, Q.at]; split <;> split <;> split <;> omega
      have hfilt : (x :: y :: rest).filter (fun z => decide (z ≠ value)) = x :: (y :: rest).filter (fun z => decide (z ≠ value)) := by
        rw [List.filter_cons, if_pos (by simp [hx])]
      by_cases hm : mid.length = 0
      · have hmid : mid = [] := List.length_eq_zero_iff.mp hm
        subst hmid
        obtain ⟨q', tgt, e1, e2, e3, e4⟩ := ih fuel q size0 (pre ++ [x]) [] y (by omega) (by simpa using h) hs
        refine ⟨q', tgt, ?_, ?_, ?_, e4⟩
        · rw [← e1]
          simp only [List.length_nil, Nat.add_zero] at hn hnh hrd
          simp only [Q.removeLoop]
          simp [hrd, hx, hn, hnh]
        · rw [e2, hfilt]; simp only [List.length_append, List.length_cons, List.length_nil]; congr 1; omega
        · rw [hfilt]; simpa using e3
      · obtain ⟨m, mid, rfl⟩ : ∃ m mid', mid = m :: mid' := by
          cases mid with
          | nil => simp at hm
          | cons m mid => exact ⟨m, mid, rfl⟩
        have hne : ¬ q.at pre.length = q.at (pre.length + (m :: mid).length) := by
          simp only [Q.at, List.length_cons] at *; split <;> split <;> omega
        let q2 : Q α := { q with mem := fun j => if j = q.at pre.length then some x else q.mem j }
        have hwr : q.wr (q.at pre.length) x = some q2 := by simp only [Q.wr, hlt, if_true, q2]
        have hrep : Rep { q2 with size := size0 } ((pre ++ [x]) ++ (mid ++ [x]) ++ y :: rest) := by
          constructor
          · simp at *; omega
          · simpa [q2] using h2
          · simpa [q2] using h3
          · simpa [q2, Q.at] using h4
          · intro k hk
            show (if q.at k = q.at pre.length then some x else q.mem (q.at k)) = _
            simp only [List.length_append, List.length_cons, List.length_nil] at hk h1 h2
            by_cases hk' : k = pre.length
            · subst hk'; simp
            · rw [if_neg]
              · have h5' := h5 k (by simp only [List.length_cons]; omega)
                refine Eq.trans h5' ?_
                simp only [List.append_assoc, List.cons_append, List.nil_append]
                by_cases hlt : k < pre.length
                · rw [List.getElem?_append_left hlt, List.getElem?_append_left hlt]
                · rw [List.getElem?_append_right (by omega), List.getElem?_append_right (by omega)]
                  obtain ⟨j, hj⟩ : ∃ j, k - pre.length = j + 1 := ⟨k - pre.length - 1, by omega⟩
                  rw [hj]; simp
              · simp only [Q.at]; split <;> split <;> omega
        obtain ⟨q', tgt, e1, e2, e3, e4⟩ := ih fuel q2 size0 (pre ++ [x]) (mid ++ [x]) y (by omega) hrep (by simp [q2] at *; omega)
        refine ⟨q', tgt, ?_, ?_, ?_, e4⟩
        · rw [← show q2.head = q.head from rfl, ← e1]
          simp only [Q.removeLoop]
          have hn2 : q2.next (q.at (pre.length + (m::mid).length)) = q.at (pre.length + (m::mid).length + 1) := hn
          have htn2 : q2.next (q.at pre.length) = q.at (pre.length + 1) := htn
          have hqh : q2.head = q.head := rfl
          simp only [hrd, Option.bind_eq_bind, Option.bind_some, ne_eq, hx, not_false_eq_true, if_true, hne, hwr, hn2, htn2, hqh, hnh, if_false]
          congr 1
          · simp [q2, Q.at]
          · simp only [q2, Q.at, List.length_append, List.length_cons, List.length_nil]
            split <;> split <;> omega
        · rw [e2, hfilt]; simp only [q2, Q.at, List.length_append, List.length_cons, List.length_nil]
          split <;> split <;> omega
        · rw [hfilt]; simpa using e3

theorem rep_remove [DecidableEq α] {q : Q α} {l} (h : Rep q l) (value : α) :
    ∃ b q', q.remove value = some (b, q') ∧ Rep q' (l.filter (· ≠ value)) ∧ q'.cap = q.cap ∧
      (b = true ↔ q.at (l.filter (· ≠ value)).length ≠ q.head ∧ l ≠ []) := by
  have h1 := h.len; have h2 := h.le; have h3 := h.tl
  cases l with
  | nil =>
    have : q.size = 0 := by simpa using h1.symm
    exact ⟨false, q, by simp [Q.remove, this], by simpa using h, rfl, by simp⟩
  | cons a l =>
    simp only [List.length_cons] at h1
    have hs : q.size ≠ 0 := by omega
    obtain ⟨q', tgt, e1, e2, e3, e4⟩ := removeLoop_spec value l q.cap q q.size [] [] a (by omega) (by simpa using h) (by simp)
    have ht : q.at 0 = q.tail := by simp only [Q.at]; split <;> omega
    simp only [List.length_nil, Nat.add_zero, ht] at e1
    refine ⟨decide (tgt ≠ q.head), { q' with head := tgt }, by simp [Q.remove, hs, e1], by simpa using e3, e4, ?_⟩
    rw [e2]; simp

end Verif.Queue
