import Verif.Spec.Sorter

/-! # C55: the sorter neither loses nor doubles subevents -/

namespace Verif.Sorter

open Verif.Bytes Verif.Trig

/-- Invariant of the indices. -/
structure Inv (st : State) : Prop where
  le : st.ready ≤ st.next
  nq : st.next ≤ st.queue.length
  recs : ∀ r ∈ st.subs, st.ready ≤ r.buf ∧ r.buf < st.next ∧ ∃ l, st.queue[r.buf]? = some (.data l) ∧ r.sub ∈ l
  out : ∀ size l, st.out = some (size, l) → filled l ≤ size

/-- Number of copies of a subevent in buffers. -/
def cnt (a : Sub) (q : List Inp) : Nat := (q.flatMap Inp.subs).count a

theorem cnt_append (a : Sub) (p q : List Inp) : cnt a (p ++ q) = cnt a p + cnt a q := by
  unfold cnt
  rw [List.flatMap_append, List.count_append]

theorem cnt_cons (a : Sub) (b : Inp) (q : List Inp) : cnt a (b :: q) = b.subs.count a + cnt a q := by
  unfold cnt
  rw [List.flatMap_cons, List.count_append]

theorem held_count (a : Sub) (st : State) : st.held.count a = cnt a (st.queue.drop st.next) + cnt a (st.queue.take st.ready) + (st.subs.map Rec.sub).count a := by
  unfold State.held cnt
  rw [List.count_append, List.count_append]

/-- The rest of the state is not touched by the first loop. -/
structure Same (s t : State) : Prop where
  queue : t.queue = s.queue
  sent : t.sent = s.sent
  out : t.out = s.out
  old : t.old = s.old

theorem scan_spec (range : Word) : ∀ (q : List Inp) (st : State) (nd : Bool), Inv st → q = st.queue.drop st.next →
    Inv (scan range q st nd).st ∧ Same st (scan range q st nd).st ∧ (∀ a, (scan range q st nd).st.held.count a = st.held.count a) ∧
    ((scan range q st nd).eof = true → (scan range q st nd).st.next = 0 ∧ ∃ q', st.queue = .eof :: q') := by
  intro q
  induction q with
  | nil =>
    intro st nd h _
    refine ⟨h, ⟨rfl, rfl, rfl, rfl⟩, fun _ => rfl, fun he => ?_⟩
    cases he
  | cons b q ih =>
    intro st nd h hq
    have hlt : st.next < st.queue.length := by
      have := congrArg List.length hq
      rw [List.length_cons, List.length_drop] at this
      omega
    have hq2 : q = st.queue.drop (st.next + 1) := by
      have := congrArg List.tail hq
      rw [List.tail_drop] at this
      exact this
    have hb : st.queue[st.next]? = some b := by
      have := congrArg List.head? hq
      rw [List.head?_drop] at this
      exact this.symm
    cases b with
    | eof =>
      unfold scan
      by_cases h0 : st.next = 0
      · rw [if_pos h0]
        refine ⟨h, ⟨rfl, rfl, rfl, rfl⟩, fun _ => rfl, fun _ => ⟨h0, q, ?_⟩⟩
        rw [h0, List.drop_zero] at hq
        exact hq.symm
      · rw [if_neg h0]
        refine ⟨h, ⟨rfl, rfl, rfl, rfl⟩, fun _ => rfl, fun he => ?_⟩
        cases he
    | data l =>
      have inv2 : Inv { st with subs := st.subs ++ l.map (fun s => (⟨s, st.next⟩ : Rec)), next := st.next + 1 } := by
        have hle := h.le
        refine ⟨by show st.ready ≤ st.next + 1; omega, hlt, ?_, h.out⟩
        intro r hr
        show st.ready ≤ r.buf ∧ r.buf < st.next + 1 ∧ ∃ l, st.queue[r.buf]? = some (.data l) ∧ r.sub ∈ l
        rcases List.mem_append.mp hr with hr | hr
        · obtain ⟨r1, r2, r3⟩ := h.recs r hr
          exact ⟨r1, by omega, r3⟩
        · obtain ⟨s, hs, rfl⟩ := List.mem_map.mp hr
          exact ⟨hle, Nat.lt_succ_self _, l, hb, hs⟩
      have held2 : ∀ a, (State.held { st with subs := st.subs ++ l.map (fun s => (⟨s, st.next⟩ : Rec)), next := st.next + 1 }).count a = st.held.count a := by
        intro a
        rw [held_count, held_count, ← hq]
        show cnt a (st.queue.drop (st.next + 1)) + cnt a (st.queue.take st.ready) + ((st.subs ++ l.map (fun s => (⟨s, st.next⟩ : Rec))).map Rec.sub).count a = _
        rw [← hq2, cnt_cons, List.map_append, List.count_append, List.map_map]
        rw [show (Rec.sub ∘ fun s => (⟨s, st.next⟩ : Rec)) = id from rfl, List.map_id]
        show _ = l.count a + _ + _ + _
        omega
      have step2 : ∀ nd', Inv (scan range q { st with subs := st.subs ++ l.map (fun s => (⟨s, st.next⟩ : Rec)), next := st.next + 1 } nd').st ∧
          Same st (scan range q { st with subs := st.subs ++ l.map (fun s => (⟨s, st.next⟩ : Rec)), next := st.next + 1 } nd').st ∧
          (∀ a, (scan range q { st with subs := st.subs ++ l.map (fun s => (⟨s, st.next⟩ : Rec)), next := st.next + 1 } nd').st.held.count a = st.held.count a) ∧
          ((scan range q { st with subs := st.subs ++ l.map (fun s => (⟨s, st.next⟩ : Rec)), next := st.next + 1 } nd').eof = true →
            (scan range q { st with subs := st.subs ++ l.map (fun s => (⟨s, st.next⟩ : Rec)), next := st.next + 1 } nd').st.next = 0 ∧ ∃ q', st.queue = .eof :: q') := by
        intro nd'
        obtain ⟨k1, k2, k3, k4⟩ := ih { st with subs := st.subs ++ l.map (fun s => (⟨s, st.next⟩ : Rec)), next := st.next + 1 } nd' inv2 hq2
        exact ⟨k1, ⟨k2.queue, k2.sent, k2.out, k2.old⟩, fun a => (k3 a).trans (held2 a), k4⟩
      unfold scan
      dsimp only
      by_cases hc : st.ready = st.next ∧ st.subs = []
      · rw [if_pos hc]
        cases hch : chain range st.last (st.subs ++ l.map fun s => (⟨s, st.next⟩ : Rec)) with
        | none => exact step2 _
        | some prev =>
          dsimp only
          have inv3 : Inv { st with last := prev, ready := st.ready + 1, subs := [], next := st.next + 1 } := by
            refine ⟨by show st.ready + 1 ≤ st.next + 1; omega, hlt, ?_, h.out⟩
            intro r hr
            cases hr
          obtain ⟨k1, k2, k3, k4⟩ := ih { st with last := prev, ready := st.ready + 1, subs := [], next := st.next + 1 } false inv3 hq2
          refine ⟨k1, ⟨k2.queue, k2.sent, k2.out, k2.old⟩, fun a => (k3 a).trans ?_, k4⟩
          rw [held_count, held_count, ← hq]
          show cnt a (st.queue.drop (st.next + 1)) + cnt a (st.queue.take (st.ready + 1)) + 0 = _
          rw [← hq2, cnt_cons, hc.2, List.take_add_one, hc.1, hb, cnt_append]
          show _ + (_ + cnt a [.data l]) + 0 = l.count a + _ + _ + 0
          rw [cnt_cons]
          show _ + (_ + (l.count a + 0)) + 0 = _
          omega
      · rw [if_neg hc]
        exact step2 _

/-- Removing buffers from the begin of the queue. -/
def cut (st : State) (k : Nat) : State := skip (decrement st k) k

theorem cut_eq {st : State} {k : Nat} (hr : ∀ r ∈ st.subs, k ≤ r.buf) :
    cut st k = { st with queue := st.queue.drop k, next := st.next - k, ready := st.ready - k, subs := st.subs.map fun r => { r with buf := r.buf - k } } := by
  unfold cut skip decrement
  have h1 : (if st.next > k then st.next - k else 0) = st.next - k := by split <;> omega
  have h2 : (if st.ready > k then st.ready - k else 0) = st.ready - k := by split <;> omega
  have h3 : (st.subs.filterMap fun r => if r.buf < k then none else some { r with buf := r.buf - k }) = st.subs.map fun r => { r with buf := r.buf - k } := by
    generalize st.subs = l at hr
    induction l with
    | nil => rfl
    | cons r l ih =>
      rw [List.filterMap_cons_some (b := { r with buf := r.buf - k }) (by rw [if_neg (by have := hr r (List.mem_cons_self ..); omega)]), ih fun x hx => hr x (List.mem_cons_of_mem _ hx)]
      rfl
  dsimp only
  rw [h1, h2, h3]

theorem cut_spec {st : State} (h : Inv st) {k : Nat} (hk : k ≤ st.next) (hr : ∀ r ∈ st.subs, k ≤ r.buf) :
    Inv (cut st k) ∧ (cut st k).sent = st.sent ∧ (cut st k).out = st.out ∧ (cut st k).old = st.old ∧
    ∀ a, st.held.count a = (cut st k).held.count a + cnt a (st.queue.take (min k st.ready)) := by
  rw [cut_eq hr]
  have hle := h.le
  have hnq := h.nq
  refine ⟨⟨?_, ?_, ?_, h.out⟩, rfl, rfl, rfl, fun a => ?_⟩
  · show st.ready - k ≤ st.next - k
    omega
  · show st.next - k ≤ (st.queue.drop k).length
    rw [List.length_drop]
    omega
  · intro r hrm
    obtain ⟨r0, h0, rfl⟩ := List.mem_map.mp hrm
    obtain ⟨r1, r2, l, r3, r4⟩ := h.recs r0 h0
    have := hr r0 h0
    show st.ready - k ≤ r0.buf - k ∧ r0.buf - k < st.next - k ∧ ∃ l, (st.queue.drop k)[r0.buf - k]? = some (.data l) ∧ r0.sub ∈ l
    refine ⟨by omega, by omega, l, ?_, r4⟩
    rw [List.getElem?_drop, show k + (r0.buf - k) = r0.buf by omega, r3]
  · rw [held_count, held_count]
    show _ = cnt a ((st.queue.drop k).drop (st.next - k)) + cnt a ((st.queue.drop k).take (st.ready - k)) + ((st.subs.map fun r => ({ r with buf := r.buf - k } : Rec)).map Rec.sub).count a + _
    rw [List.drop_drop, show k + (st.next - k) = st.next by omega, List.map_map]
    have e : (Rec.sub ∘ fun r => ({ r with buf := r.buf - k } : Rec)) = Rec.sub := rfl
    rw [e]
    have ht : cnt a (st.queue.take st.ready) = cnt a (st.queue.take (min k st.ready)) + cnt a ((st.queue.drop k).take (st.ready - k)) := by
      rw [← cnt_append]
      congr 1
      rw [← List.drop_take]
      have := List.take_append_drop k (st.queue.take st.ready)
      rw [List.take_take] at this
      exact this.symm
    omega

theorem maxBuf_mem : ∀ (l : List Rec) (m : Nat), l.foldl (fun m r => if r.buf > m then r.buf else m) m = m ∨ ∃ r ∈ l, l.foldl (fun m r => if r.buf > m then r.buf else m) m = r.buf := by
  intro l
  induction l with
  | nil => intro m; exact Or.inl rfl
  | cons r l ih =>
    intro m
    rw [List.foldl_cons]
    by_cases h : r.buf > m
    · rw [if_pos h]
      rcases ih r.buf with e | ⟨x, hx, e⟩
      · exact Or.inr ⟨r, List.mem_cons_self .., e⟩
      · exact Or.inr ⟨x, List.mem_cons_of_mem _ hx, e⟩
    · rw [if_neg h]
      rcases ih m with e | ⟨x, hx, e⟩
      · exact Or.inl e
      · exact Or.inr ⟨x, List.mem_cons_of_mem _ hx, e⟩

theorem minBuf_le : ∀ (l : List Rec) (m : Nat), l.foldl (fun m r => if r.buf < m then r.buf else m) m ≤ m ∧ ∀ r ∈ l, l.foldl (fun m r => if r.buf < m then r.buf else m) m ≤ r.buf := by
  intro l
  induction l with
  | nil => intro m; exact ⟨Nat.le_refl _, by simp⟩
  | cons r l ih =>
    intro m
    rw [List.foldl_cons]
    obtain ⟨h1, h2⟩ := ih (if r.buf < m then r.buf else m)
    refine ⟨?_, ?_⟩
    · split at h1 <;> rename_i hc <;> simp only [hc, if_true, if_false] <;> omega
    · intro x hx
      rcases List.mem_cons.mp hx with rfl | hx
      · split at h1 <;> rename_i hc <;> simp only [hc, if_true, if_false] <;> omega
      · exact h2 x hx

/-- Forgetting the records that were used. -/
theorem removeUsed_spec {st : State} (h : Inv st) (h0 : st.ready = 0) {num : Nat} (hnum : num ≤ st.subs.length) :
    Inv (removeUsed st num).1 ∧ (removeUsed st num).1.sent = st.sent ∧ (removeUsed st num).1.out = st.out ∧ (removeUsed st num).1.old = st.old ∧
    ∀ a, st.held.count a = (removeUsed st num).1.held.count a + ((st.subs.take num).map Rec.sub).count a := by
  unfold removeUsed
  by_cases hz : num = 0
  · rw [if_pos hz, hz]
    exact ⟨h, rfl, rfl, rfl, fun a => rfl⟩
  · rw [if_neg hz]
    have htake : ∀ a (s : State) (l : List Rec), s = { st with subs := l } → (st.subs.map Rec.sub).count a = ((st.subs.take num).map Rec.sub).count a + (l.map Rec.sub).count a →
        st.held.count a = s.held.count a + ((st.subs.take num).map Rec.sub).count a := by
      intro a s l hs hc
      subst hs
      rw [held_count, held_count]
      show _ = cnt a (st.queue.drop st.next) + cnt a (st.queue.take st.ready) + (l.map Rec.sub).count a + _
      omega
    by_cases hge : num ≥ st.subs.length
    · rw [if_pos hge]
      dsimp only
      have hm : maxBuf st.subs < st.next := by
        have hne : st.subs ≠ [] := by
          intro hn
          rw [hn] at hge hnum
          have : ([] : List Rec).length = 0 := rfl
          omega
        have hpos : 0 < st.next := by
          cases hs : st.subs with
          | nil => exact absurd hs hne
          | cons r l =>
            have := (h.recs r (by rw [hs]; exact List.mem_cons_self ..)).2.1
            omega
        rcases maxBuf_mem st.subs 0 with e | ⟨r, hr, e⟩
        · unfold maxBuf
          rw [e]
          exact hpos
        · unfold maxBuf
          rw [e]
          exact (h.recs r hr).2.1
      have hi : Inv { st with subs := [] } := ⟨h.le, h.nq, (by intro r hr; cases hr), h.out⟩
      obtain ⟨k1, k2, k3, k4, k5⟩ := cut_spec hi (k := maxBuf st.subs + 1) hm (by intro r hr; cases hr)
      refine ⟨k1, k2, k3, k4, fun a => ?_⟩
      rw [htake a _ [] rfl (by rw [List.take_of_length_le hge]; rfl)]
      have := k5 a
      have e0 : cnt a (List.take (min (maxBuf st.subs + 1) st.ready) st.queue) = 0 := by
        rw [h0, Nat.min_zero]
        rfl
      show (State.held { st with subs := [] }).count a + _ = _
      rw [this]
      show (cut { st with subs := [] } (maxBuf st.subs + 1)).held.count a + cnt a (List.take (min (maxBuf st.subs + 1) st.ready) st.queue) + _ = _
      rw [e0]
      rfl
    · rw [if_neg hge]
      dsimp only
      have hi : Inv { st with subs := st.subs.drop num } := ⟨h.le, h.nq, fun r hr => h.recs r (List.mem_of_mem_drop hr), h.out⟩
      have hc : ∀ a, (st.subs.map Rec.sub).count a = ((st.subs.take num).map Rec.sub).count a + ((st.subs.drop num).map Rec.sub).count a := by
        intro a
        rw [← List.count_append, ← List.map_append, List.take_append_drop]
      by_cases hm : minBuf (st.subs.drop num) > 0
      · rw [if_pos hm]
        have hle : ∀ r ∈ st.subs.drop num, minBuf (st.subs.drop num) ≤ r.buf := (minBuf_le _ _).2
        have hnext : minBuf (st.subs.drop num) ≤ st.next := by
          cases hs : st.subs.drop num with
          | nil =>
            have := congrArg List.length hs
            rw [List.length_drop, List.length_nil] at this
            omega
          | cons r l =>
            have h1 := hle r (by rw [hs]; exact List.mem_cons_self ..)
            have h2 := (h.recs r (List.mem_of_mem_drop (by rw [hs]; exact List.mem_cons_self ..))).2.1
            rw [hs] at h1
            omega
        obtain ⟨k1, k2, k3, k4, k5⟩ := cut_spec hi (k := minBuf (st.subs.drop num)) hnext hle
        refine ⟨k1, k2, k3, k4, fun a => ?_⟩
        rw [htake a _ _ rfl (hc a), k5 a]
        show (cut { st with subs := st.subs.drop num } (minBuf (st.subs.drop num))).held.count a + cnt a (List.take (min (minBuf (st.subs.drop num)) st.ready) st.queue) + _ = _
        have e0 : cnt a (List.take (min (minBuf (st.subs.drop num)) st.ready) st.queue) = 0 := by
          rw [h0, Nat.min_zero]
          rfl
        rw [e0]
        rfl
      · rw [if_neg hm]
        exact ⟨hi, rfl, rfl, rfl, fun a => htake a _ _ rfl (hc a)⟩

/-- Second loop: the records used are written or too old, and what is written fits. -/
theorem fill_spec (range : Word) (next : Nat) (hold : Bool) : ∀ (l : List Rec) (last : Word) (free : Nat),
    (fill range next hold l last free).cnt ≤ l.length ∧ filled (fill range next hold l last free).written ≤ free ∧
    ∀ a, ((l.take (fill range next hold l last free).cnt).map Rec.sub).count a = (fill range next hold l last free).written.count a + (fill range next hold l last free).old.count a := by
  intro l
  induction l with
  | nil => intro last free; exact ⟨Nat.le_refl _, Nat.zero_le _, fun a => rfl⟩
  | cons r l ih =>
    intro last free
    have stop : ∀ b, ((⟨0, last, [], [], b⟩ : Filled).cnt ≤ (r :: l).length ∧ filled (⟨0, last, [], [], b⟩ : Filled).written ≤ free ∧
        ∀ a, (((r :: l).take (⟨0, last, [], [], b⟩ : Filled).cnt).map Rec.sub).count a = (⟨0, last, [], [], b⟩ : Filled).written.count a + (⟨0, last, [], [], b⟩ : Filled).old.count a) :=
      fun b => ⟨Nat.zero_le _, Nat.zero_le _, fun a => rfl⟩
    unfold fill
    dsimp only
    by_cases h1 : (if last ≠ 0xffffffff then diff range last r.sub.trig else 1) < 0
    · rw [if_pos h1]
      obtain ⟨k1, k2, k3⟩ := ih last free
      refine ⟨Nat.succ_le_succ k1, k2, fun a => ?_⟩
      show ((r.sub :: (l.take _).map Rec.sub).count a) = _ + ((r.sub :: _).count a)
      rw [List.count_cons, List.count_cons, k3 a]
      dsimp only
      omega
    · rw [if_neg h1]
      by_cases h2 : (if last ≠ 0xffffffff then diff range last r.sub.trig else 1) ≠ 1 ∧ r.buf + 2 > next ∧ hold = true
      · rw [if_pos h2]
        exact stop _
      · rw [if_neg h2]
        by_cases h3 : free < r.sub.size
        · rw [if_pos h3]
          exact stop _
        · rw [if_neg h3]
          obtain ⟨k1, k2, k3⟩ := ih r.sub.trig (free - r.sub.size)
          refine ⟨Nat.succ_le_succ k1, ?_, fun a => ?_⟩
          · show filled (r.sub :: _) ≤ free
            unfold filled at k2 ⊢
            rw [List.map_cons, List.sum_cons]
            omega
          · show ((r.sub :: (l.take _).map Rec.sub).count a) = ((r.sub :: _).count a) + _
            rw [List.count_cons, List.count_cons, k3 a]
            dsimp only
            omega

/-- All copies of a subevent in the module and behind it. -/
def total (a : Sub) (st : State) : Nat := st.sentSubs.count a + st.outSubs.count a + st.old.count a + st.held.count a

theorem filled_append (x y : List Sub) : filled (x ++ y) = filled x + filled y := by
  unfold filled
  rw [List.map_append, List.sum_append]

theorem sentSubs_append (st : State) (l : List Inp) : State.sentSubs { st with sent := st.sent ++ l } = st.sentSubs ++ l.flatMap Inp.subs := by
  unfold State.sentSubs
  rw [List.flatMap_append]

theorem fillOut_spec (range : Word) (env : Env) (flush : Bool) {st : State} (h : Inv st) (h0 : st.ready = 0) {size : Nat} {content : List Sub} (hc : filled content ≤ size)
    (ho : st.outSubs = content) : Inv (fillOut range env flush st size content).1 ∧ ∀ a, total a (fillOut range env flush st size content).1 = total a st := by
  unfold fillOut
  dsimp only
  obtain ⟨f1, f2, f3⟩ := fill_spec range st.next (!env.full && !flush) st.subs st.last (size - filled content)
  generalize fill range st.next (!env.full && !flush) st.subs st.last (size - filled content) = f at f1 f2 f3
  have hfit : filled (content ++ f.written) ≤ size := by
    rw [filled_append]
    omega
  have body : ∀ t : State, t.queue = st.queue → t.next = st.next → t.ready = st.ready → t.subs = st.subs → t.old = st.old ++ f.old →
      (∀ size l, t.out = some (size, l) → filled l ≤ size) → (∀ a, t.sentSubs.count a + t.outSubs.count a = st.sentSubs.count a + content.count a + f.written.count a) →
      Inv (removeUsed t f.cnt).1 ∧ ∀ a, total a (removeUsed t f.cnt).1 = total a st := by
    intro t e1 e2 e3 e4 e5 e6 e7
    have hi : Inv t := by
      refine ⟨by rw [e3, e2]; exact h.le, by rw [e2, e1]; exact h.nq, ?_, e6⟩
      rw [e1, e2, e3, e4]
      exact h.recs
    obtain ⟨k1, k2, k3, k4, k5⟩ := removeUsed_spec hi (by rw [e3]; exact h0) (num := f.cnt) (by rw [e4]; exact f1)
    refine ⟨k1, fun a => ?_⟩
    have k5a := k5 a
    have hh : t.held = st.held := by
      unfold State.held
      rw [e1, e2, e3, e4]
    rw [hh, e4, f3 a] at k5a
    unfold total
    have hs : (removeUsed t f.cnt).1.sentSubs = t.sentSubs := by
      unfold State.sentSubs
      rw [k2]
    have hout : (removeUsed t f.cnt).1.outSubs = t.outSubs := by
      unfold State.outSubs
      rw [k3]
    rw [hs, hout, k4, e5, List.count_append, ho]
    have := e7 a
    omega
  by_cases hf : (flush || f.full || env.full) = true ∧ filled (content ++ f.written) > 0
  · rw [if_pos hf]
    refine body _ rfl rfl rfl rfl rfl ?_ ?_
    · intro s l hl
      cases hl
    · intro a
      show (List.flatMap Inp.subs (st.sent ++ [.data (content ++ f.written)])).count a + 0 = (List.flatMap Inp.subs st.sent).count a + content.count a + f.written.count a
      rw [List.flatMap_append, List.count_append, List.flatMap_cons, List.flatMap_nil, List.append_nil]
      show _ + (content ++ f.written).count a + 0 = _
      rw [List.count_append]
      omega
  · rw [if_neg hf]
    refine body _ rfl rfl rfl rfl rfl ?_ ?_
    · intro s l hl
      cases hl
      exact hfit
    · intro a
      show (List.flatMap Inp.subs st.sent).count a + (content ++ f.written).count a = (List.flatMap Inp.subs st.sent).count a + content.count a + f.written.count a
      rw [List.count_append]
      omega

theorem forward_eq (st : State) : forward st = cut { st with sent := st.sent ++ st.queue.take 1 } 1 := rfl

theorem retransmit_spec (range : Word) {env : Env} (hsort : ∀ l, (env.sort l).Perm l) (hsend : env.send2 = true → env.send1 = true) {st : State} (h : Inv st) :
    Inv (retransmit range env st).1 ∧ ∀ a, total a (retransmit range env st).1 = total a st := by
  unfold retransmit
  dsimp only
  obtain ⟨i1, i2, i3, i4⟩ := scan_spec range (st.queue.drop st.next) st false h rfl
  generalize scan range (st.queue.drop st.next) st false = s at i1 i2 i3 i4
  have tot : ∀ a, total a s.st = total a st := by
    intro a
    unfold total State.sentSubs State.outSubs
    rw [i2.sent, i2.out, i2.old, i3 a]
  cases he : s.eof
  · rw [if_neg (by decide)]
    have h1 : Inv (if s.newData then { s.st with subs := env.sort s.st.subs } else s.st) := by
      cases s.newData
      · exact i1
      · refine ⟨i1.le, i1.nq, ?_, i1.out⟩
        intro r hr
        exact i1.recs r ((hsort _).mem_iff.mp hr)
    have t1 : ∀ a, total a (if s.newData then { s.st with subs := env.sort s.st.subs } else s.st) = total a st := by
      intro a
      rw [← tot a]
      cases s.newData
      · rfl
      · have : (State.held { s.st with subs := env.sort s.st.subs }).count a = s.st.held.count a := by
          rw [held_count, held_count]
          show _ + _ + ((env.sort s.st.subs).map Rec.sub).count a = _
          rw [((hsort s.st.subs).map Rec.sub).count_eq a]
        unfold total
        show s.st.sentSubs.count a + s.st.outSubs.count a + s.st.old.count a + (State.held { s.st with subs := env.sort s.st.subs }).count a = _
        rw [this]
    generalize (if s.newData then { s.st with subs := env.sort s.st.subs } else s.st) = t at h1 t1
    by_cases hd : t.ready > 0 ∧ env.send1 = true ∧ t.queue ≠ []
    · rw [if_pos hd]
      have hi : Inv { t with sent := t.sent ++ t.queue.take 1 } := ⟨h1.le, h1.nq, h1.recs, h1.out⟩
      have hle := h1.le
      obtain ⟨k1, k2, k3, k4, k5⟩ := cut_spec hi (k := 1) (by show 1 ≤ t.next; omega) (by intro r hr; have := (h1.recs r hr).1; omega)
      refine ⟨k1, fun a => ?_⟩
      rw [← t1 a, forward_eq]
      unfold total
      have k5a := k5 a
      have hm : min 1 t.ready = 1 := by omega
      have hk : t.held.count a = (cut { t with sent := t.sent ++ t.queue.take 1 } 1).held.count a + cnt a (t.queue.take 1) := by
        have : (State.held { t with sent := t.sent ++ t.queue.take 1 }).count a = (cut { t with sent := t.sent ++ t.queue.take 1 } 1).held.count a + cnt a (t.queue.take (min 1 t.ready)) := k5a
        rw [hm] at this
        exact this
      have hs : (cut { t with sent := t.sent ++ t.queue.take 1 } 1).sentSubs.count a = t.sentSubs.count a + cnt a (t.queue.take 1) := by
        unfold State.sentSubs
        rw [k2, List.flatMap_append, List.count_append]
        rfl
      have ho : (cut { t with sent := t.sent ++ t.queue.take 1 } 1).outSubs = t.outSubs := by
        unfold State.outSubs
        rw [k3]
      rw [hs, ho, k4]
      dsimp only
      omega
    · rw [if_neg hd]
      cases hs2 : env.send2
      · exact ⟨h1, t1⟩
      · have hr0 : t.ready = 0 := by
          rcases Nat.eq_zero_or_pos t.ready with hz | hp
          · exact hz
          · exfalso
            refine hd ⟨hp, hsend hs2, ?_⟩
            intro hn
            have := h1.le
            have := h1.nq
            rw [hn, List.length_nil] at this
            omega
        rw [if_neg (by decide)]
        cases ho : t.out with
        | none =>
          dsimp only
          cases env.take
          · exact ⟨h1, t1⟩
          · obtain ⟨k1, k2⟩ := fillOut_spec range env s.flush h1 hr0 (size := env.size) (content := []) (Nat.zero_le _) (by unfold State.outSubs; rw [ho])
            exact ⟨k1, fun a => (k2 a).trans (t1 a)⟩
        | some p =>
          obtain ⟨size, content⟩ := p
          dsimp only
          obtain ⟨k1, k2⟩ := fillOut_spec range env s.flush h1 hr0 (size := size) (content := content) (h1.out _ _ ho) (by unfold State.outSubs; rw [ho])
          exact ⟨k1, fun a => (k2 a).trans (t1 a)⟩
  · rw [if_pos rfl]
    cases env.sendEof
    · exact ⟨i1, tot⟩
    · obtain ⟨n0, q, hq⟩ := i4 he
      rw [if_pos rfl]
      have hsubs : s.st.subs = [] := by
        cases hs : s.st.subs with
        | nil => rfl
        | cons r l =>
          have := (i1.recs r (by rw [hs]; exact List.mem_cons_self ..)).2.1
          omega
      have hr0 : s.st.ready = 0 := by
        have := i1.le
        omega
      have hqs : s.st.queue = .eof :: q := by rw [i2.queue, hq]
      have fe : forward s.st = { s.st with sent := s.st.sent ++ [.eof], queue := q, next := 0, ready := 0, subs := [] } := by
        rw [forward_eq, cut_eq (by intro r hr; rw [show ({ s.st with sent := s.st.sent ++ s.st.queue.take 1 } : State).subs = s.st.subs from rfl, hsubs] at hr; cases hr)]
        dsimp only
        rw [hqs, n0, hr0, hsubs]
        rfl
      rw [fe]
      refine ⟨⟨Nat.le_refl _, Nat.zero_le _, (by intro r hr; cases hr), i1.out⟩, fun a => ?_⟩
      rw [← tot a]
      unfold total
      rw [held_count, held_count, hqs, n0, hr0, hsubs]
      show (List.flatMap Inp.subs (s.st.sent ++ [.eof])).count a + s.st.outSubs.count a + s.st.old.count a + (cnt a q + 0 + 0) =
        (List.flatMap Inp.subs s.st.sent).count a + s.st.outSubs.count a + s.st.old.count a + (cnt a (.eof :: q) + 0 + 0)
      rw [cnt_cons, List.flatMap_append, List.count_append]
      show _ + 0 + _ + _ + _ = _ + _ + _ + (0 + cnt a q + 0 + 0)
      omega

theorem timer_spec {send : Bool} {st : State} (h : Inv st) : Inv (timer send st) ∧ ∀ a, total a (timer send st) = total a st := by
  unfold timer
  cases ho : st.out with
  | none => exact ⟨h, fun _ => rfl⟩
  | some p =>
    obtain ⟨size, content⟩ := p
    dsimp only
    by_cases hc : send = true ∧ filled content > 0
    · rw [if_pos hc]
      refine ⟨⟨h.le, h.nq, h.recs, (by intro s l hl; cases hl)⟩, fun a => ?_⟩
      have e1 : st.outSubs = content := by unfold State.outSubs; rw [ho]
      unfold total
      rw [e1]
      show (List.flatMap Inp.subs (st.sent ++ [.data content])).count a + 0 + st.old.count a + st.held.count a = (List.flatMap Inp.subs st.sent).count a + content.count a + _ + _
      rw [List.flatMap_append, List.count_append, List.flatMap_cons, List.flatMap_nil, List.append_nil]
      show _ + content.count a + 0 + _ + _ = _
      omega
    · rw [if_neg hc]
      exact ⟨h, fun _ => rfl⟩

theorem runAll_spec (range : Word) : ∀ (l : List Step) (st : State), (∀ s ∈ l, s.Legal) → Inv st →
    Inv (runAll range st l) ∧ ∀ a, total a (runAll range st l) = total a st + (arrived l).count a := by
  intro l
  induction l with
  | nil => intro st _ h; exact ⟨h, fun _ => rfl⟩
  | cons s l ih =>
    intro st hl h
    have hrest := fun x hx => hl x (List.mem_cons_of_mem s hx)
    have hs := hl s (List.mem_cons_self ..)
    show Inv (runAll range (s.run range st) l) ∧ ∀ a, total a (runAll range (s.run range st) l) = _
    cases s with
    | arrive b =>
      have h1 : Inv { st with queue := st.queue ++ [b] } := by
        have hnq := h.nq
        refine ⟨h.le, by show st.next ≤ (st.queue ++ [b]).length; rw [List.length_append]; omega, ?_, h.out⟩
        intro r hr
        obtain ⟨r1, r2, l, r3, r4⟩ := h.recs r hr
        refine ⟨r1, r2, l, ?_, r4⟩
        show (st.queue ++ [b])[r.buf]? = _
        rw [List.getElem?_append_left (by omega), r3]
      obtain ⟨k1, k2⟩ := ih { st with queue := st.queue ++ [b] } hrest h1
      refine ⟨k1, fun a => (k2 a).trans ?_⟩
      have hh : (State.held { st with queue := st.queue ++ [b] }).count a = st.held.count a + b.subs.count a := by
        have hnq := h.nq
        have hle := h.le
        rw [held_count, held_count]
        show cnt a ((st.queue ++ [b]).drop st.next) + cnt a ((st.queue ++ [b]).take st.ready) + _ = _
        rw [List.drop_append_of_le_length hnq, List.take_append_of_le_length (by omega), cnt_append, cnt_cons]
        dsimp only
        show _ + (_ + 0) + _ + _ = _
        omega
      unfold total
      show st.sentSubs.count a + st.outSubs.count a + st.old.count a + (State.held { st with queue := st.queue ++ [b] }).count a + (arrived l).count a = _ + (b.subs ++ arrived l).count a
      rw [hh, List.count_append]
      omega
    | call env =>
      obtain ⟨h1, h2⟩ := retransmit_spec range hs.1 hs.2 h
      obtain ⟨k1, k2⟩ := ih _ hrest h1
      refine ⟨k1, fun a => (k2 a).trans ?_⟩
      rw [h2 a]
      rfl
    | timer send =>
      obtain ⟨h1, h2⟩ := timer_spec (send := send) h
      obtain ⟨k1, k2⟩ := ih _ hrest h1
      refine ⟨k1, fun a => (k2 a).trans ?_⟩
      rw [h2 a]
      rfl

theorem inv_init : Inv init := ⟨Nat.le_refl _, Nat.le_refl _, (by intro r hr; cases hr), (by intro s l hl; cases hl)⟩

/-- **C55** (nothing lost, nothing doubled). After any arrivals, calls and timer events every subevent that arrived is exactly
once in a buffer sent, in the output buffer, among those reported as too old, or still in the input queue.
Partial: both looks at the output queue in one call have to agree (`C55_race_counterexample`). -/
theorem C55_conservation_partial (range : Word) (l : List Step) (hl : ∀ s ∈ l, s.Legal) :
    (arrived l).Perm ((runAll range init l).sentSubs ++ (runAll range init l).outSubs ++ (runAll range init l).old ++ (runAll range init l).held) := by
  rw [List.perm_iff_count]
  intro a
  rw [List.count_append, List.count_append, List.count_append]
  have h1 := (runAll_spec range l init hl inv_init).2 a
  have h2 : total a init = 0 := rfl
  unfold total at h1 h2
  omega

/-- **C55** (memory). Every record, whenever one of them is copied, belongs to a buffer that is still in the input queue; the
output buffer is not overrun. Partial as `C55_conservation_partial`. -/
theorem C55_memory_partial (range : Word) (l : List Step) (hl : ∀ s ∈ l, s.Legal) :
    (∀ r ∈ (scan range ((runAll range init l).queue.drop (runAll range init l).next) (runAll range init l) false).st.subs,
      ∃ b, (runAll range init l).queue[r.buf]? = some (.data b) ∧ r.sub ∈ b) ∧
    ∀ size c, (runAll range init l).out = some (size, c) → filled c ≤ size := by
  have h := (runAll_spec range l init hl inv_init).1
  obtain ⟨i1, i2, -, -⟩ := scan_spec range _ _ false h rfl
  refine ⟨fun r hr => ?_, h.out⟩
  obtain ⟨-, -, b, h1, h2⟩ := i1.recs r hr
  rw [i2.queue] at h1
  exact ⟨b, h1, h2⟩

theorem fill_order (range : Word) (next : Nat) (hold : Bool) : ∀ (l : List Rec) (last : Word) (free : Nat), last ≠ 0xffffffff → (∀ r ∈ l, r.sub.trig ≠ 0xffffffff) →
    Rising range last ((fill range next hold l last free).written.map Sub.trig) := by
  intro l
  induction l with
  | nil => intro last free _ _; trivial
  | cons r l ih =>
    intro last free hn hl
    have hrest := fun x hx => hl x (List.mem_cons_of_mem r hx)
    unfold fill
    dsimp only
    rw [if_pos hn]
    by_cases h1 : diff range last r.sub.trig < 0
    · rw [if_pos h1]
      exact ih last free hn hrest
    · rw [if_neg h1]
      by_cases h2 : diff range last r.sub.trig ≠ 1 ∧ r.buf + 2 > next ∧ hold = true
      · rw [if_pos h2]
        trivial
      · rw [if_neg h2]
        by_cases h3 : free < r.sub.size
        · rw [if_pos h3]
          trivial
        · rw [if_neg h3]
          exact ⟨by omega, (ih r.sub.trig _ (hl r (List.mem_cons_self ..)) hrest)⟩

/-- **C55** (order). What one call writes to the output buffer does not go back in trigger numbers, neither behind the last
trigger number before nor among each other. Partial: over several calls see `C55_order_counterexample`. -/
theorem C55_order_partial (range : Word) (next : Nat) (hold : Bool) (l : List Rec) {last : Word} (free : Nat) (hn : last ≠ 0xffffffff)
    (hl : ∀ r ∈ l, r.sub.trig ≠ 0xffffffff) :
    Rising range last ((fill range next hold l last free).written.map Sub.trig) :=
  fill_order range next hold l last free hn hl

/-- A small subevent. -/
def sub (t : Word) : Sub := { trig := t, size := 16, content := [] }

/-- A call with place everywhere. -/
def easy : Env := { full := false, sendEof := true, send1 := true, send2 := true, take := true, size := 1000, sort := List.reverse }

example : ∀ s ∈ [Step.arrive (.data [sub 1]), .call easy, .arrive (.data [sub 3, sub 2]), .call easy, .timer true, .arrive .eof, .call easy], s.Legal := by
  intro s hs
  simp only [List.mem_cons, List.not_mem_nil, or_false] at hs
  rcases hs with rfl | rfl | rfl | rfl | rfl | rfl | rfl
  all_goals first | trivial | exact ⟨fun l => List.reverse_perm l, fun h => h⟩

/-- The buffer with number 1 goes out, 3 and 2 are sorted into the output buffer, the buffer with 4 overtakes them. -/
theorem C55_order_counterexample :
    (runAll 0x1000000 init [.arrive (.data [sub 1]), .call easy, .arrive (.data [sub 3, sub 2]), .call easy, .arrive (.data [sub 4]), .call easy, .timer true]).sent =
      [.data [sub 1], .data [sub 4], .data [sub 2, sub 3]] := by
  decide +kernel

/-- The end-of-file buffer overtakes subevents in the output buffer. -/
theorem C55_eof_counterexample :
    (runAll 0x1000000 init [.arrive (.data [sub 1]), .call easy, .arrive (.data [sub 3, sub 2]), .call easy, .arrive .eof, .call easy, .timer true]).sent =
      [.data [sub 1], .eof, .data [sub 2, sub 3]] := by
  decide +kernel

/-- Place in the output queue appears between the two looks at it: the buffer with number 1, ready to be forwarded, is lost. -/
theorem C55_race_counterexample :
    let st := runAll 0x1000000 init [.arrive (.data [sub 1]), .arrive (.data [sub 5]), .call { easy with full := true, send1 := false, sort := id }]
    st.sent = [.data [sub 5]] ∧ st.outSubs = [] ∧ st.old = [] ∧ st.held = [] := by
  decide +kernel

/-- State with an empty buffer and the end of file in the input queue. -/
def stuck : State := runAll 0x1000000 init [.arrive (.data [sub 1]), .call easy, .arrive (.data [sub 3, sub 2]), .arrive (.data []), .call easy, .arrive .eof, .call easy, .call easy]

/-- An empty buffer in front of the end of file: `retransmit` asks to be called again without changing anything, for ever. -/
theorem C55_stuck_counterexample : retransmit 0x1000000 easy stuck = (stuck, true) ∧ stuck.queue = [.data [], .eof] := by
  decide +kernel

end Verif.Sorter
