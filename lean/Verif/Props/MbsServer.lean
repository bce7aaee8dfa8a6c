import Verif.MbsServerInv

/-! C81: what an MBS server gives to its clients. -/

namespace Verif.MbsServer

open Spec

/-- Full statement: this without `Orderly`; missing: a client which takes the place of another one too early, see
`C81_reuse_counterexample`.
Whatever happens, a client gets buffers in the order in which the server took them, each at most once and none from before its time;
with `deliverall` there is no gap. -/
theorem C81_received_partial (b d : Bool) (limit icap cap : Nat) (ops : List Op) (ho : Orderly (new b d limit icap cap) ops) (k : Nat) :
    let s := run (new b d limit icap cap) ops
    (s.got k).Sublist (since s k) ∧ (d = true → s.got k <+: since s k) := by
  intro s
  have h := (inv_run (inv_start b d limit icap cap) ho).all k
  have hd : s.deliverAll = d := (run_cfg ops _).2.1
  exact ⟨h.2, fun e => h.1 (hd.trans e)⟩

/-- As before. With `deliverall` everything which a connected client did not get yet is in its queue. -/
theorem C81_waiting_partial (b : Bool) (limit icap cap : Nat) (ops : List Op) (ho : Orderly (new b true limit icap cap) ops) (k : Nat)
    (items : List Item) :
    let s := run (new b true limit icap cap) ops
    Waiting s k items → s.got k ++ items = since s k := by
  intro s ⟨n, hn⟩
  have hd : s.deliverAll = true := (run_cfg ops _).2.1
  exact ((inv_run (inv_start b true limit icap cap) ho).eq (k, items) (mem_links.mpr ⟨n, hn⟩)).1 hd

/-- As before. A client stays connected until it goes or the server closes. -/
theorem C81_stays_partial (b d : Bool) (limit icap cap : Nat) (ops : List Op) (ho : Orderly (new b d limit icap cap) ops) (k : Nat)
    (op : Op) (h1 : op ≠ .leave k) (h2 : op ≠ .destroy k) :
    let s := run (new b d limit icap cap) ops
    Connected s k → Connected (step s op) k ∨ (step s op).closing = 2 := by
  intro s ⟨n, items, hn⟩
  have hc : Clean s := clean_run (by intro e he; simp [new] at he) ho
  rcases stays hc op k n (cliAt_some.mpr ⟨items, hn⟩) h1 h2 with h | h
  · obtain ⟨its, hi⟩ := cliAt_some.mp h
    exact Or.inl ⟨n, its, hi⟩
  · exact Or.inr h

/-- Nothing which came to the input gets lost before the clients: it was taken, in order, or is still there. Queues of clients
never hold more than their capacity, and there are never more clients than allowed. -/
theorem C81_bounds (b d : Bool) (limit icap cap : Nat) (hc : 0 < cap) (ops : List Op) :
    let s := run (new b d limit icap cap) ops
    (s.closing ≠ 2 → s.taken ++ s.inp = s.came) ∧ s.taken <+: s.came ∧
      (∀ k items, Waiting s k items → items.length ≤ cap) ∧ (0 < limit → s.slots.countP connected ≤ limit) := by
  intro s
  have h : Num s := num_run hc (num_new b d limit icap cap)
  have hcfg := run_cfg ops (new b d limit icap cap)
  refine ⟨h.came, h.pre, ?_, fun hl => ?_⟩
  · rintro k items ⟨n, hn⟩
    have := h.cap _ (List.mem_of_getElem? hn)
    have hcap : s.cap = cap := hcfg.2.2.2.2
    rw [hcap] at this; exact this
  · have hlim : s.limit = limit := hcfg.2.2.1
    have := h.lim (by rw [hlim]; exact hl)
    rw [hlim] at this
    exact Nat.le_trans List.countP_le_length this

/-- A client which comes while there is a place is connected. -/
theorem C81_accepts (s : S) (h1 : s.closing ≠ 2) (h2 : s.limit = 0 ∨ s.slots.countP connected < s.limit) :
    Connected (step s (.connect true true)) s.next := by
  simp only [step, if_neg h1, connect]
  rw [if_neg (by simp), if_neg (by omega), if_neg (by simp)]
  generalize hj : s.slots.findIdx (fun l => !connected l) = j
  split
  · rename_i l hl
    exact ⟨j, l.items, by show (s.slots.set j _)[j]? = _; rw [List.getElem?_set_self (lt_of_get hl)]⟩
  · rename_i hl
    exact ⟨j, [], by show (s.slots.set j _)[j]? = _; rw [List.getElem?_set_self (lt_of_get hl)]⟩
  · exact ⟨s.slots.length, [], by show (s.slots ++ _)[s.slots.length]? = _; rw [List.getElem?_append_right (Nat.le_refl _)]; simp⟩

/-- One which comes when there are enough is not. -/
theorem C81_rejects (s : S) (f i : Bool) (h1 : 0 < s.limit) (h2 : s.limit ≤ s.slots.countP connected) : step s (.connect f i) = s := by
  simp only [step, connect]
  (repeat' split) <;> first | rfl | (exfalso; omega)

/-- A buffer is taken while the input is not full: every connected client gets it. (So something is lost for a slow client
only when the input is full.) -/
theorem C81_no_loss (s : S) (h : (step s .turn).taken ≠ s.taken) (hi : s.inp.length < s.icap) (hc : (step s .turn).closing ≠ 2) (k : Nat)
    (items : List Item) (hw : Waiting s k items) : ∃ b, s.inp.head? = some b ∧ Waiting (step s .turn) k (items ++ [b]) := by
  obtain ⟨n, hn⟩ := hw
  simp only [step] at h hc ⊢
  by_cases h2 : s.closing = 2
  · rw [if_pos h2] at h; exact absurd rfl h
  rw [if_neg h2] at h hc ⊢
  unfold sendNext at h hc ⊢
  split at h
  · exact absurd rfl h
  · rename_i b rest hi'
    simp only [hi'] at hc ⊢
    rw [hi'] at h hi
    simp only at h
    split at h
    · exact absurd rfl h
    · rename_i hb
      rw [if_neg hb] at hc ⊢
      split at h
      · exact absurd rfl h
      · rename_i ha
        rw [if_neg ha] at hc ⊢
        have hall : allCan s = true := by
          simp only [decide_eq_true hi, Bool.or_true, Bool.and_true, Bool.not_eq_true'] at ha
          simpa using ha
        have hlt : items.length < s.cap := by
          simp only [allCan, List.all_eq_true] at hall
          have := hall _ (List.mem_of_getElem? hn)
          simp [connected, canSend] at this
          exact this
        have hs : (sendAll s.cap b s.slots)[n]? = some (some ⟨items ++ [b], some k⟩) := by
          simp [sendAll, hn, canSend, put, hlt]
        refine ⟨b, rfl, n, ?_⟩
        split
        · rename_i he
          rw [if_pos he] at hc
          split
          · rename_i hcl
            rw [if_pos hcl] at hc
            exact absurd rfl hc
          · exact hs
        · exact hs

/-- Without `deliverall` a slow client does not hold the others: a full input is read as soon as there are clients, or always when
the server does not block. -/
theorem C81_not_held (s : S) (hd : s.deliverAll = false) (hc : s.closing ≠ 2) (hi : s.inp.length = s.icap) (h0 : 0 < s.icap)
    (hb : s.blocking = false ∨ s.slots ≠ []) : (step s .turn).inp.length < s.icap := by
  simp only [step, if_neg hc]
  unfold sendNext
  split
  · rename_i h; rw [h] at hi; simp at hi; omega
  · rename_i b rest h
    rw [if_neg (by rcases hb with hb | hb <;> simp [hb])]
    have hlen : rest.length < s.icap := by rw [h] at hi; simp at hi; omega
    rw [if_neg (by simp [hd, hi])]
    dsimp only
    split
    · split
      · show ([] : List Item).length < s.icap
        exact h0
      · exact hlen
    · exact hlen

/-- With `deliverall` nothing is taken while the queue of a connected client is full. -/
theorem C81_waits (s : S) (hd : s.deliverAll = true) (k : Nat) (items : List Item) (hw : Waiting s k items) (hf : items.length = s.cap) :
    step s .turn = s := by
  obtain ⟨n, hn⟩ := hw
  have hall : allCan s = false := by
    have hm := List.mem_of_getElem? hn
    simp only [allCan]
    rw [List.all_eq_false]
    exact ⟨_, hm, by simp [connected, canSend, hf]⟩
  simp only [step, sendNext, hall, hd]
  (repeat' split) <;> simp_all

/-- And a blocking server takes nothing before its first client. -/
theorem C81_first (s : S) (hb : s.blocking = true) (h0 : s.slots = []) : step s .turn = s := by
  simp only [step, sendNext, hb, h0]
  (repeat' split) <;> simp_all

/-- The full statement would be: a blocking server keeps its data while there is no client. But when all clients went away it
does not. -/
theorem C81_swallows_counterexample (s : S) (hc : s.closing ≠ 2) (h1 : s.slots ≠ []) (h2 : s.slots.countP connected = 0) (b : Item)
    (rest : List Item) (hi : s.inp = b :: rest) : (step s .turn).taken = s.taken ++ [b] ∧ (step s .turn).got = s.got ∧
      ∀ k, ¬ Connected (step s .turn) k := by
  have hno : ∀ m, cliAt s.slots m = none := by
    intro m
    cases hm : cliAt s.slots m with
    | none => rfl
    | some k =>
      obtain ⟨items, hi⟩ := cliAt_some.mp hm
      have := List.countP_eq_zero.mp h2 _ (List.mem_of_getElem? hi)
      simp [connected] at this
  have hall : allCan s = true := by
    simp only [allCan, List.all_eq_true]
    intro x hx
    have := List.countP_eq_zero.mp h2 x hx
    simp [this]
  refine ⟨?_, ?_, fun k ⟨n, items, hn⟩ => ?_⟩
  · simp only [step, if_neg hc, sendNext, hi, hall]
    rw [if_neg (by simp [h1])]
    simp only [Bool.not_true, Bool.false_and, Bool.false_eq_true, if_false]
    (repeat' split) <;> rfl
  · simp only [step, if_neg hc, sendNext, hi, hall]
    rw [if_neg (by simp [h1])]
    simp only [Bool.not_true, Bool.false_and, Bool.false_eq_true, if_false]
    (repeat' split) <;> rfl
  · have h' := cliAt_some.mpr ⟨items, hn⟩
    simp only [step, if_neg hc] at h'
    rcases (cliAt_sendNext s n).2 with h | h
    · rw [h, hno] at h'; simp at h'
    · rw [h.1] at h'; simp at h'

/-- A run to such a state, with all options set: the third buffer goes to nobody. -/
example :
    let s := run (new true true 0 10 5) [.arrive (.data 1), .turn, .connect true true, .turn, .take 0, .leave 0, .event, .arrive (.data 2)]
    s.closing ≠ 2 ∧ s.slots ≠ [] ∧ s.slots.countP connected = 0 ∧ s.inp = [.data 2] ∧ s.taken = [.data 1] := by decide +kernel

/-! ## The end of the data -/

/-- A blocking server does not close when its clients close after the end of data: `evntPortDisconnect` is not looked at, and the
event which is looked at does not come. -/
theorem C81_never_closes_counterexample (d : Bool) (limit icap cap : Nat) (ops : List Op) (hr : ∀ op ∈ ops, Regular op) :
    (run (new true d limit icap cap) ops).closing ≠ 2 := by
  suffices h : ∀ (ops : List Op) (s : S), s.blocking = true → s.closing ≠ 2 → (∀ n, Ev.stop n ∉ s.evs) → (∀ op ∈ ops, Regular op) →
      (run s ops).closing ≠ 2 from
    h ops _ rfl (by simp [new]) (by simp [new]) hr
  intro ops
  induction ops with
  | nil => intro s _ h _ _; exact h
  | cons op ops ih =>
    intro s hb hc he hr
    have hk : (step s op).closing ≠ 2 ∧ ∀ n, Ev.stop n ∉ (step s op).evs := by
      have hlv : ∀ k, (leave s k).closing ≠ 2 ∧ ∀ n, Ev.stop n ∉ (leave s k).evs := by
        intro k
        refine ⟨?_, fun n hn => ?_⟩
        · unfold leave
          (repeat' split) <;> exact hc
        · rcases leave_cases s k with ⟨_, h, _⟩ | ⟨m, _, _, h, _⟩
          · rw [h] at hn; exact he n hn
          · rw [h] at hn; simp at hn; exact he n hn
      cases op with
      | arrive b => simp only [step]; split <;> exact ⟨hc, he⟩
      | turn =>
        simp only [step, if_neg hc]
        refine ⟨?_, by rw [(cliAt_sendNext s 0).1]; exact he⟩
        unfold sendNext
        split
        · exact hc
        · split
          · exact hc
          · rename_i hnb
            have hne : s.slots ≠ [] := fun e => hnb ⟨e, hb⟩
            split
            · exact hc
            · dsimp only
              split
              · split
                · rename_i hcl
                  exfalso
                  rcases hcl with hcl | hcl
                  · simp [sendAll] at hcl; exact hne hcl
                  · simp [hb] at hcl
                · simp
              · exact hc
      | connect f i =>
        simp only [step, if_neg hc, connect]
        (repeat' split) <;> exact ⟨hc, he⟩
      | take k =>
        refine ⟨?_, by simp only [step]; rw [(cliAt_take s k 0).1]; exact he⟩
        simp only [step, take]
        (repeat' split) <;> exact hc
      | leave k => exact hlv k
      | destroy k => exact (hr (.destroy k) (by simp)).elim
      | event =>
        simp only [step, if_neg hc]
        split
        · exact ⟨hc, he⟩
        · rename_i n r h
          exact absurd (by rw [h]; simp) (he n)
        · rename_i n r h
          rw [cut_closing, cut_evs]
          exact ⟨hc, fun m hm => he m (by rw [h]; simp; exact hm)⟩
    exact ih (step s op) ((step_cfg s op).1.trans hb) hk.1 hk.2 fun o ho => hr o (by simp [ho])

/-- Here the end of data came through and the only client closed. -/
example :
    let ops : List Op := [.connect true true, .arrive (.data 1), .turn, .arrive .eof, .turn, .take 0, .take 0, .leave 0, .event]
    let s := run (new true true 0 10 5) ops
    (∀ op ∈ ops, Regular op) ∧ s.closing = 1 ∧ s.got 0 = [.data 1, .eof] ∧ s.slots.countP connected = 0 := by
  refine ⟨?_, by decide +kernel, by decide +kernel, by decide +kernel⟩
  intro op h
  simp at h
  rcases h with rfl | rfl | rfl | rfl | rfl | rfl | rfl | rfl <;> trivial

/-- It closes when the transport of its last client is destroyed. -/
theorem C81_closes (s : S) (n : Nat) (r : List Ev) (h1 : s.closing = 1) (h2 : s.evs = .stop n :: r)
    (h3 : ∀ m, m ≠ n → cliAt s.slots m = none) : (step s .event).closing = 2 := by
  have hno : (cut { s with evs := r } n).slots.any connected = false := by
    rw [List.any_eq_false]
    intro x hx
    obtain ⟨m, hm⟩ := List.mem_iff_getElem?.mp hx
    have hc := cliAt_cut { s with evs := r } n m
    have : cliAt (cut { s with evs := r } n).slots m = none := by
      rw [hc]
      split
      · rfl
      · rename_i hne; exact h3 m fun e => hne e.symm
    unfold cliAt at this
    rw [hm] at this
    obtain _ | ⟨items, c⟩ := x
    · simp [connected]
    · simp at this; subst this; simp [connected]
  have hc : ¬ s.closing = 2 := by omega
  simp only [step, h2, onStop]
  rw [if_neg hc, if_pos ⟨by rw [cut_closing]; exact h1, by rw [hno]; simp⟩]
  rfl

example :
    let s := run (new true true 0 10 5) [.connect true true, .arrive .eof, .turn, .take 0, .destroy 0]
    s.closing = 1 ∧ s.evs = [.stop 0, .gone 0] ∧ s.slots.length = 1 := by decide +kernel

/-- A server which does not block closes at once and takes the last buffers from its clients. -/
theorem C81_eof_lost_counterexample :
    let ops : List Op := [.connect true true, .arrive (.data 1), .turn, .arrive .eof, .turn, .leave 0]
    let s := run (new false true 0 10 5) ops
    Orderly (new false true 0 10 5) ops ∧ s.came = [.data 1, .eof] ∧ s.closing = 2 ∧ s.slots = [none] ∧ s.orphans = [] ∧ s.got 0 = [] := by
  refine ⟨?_, by decide +kernel, by decide +kernel, by decide +kernel, by decide +kernel, by decide +kernel⟩
  simp [Orderly, new]

/-- A client which takes the place of another one before it is processed that this one went gets its old data, and is thrown out. -/
theorem C81_reuse_counterexample :
    let s := run (new true true 0 10 5) [.connect true true, .arrive (.data 1), .turn, .leave 0, .connect true true, .take 1]
    s.got 1 = [.data 1] ∧ since s 1 = [] ∧ cliAt s.slots 0 = some 1 ∧ cliAt (step s .event).slots 0 = none ∧
      (step s .event).orphans = [(1, [])] := by decide +kernel

/-- The option `nonblock` of a transport server is to say that the input is not blocked by slow clients as well (comment in
`ServerTransport.cxx:322-325`), but then `deliverall` stays on and one client holds everything. -/
theorem C81_nonblock_counterexample (bl da : Bool) :
    (options true true bl da).1 = false ∧
    ∀ (limit icap cap : Nat) (ops : List Op) (k : Nat) (items : List Item),
      let s := run (new (options true true bl da).1 (options true true bl da).2 limit icap cap) ops
      Waiting s k items → items.length = cap → step s .turn = s := by
  refine ⟨rfl, ?_⟩
  intro limit icap cap ops k items s hw hf
  have hcfg := run_cfg ops (new (options true true bl da).1 (options true true bl da).2 limit icap cap)
  exact C81_waits s hcfg.2.1 k items hw (hf.trans hcfg.2.2.2.2.symm)

/-- Otherwise options do what they say. -/
theorem C81_options (t nb bl da : Bool) :
    ((options t nb bl da).1 = true ↔ nb = false ∧ (bl = true ∨ t = true)) ∧ ((options t nb bl da).2 = true ↔ da = true ∨ t = true) := by
  cases t <;> cases nb <;> cases bl <;> cases da <;> decide

/-- A run with two clients, one of them comes later and takes the place of one which went. -/
def demo : List Op :=
  [.connect true true, .connect true true, .arrive (.data 1), .turn, .take 0, .leave 1, .event, .arrive (.data 2), .turn, .connect true true,
    .arrive (.data 3), .turn, .take 0, .take 2]

example : Orderly (new true true 2 10 5) demo := by
  simp [Orderly, demo, new, step, connect, sendNext, allCan, sendAll, canSend, put, connected, take, has, leave, cut, List.findIdx?_cons, List.findIdx_cons]

example : let s := run (new true true 2 10 5) demo
    s.got 0 = [.data 1, .data 2] ∧ s.got 1 = [] ∧ s.got 2 = [.data 3] ∧ since s 2 = [.data 3] ∧ since s 0 = [.data 1, .data 2, .data 3] := by
  decide +kernel

end Verif.MbsServer
