import Verif.Aqua

namespace Verif.Aqua

/-- Header and buffer belong together: the counter is the number of buffers taken before. -/
def PacketOk (taken : List Nat) (p : Packet) : Prop := taken[p.counter]? = some p.buf

structure Inv (s : S) : Prop where
  counter : s.counter = s.taken.length
  open_ : s.tr ≠ .closed
  right : s.wrong = false
  ready : s.tr = .ready → (s.st = .disconnected ∨ s.st = .error ∨ s.st = .ready) ∧ s.cb = 0 ∧ s.cur = none
  wait : s.tr = .wait →
    (s.st = .sending ∧ s.cb = 0 ∧ s.cur.isSome) ∨
    ((s.st = .complete ∨ s.st = .error ∨ s.st = .disconnected) ∧ s.cb = 1 ∧ s.cur = none)
  ok : ∀ p ∈ s.packets ++ s.cur.toList, PacketOk s.taken p
  order : (s.packets ++ s.cur.toList).Pairwise fun p q => p.counter < q.counter
  early : s.taken = [] → s.tr = .ready

theorem inv_new (tmout now : Nat) : Inv (new tmout now) := by
  constructor <;> simp [new]

theorem connect_same (ok : Bool) (s : S) :
    ∃ so la at_, (connect ok s).1 = { s with socket := so, last := la, attempts := at_ } := by
  unfold connect
  dsimp only
  split
  · exact ⟨_, _, _, rfl⟩
  · split <;> exact ⟨_, _, _, rfl⟩

theorem PacketOk.mono {t : List Nat} {p : Packet} (b : Nat) (h : PacketOk t p) : PacketOk (t ++ [b]) p := by
  unfold PacketOk at h ⊢
  have : p.counter < t.length := by
    cases Nat.lt_or_ge p.counter t.length with
    | inl h => exact h
    | inr hk => rw [List.getElem?_eq_none hk] at h; cases h
  rw [List.getElem?_append_left this]
  exact h

theorem PacketOk.lt {t : List Nat} {p : Packet} (h : PacketOk t p) : p.counter < t.length := by
  unfold PacketOk at h
  cases Nat.lt_or_ge p.counter t.length with
  | inl h => exact h
  | inr hk => rw [List.getElem?_eq_none hk] at h; cases h

theorem Inv.idle {s : S} (h : Inv s) (so : Option Nat) (la : Nat) (at_ : List Nat) (hr : s.tr = .ready) (st : St)
    (hs : st = s.st ∨ st = .ready) :
    Inv { s with socket := so, last := la, attempts := at_, st := st } := by
  obtain ⟨h1, h2, h3⟩ := h.ready hr
  refine ⟨h.counter, h.open_, h.right, ?_, ?_, h.ok, h.order, h.early⟩
  · intro _
    refine ⟨?_, h2, h3⟩
    rcases hs with rfl | rfl
    · exact h1
    · exact .inr (.inr rfl)
  · intro hw
    rw [show s.tr = Tr.ready from hr] at hw
    cases hw

theorem Inv.write {s : S} (h : Inv s) (hr : s.tr = .ready) (hs : s.st = .ready) (b : Nat) : Inv (write b s) := by
  obtain ⟨_, h2, h3⟩ := h.ready hr
  have e : Aqua.write b s = { s with
      taken := s.taken ++ [b], st := .sending, cur := some ⟨s.socket.getD 0, s.counter, b, false⟩, counter := s.counter + 1,
      tr := .wait } := by
    simp [Aqua.write, hs]
  rw [e]
  have hp : ∀ p ∈ s.packets, PacketOk s.taken p := fun p hp => h.ok p (List.mem_append_left _ hp)
  have ho : s.packets.Pairwise fun p q => p.counter < q.counter := (List.pairwise_append.mp h.order).1
  refine ⟨?_, by simp, h.right, by simp, ?_, ?_, ?_, ?_⟩
  · simp [h.counter]
  · intro _
    exact .inl ⟨rfl, h2, rfl⟩
  · intro p hq
    rcases List.mem_append.mp hq with hq | hq
    · exact (hp p hq).mono b
    · simp at hq
      subst hq
      simp [PacketOk, h.counter]
  · refine List.pairwise_append.mpr ⟨ho, by simp, ?_⟩
    intro p hq q hq'
    simp at hq'
    subst hq'
    have := (hp p hq).lt
    simp [h.counter]
    exact this
  · intro hc
    exact absurd hc (by simp)

theorem Inv.step {s t : S} {a : Act} (h : Inv s) (hs : step s a = some t) : Inv t := by
  cases a with
  | tick d =>
    cases hs
    exact ⟨h.counter, h.open_, h.right, h.ready, h.wait, h.ok, h.order, h.early⟩
  | init ok =>
    simp only [Aqua.step] at hs
    split at hs
    · rename_i ht
      cases hs
      have hr := h.early ht
      unfold init
      split
      · unfold assigned
        dsimp only
        obtain ⟨so, la, at_, hc⟩ := connect_same ok s
        rw [hc]
        split
        · exact h.idle so la at_ hr .ready (.inr rfl)
        · exact h.idle so la at_ hr s.st (.inl rfl)
      · exact h
    · cases hs
  | assigned ok =>
    simp only [Aqua.step] at hs
    split at hs
    · rename_i ht
      cases hs
      have hr := h.early ht
      unfold assigned
      dsimp only
      obtain ⟨so, la, at_, hc⟩ := connect_same ok s
      rw [hc]
      split
      · exact h.idle so la at_ hr .ready (.inr rfl)
      · exact h.idle so la at_ hr s.st (.inl rfl)
    · cases hs
  | offer ok b =>
    simp only [Aqua.step] at hs
    split at hs
    · rename_i hr
      cases hs
      have key : s.st = .disconnected ∨ s.st = .error → Inv (
          let r := connect ok s
          if r.2 then Aqua.write b { r.1 with st := .ready }
          else { r.1 with counter := r.1.counter + 1, taken := r.1.taken ++ [b] }) := by
        intro _
        obtain ⟨so, la, at_, hc⟩ := connect_same ok s
        dsimp only
        rw [hc]
        split
        · exact (h.idle so la at_ hr .ready (.inr rfl)).write hr rfl b
        · obtain ⟨h1, h2, h3⟩ := h.ready hr
          refine ⟨by simp [h.counter], h.open_, h.right, fun _ => ⟨h1, h2, h3⟩, ?_, ?_, h.order, fun _ => hr⟩
          · intro hw
            rw [show s.tr = Tr.ready from hr] at hw
            cases hw
          · intro p hp
            exact (h.ok p hp).mono b
      obtain ⟨h1, _, _⟩ := h.ready hr
      rcases h1 with h1 | h1 | h1
      · have := key (.inl h1)
        unfold offer
        rw [h1]
        exact this
      · have := key (.inr h1)
        unfold offer
        rw [h1]
        exact this
      · unfold offer
        rw [h1]
        exact h.write hr h1 b
    · cases hs
  | sent =>
    simp only [Aqua.step] at hs
    split at hs
    · rename_i hc
      cases hs
      obtain ⟨p, hp⟩ := Option.isSome_iff_exists.mp hc.2
      have hw : s.tr = .wait := by
        cases htr : s.tr with
        | ready => have := (h.ready htr).2.2; rw [hp] at this; cases this
        | wait => rfl
        | closed => exact absurd htr h.open_
      have hc0 : s.cb = 0 := by
        rcases h.wait hw with ⟨_, h2, _⟩ | ⟨_, _, h3⟩
        · exact h2
        · rw [hp] at h3; cases h3
      have e : Aqua.sent s = { s with
          st := .complete, cb := s.cb + 1, cur := none, packets := s.packets ++ [{ p with done := true }] } := by
        simp [Aqua.sent, hp]
      rw [e]
      have hok := h.ok
      have hor := h.order
      rw [hp] at hok hor
      simp only [Option.toList_some] at hok hor
      refine ⟨h.counter, h.open_, h.right, ?_, ?_, ?_, ?_, h.early⟩
      · intro hr
        rw [show s.tr = Tr.wait from hw] at hr
        cases hr
      · intro _
        exact .inr ⟨.inl rfl, by simp [hc0], rfl⟩
      · intro q hq
        simp only [Option.toList_none, List.append_nil] at hq
        rcases List.mem_append.mp hq with hq | hq
        · exact hok q (List.mem_append_left _ hq)
        · simp at hq
          subst hq
          exact hok p (by simp)
      · simp only [Option.toList_none, List.append_nil]
        rw [List.pairwise_append] at hor ⊢
        refine ⟨hor.1, by simp, ?_⟩
        intro a ha b hb
        simp at hb
        subst hb
        exact hor.2.2 a ha p (by simp)
    · cases hs
  | sockErr e =>
    simp only [Aqua.step] at hs
    split at hs
    · cases hs
      unfold sockErr
      refine ⟨h.counter, h.open_, h.right, ?_, ?_, ?_, ?_, h.early⟩
      · intro hr
        obtain ⟨h1, h2, h3⟩ := h.ready hr
        refine ⟨by cases e <;> simp, ?_, rfl⟩
        show (if s.st = .sending then s.cb + 1 else s.cb) = 0
        rw [if_neg (by rcases h1 with h1 | h1 | h1 <;> simp [h1]), h2]
      · intro hw
        refine .inr ⟨by cases e <;> simp, ?_, rfl⟩
        show (if s.st = .sending then s.cb + 1 else s.cb) = 1
        rcases h.wait hw with ⟨h1, h2, _⟩ | ⟨h1, h2, _⟩
        · rw [if_pos h1, h2]
        · rw [if_neg (by rcases h1 with h1 | h1 | h1 <;> simp [h1]), h2]
      · simpa using h.ok
      · simpa using h.order
    · cases hs
  | callback =>
    simp only [Aqua.step] at hs
    split at hs
    · rename_i hc
      cases hs
      have hw : s.tr = .wait := by
        cases htr : s.tr with
        | ready => have := (h.ready htr).2.1; omega
        | wait => rfl
        | closed => exact absurd htr h.open_
      rcases h.wait hw with ⟨_, h2, _⟩ | ⟨h1, h2, h3⟩
      · omega
      · have e : callback s = { s with
            cb := s.cb - 1, st := if s.st = .complete then .ready else s.st, tr := .ready } := by
          simp [callback, hw]
        rw [e]
        refine ⟨h.counter, by simp, h.right, ?_, by simp, h.ok, h.order, fun _ => rfl⟩
        intro _
        refine ⟨?_, by simp [h2], h3⟩
        rcases h1 with h1 | h1 | h1 <;> simp [h1]
    · cases hs

theorem Inv.run {as : List Act} : ∀ {s t : S}, Inv s → run s as = some t → Inv t := by
  induction as with
  | nil => intro s t h hr; cases hr; exact h
  | cons a as ih =>
    intro s t h hr
    simp only [Aqua.run] at hr
    cases hs : Aqua.step s a with
    | none => rw [hs] at hr; cases hr
    | some u => rw [hs] at hr; exact ih (h.step hs) hr

/-- **C107.**  Whatever happens to the connection: the counter in the header of a packet is the number of buffers which the
output got before this one, and counters of later packets are larger - a receiver sees every lost buffer. -/
theorem C107_counter (tmout now : Nat) (as : List Act) (s : S) (h : run (new tmout now) as = some s) :
    (∀ p ∈ s.packets, s.taken[p.counter]? = some p.buf) ∧ s.packets.Pairwise fun p q => p.counter < q.counter := by
  have hi := (inv_new tmout now).run h
  exact ⟨fun p hp => hi.ok p (List.mem_append_left _ hp), (List.pairwise_append.mp hi.order).1⟩

/-- **C107.**  The output never tells an error, and every call-back comes while the transport waits for it: exactly one for each
buffer. -/
theorem C107_protocol (tmout now : Nat) (as : List Act) (s : S) (h : run (new tmout now) as = some s) :
    s.tr ≠ .closed ∧ s.wrong = false ∧ (s.cb = 0 ∨ s.cb = 1 ∧ s.tr = .wait) := by
  have hi := (inv_new tmout now).run h
  refine ⟨hi.open_, hi.right, ?_⟩
  cases htr : s.tr with
  | ready => exact .inl (hi.ready htr).2.1
  | wait =>
    rcases hi.wait htr with ⟨_, h2, _⟩ | ⟨_, h2, _⟩
    · exact .inl h2
    · exact .inr ⟨h2, rfl⟩
  | closed => exact absurd htr hi.open_

example : ∃ s, run (new 3 10) [.init false, .assigned true, .offer true 7, .tick 5, .offer true 8, .sockErr true, .callback,
    .offer true 9, .tick 5, .offer true 10, .sent, .callback] = some s ∧
    s.packets = [⟨2, 1, 8, false⟩, ⟨3, 3, 10, true⟩] ∧ s.taken = [7, 8, 9, 10] := by
  refine ⟨_, rfl, ?_⟩
  decide

/-- Attempts are separated. -/
structure Att (s : S) : Prop where
  order : s.attempts.Pairwise fun a b => a + s.tmout < b
  last : ∀ a ∈ s.attempts, a ≤ s.last

theorem Att.same {s t : S} (h : Att s) (h1 : t.attempts = s.attempts) (h2 : t.tmout = s.tmout) (h3 : t.last = s.last) :
    Att t := ⟨by rw [h1, h2]; exact h.order, by rw [h1, h3]; exact h.last⟩

theorem Att.connect {s : S} (ok : Bool) (h : Att s) : Att (connect ok s).1 := by
  have key : ∀ t : S, s.now > s.last + s.tmout → t.attempts = s.attempts ++ [s.now] → t.tmout = s.tmout → t.last = s.now →
      Att t := by
    intro t ht h1 h2 h3
    constructor
    · rw [h1, h2, List.pairwise_append]
      refine ⟨h.order, by simp, ?_⟩
      intro a ha b hb
      simp at hb
      subst hb
      have := h.last a ha
      omega
    · rw [h1, h3]
      intro a ha
      rcases List.mem_append.mp ha with ha | ha
      · have := h.last a ha
        omega
      · simp at ha
        omega
  unfold Aqua.connect
  dsimp only
  split
  · exact h.same rfl rfl rfl
  · rename_i hn
    split
    · exact key _ (by omega) rfl rfl rfl
    · exact key _ (by omega) rfl rfl rfl

theorem Att.write {s : S} (h : Att s) (b : Nat) : Att (write b s) := by
  unfold Aqua.write
  dsimp only
  split <;> exact h.same rfl rfl rfl

theorem Att.assigned {s : S} (h : Att s) (ok : Bool) : Att (assigned ok s) := by
  unfold Aqua.assigned
  dsimp only
  split
  · exact (h.connect ok).same rfl rfl rfl
  · exact h.connect ok

theorem Att.step {s t : S} {a : Act} (h : Att s) (hs : step s a = some t) : Att t := by
  cases a <;> simp only [Aqua.step] at hs
  · cases hs
    exact h.same rfl rfl rfl
  · split at hs <;> cases hs
    unfold init
    split
    · exact h.assigned _
    · exact h
  · split at hs <;> cases hs
    exact h.assigned _
  · split at hs <;> cases hs
    rename_i ok b _
    have key : Att (
          let r := Aqua.connect ok s
          if r.2 then Aqua.write b { r.1 with st := .ready }
          else { r.1 with counter := r.1.counter + 1, taken := r.1.taken ++ [b] }) := by
      have hc := h.connect ok
      dsimp only
      split
      · have h' : Att { (Aqua.connect ok s).1 with st := .ready } := hc.same rfl rfl rfl
        exact h'.write b
      · exact hc.same rfl rfl rfl
    unfold offer
    split
    · exact key
    · exact key
    · exact h.write b
    · exact h.same rfl rfl rfl
  · split at hs <;> cases hs
    unfold sent
    split
    · exact h
    · exact h.same rfl rfl rfl
  · split at hs <;> cases hs
    exact h.same rfl rfl rfl
  · split at hs <;> cases hs
    unfold callback
    dsimp only
    split <;> exact h.same rfl rfl rfl

theorem tmout_same {s t : S} {a : Act} (hs : step s a = some t) : t.tmout = s.tmout := by
  have hc : ∀ ok (s : S), (connect ok s).1.tmout = s.tmout := by
    intro ok s
    obtain ⟨_, _, _, h⟩ := connect_same ok s
    rw [h]
  have hw : ∀ b (s : S), (write b s).tmout = s.tmout := by
    intro b s
    unfold write
    dsimp only
    split <;> rfl
  have ha : ∀ ok (s : S), (assigned ok s).tmout = s.tmout := by
    intro ok s
    unfold assigned
    dsimp only
    split
    · exact hc ok s
    · exact hc ok s
  cases a <;> simp only [Aqua.step] at hs
  · cases hs; rfl
  · split at hs <;> cases hs
    unfold init
    split
    · exact ha _ _
    · rfl
  · split at hs <;> cases hs
    exact ha _ _
  · split at hs <;> cases hs
    rename_i ok b _
    unfold offer
    split
    · dsimp only
      split
      · rw [hw]; exact hc ok s
      · exact hc ok s
    · dsimp only
      split
      · rw [hw]; exact hc ok s
      · exact hc ok s
    · exact hw b s
    · rfl
  · split at hs <;> cases hs
    unfold sent
    split <;> rfl
  · split at hs <;> cases hs
    rfl
  · split at hs <;> cases hs
    unfold callback
    dsimp only
    split <;> rfl

/-- **C107.**  Two attempts to connect are separated by more than the timeout. -/
theorem C107_attempts (tmout now : Nat) (as : List Act) (s : S) (h : run (new tmout now) as = some s) :
    s.attempts.Pairwise fun a b => a + tmout < b := by
  have : ∀ as (s t : S), Att s → run s as = some t → Att t ∧ t.tmout = s.tmout := by
    intro as
    induction as with
    | nil => intro s t h hr; cases hr; exact ⟨h, rfl⟩
    | cons a as ih =>
      intro s t h hr
      simp only [Aqua.run] at hr
      cases hs : Aqua.step s a with
      | none => rw [hs] at hr; cases hr
      | some u =>
        rw [hs] at hr
        obtain ⟨h1, h2⟩ := ih u t (h.step hs) hr
        exact ⟨h1, by rw [h2, tmout_same hs]⟩
  obtain ⟨h1, h2⟩ := this as _ s ⟨by simp [new], by simp [new]⟩ h
  have := h1.order
  rw [h2] at this
  exact this

/-- The output believes to be connected only when there is a socket. -/
def Con (s : S) : Prop := s.st = .ready ∨ s.st = .sending ∨ s.st = .complete → s.socket.isSome

theorem connect_ok (ok : Bool) (s : S) (h : (connect ok s).2 = true) : (connect ok s).1.socket.isSome := by
  unfold connect at h ⊢
  dsimp only at h ⊢
  split
  · rename_i hn; rw [if_pos hn] at h; cases h
  · rename_i hn
    rw [if_neg hn] at h
    split
    · rfl
    · rename_i h2; rw [if_neg h2] at h; cases h

theorem Con.step {s t : S} {a : Act} (h : Con s) (hi : Inv s) (h1 : ∀ ok, a ≠ .init ok) (h2 : ∀ ok, a ≠ .assigned ok)
    (hs : step s a = some t) : Con t := by
  cases a with
  | tick d => cases hs; exact h
  | init ok => exact absurd rfl (h1 ok)
  | assigned ok => exact absurd rfl (h2 ok)
  | offer ok b =>
    simp only [Aqua.step] at hs
    split at hs
    · rename_i hr
      cases hs
      have key : s.st = .disconnected ∨ s.st = .error → Con (
          let r := connect ok s
          if r.2 then Aqua.write b { r.1 with st := .ready }
          else { r.1 with counter := r.1.counter + 1, taken := r.1.taken ++ [b] }) := by
        intro hd
        dsimp only
        split
        · rename_i hc
          intro _
          have := connect_ok ok s hc
          simp [Aqua.write]
          exact this
        · obtain ⟨so, la, at_, hc⟩ := connect_same ok s
          rw [hc]
          intro hx
          rcases hd with hd | hd <;> simp [hd] at hx
      obtain ⟨h1, _, _⟩ := hi.ready hr
      rcases h1 with h1 | h1 | h1
      · have := key (.inl h1)
        unfold offer
        rw [h1]
        exact this
      · have := key (.inr h1)
        unfold offer
        rw [h1]
        exact this
      · unfold offer
        rw [h1]
        intro _
        have := h (.inl h1)
        simp [Aqua.write, h1, this]
    · cases hs
  | sent =>
    simp only [Aqua.step] at hs
    split at hs
    · rename_i hc
      cases hs
      unfold sent
      split
      · exact h
      · intro _; exact hc.1
    · cases hs
  | sockErr e =>
    simp only [Aqua.step] at hs
    split at hs
    · rename_i hc
      cases hs
      intro _; exact hc
    · cases hs
  | callback =>
    simp only [Aqua.step] at hs
    split at hs
    · cases hs
      unfold callback
      dsimp only
      split
      · intro hx
        apply h
        simp only at hx
        split at hx
        · rename_i hc; exact .inr (.inr hc)
        · exact hx
      · exact h
    · cases hs

/-- **C107** (partial: `Write_Init` did not connect, the thread is assigned once).  While the transport waits, its call-back
is queued or a packet is being sent over an existing connection. -/
theorem C107_waits_partial (tmout now d : Nat) (ok : Bool) (as : List Act) (s : S)
    (ha : ∀ a ∈ as, (∀ ok, a ≠ .init ok) ∧ ∀ ok, a ≠ .assigned ok)
    (h : run (new tmout now) (.init false :: .tick d :: .assigned ok :: as) = some s) (hw : s.tr = .wait) :
    0 < s.cb ∨ (s.socket.isSome ∧ s.cur.isSome) := by
  have hi := (inv_new tmout now).run h
  have key : ∀ as (s t : S), (∀ a ∈ as, (∀ ok, a ≠ Act.init ok) ∧ ∀ ok, a ≠ Act.assigned ok) → Con s → Inv s →
      run s as = some t → Con t := by
    intro as
    induction as with
    | nil => intro s t _ h _ hr; cases hr; exact h
    | cons a as ih =>
      intro s t ha h hi hr
      simp only [Aqua.run] at hr
      cases hs : Aqua.step s a with
      | none => rw [hs] at hr; cases hr
      | some u =>
        rw [hs] at hr
        obtain ⟨h1, h2⟩ := ha a (List.mem_cons_self ..)
        exact ih u t (fun a hx => ha a (List.mem_cons_of_mem _ hx)) (h.step hi h1 h2 hs) (hi.step hs) hr
  have hc : Con s := by
    obtain ⟨u1, e1, h1, h2⟩ : ∃ u1, init false (new tmout now) = u1 ∧ u1.taken = [] ∧ u1.st = .disconnected := by
      refine ⟨_, rfl, ?_⟩
      by_cases ht : tmout < now <;> simp [init, assigned, connect, new, ht]
    have hi1 : Inv u1 := (inv_new tmout now).step (a := .init false) (by simp [Aqua.step, new, ← e1])
    let u2 : S := { u1 with now := u1.now + d }
    have hi2 : Inv u2 := hi1.step (a := .tick d) rfl
    have hs3 : Aqua.step u2 (.assigned ok) = some (assigned ok u2) := by
      simp only [Aqua.step]
      rw [if_pos h1]
    have hi3 : Inv (assigned ok u2) := hi2.step hs3
    have hr : run (assigned ok u2) as = some s := by
      have e0 : Aqua.step (new tmout now) (.init false) = some u1 := by
        rw [← e1]
        simp [Aqua.step, new]
      simp only [run, e0, Option.bind_some] at h
      have e2 : Aqua.step u1 (.tick d) = some u2 := rfl
      simp only [e2, Option.bind_some, hs3] at h
      exact h
    refine key as _ s ha ?_ hi3 hr
    unfold assigned
    dsimp only
    split
    · rename_i hc
      intro _
      exact connect_ok ok u2 hc
    · obtain ⟨so, la, at_, hc⟩ := connect_same ok u2
      rw [hc]
      intro hx
      simp [u2, h2] at hx
  rcases hi.wait hw with ⟨h1, _, h2⟩ | ⟨_, h1, _⟩
  · exact .inr ⟨hc (.inr (.inl h1)), h2⟩
  · exact .inl (by omega)

example : ∃ s, run (new 3 10) (.init false :: .tick 5 :: .assigned true :: [.offer true 7]) = some s ∧ s.tr = .wait ∧
    s.socket = some 2 := ⟨_, rfl, by decide⟩

/-- **C107, what fails**: the server is there when the output is created.  Then `OnThreadAssigned` closes the connection
which `Write_Init` made, does not connect again because the timeout is not over, and leaves the state `oReady`.  The
first buffer waits for ever: whatever follows, nothing is sent and the transport takes no further buffer. -/
theorem C107_hang_counterexample (tmout now : Nat) (ht : tmout < now) (ok : Bool) (ok' : Bool) (b : Nat) (as : List Act) (s : S)
    (h : run (new tmout now) ([.init true, .assigned ok, .offer ok' b] ++ as) = some s) :
    s.packets = [] ∧ s.taken = [b] ∧ s.tr = .wait ∧ s.cb = 0 := by
  have e : run (new tmout now) ([.init true, .assigned ok, .offer ok' b] ++ as) =
      run { new tmout now with
        last := now, attempts := [now], st := .sending, cur := some ⟨0, 0, b, false⟩, counter := 1, tr := .wait, taken := [b] } as := by
    simp [run, step, init, assigned, connect, offer, write, new, ht]
  rw [e] at h
  have key : ∀ as (s t : S), s.packets = [] ∧ s.taken = [b] ∧ s.tr = .wait ∧ s.cb = 0 ∧ s.socket = none → run s as = some t →
      t.packets = [] ∧ t.taken = [b] ∧ t.tr = .wait ∧ t.cb = 0 ∧ t.socket = none := by
    intro as
    induction as with
    | nil => intro s t h hr; cases hr; exact h
    | cons a as ih =>
      intro s t h hr
      obtain ⟨h1, h2, h3, h4, h5⟩ := h
      cases a with
      | tick d => exact ih { s with now := s.now + d } t ⟨h1, h2, h3, h4, h5⟩ hr
      | init ok => simp [run, step, h2] at hr
      | assigned ok => simp [run, step, h2] at hr
      | offer ok b => simp [run, step, h3] at hr
      | sent => simp [run, step, h5] at hr
      | sockErr e => simp [run, step, h5] at hr
      | callback => simp [run, step, h4] at hr
  obtain ⟨h1, h2, h3, h4, _⟩ := key as _ s ⟨rfl, rfl, rfl, rfl, rfl⟩ h
  exact ⟨h1, h2, h3, h4⟩

example : (run (new 3 10) ([.init true, .assigned true, .offer true 5] ++ [.tick 100])).isSome := by decide

end Verif.Aqua
