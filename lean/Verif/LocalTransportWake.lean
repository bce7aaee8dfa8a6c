import Verif.LocalTransportLemmas

namespace Verif.LocalTransport
open Verif.BuffersQueue
variable {β : Type}

theorem steps_append {s0 s1 s : LT β} {h1 h2 : List (Rec β)} (a : Steps s0 h1 s1) (b : Steps s1 h2 s) : Steps s0 (h1 ++ h2) s := by
  induction b with
  | nil => simpa using a
  | snoc _ e ih => rw [← List.append_assoc]; exact Steps.snoc ih e

/-- Carry an invariant through a list of operations. -/
theorem run_inv {P : List (Rec β) → LT β → Prop} {ops : List (Op β)} (good : Op β → Prop)
    (hp : ∀ h s op o w s', P h s → good op → step s op = some (o, w, s') → P (h ++ [⟨op, o, w⟩]) s') :
    ∀ {h0 : List (Rec β)} {s0 h s}, P h0 s0 → (∀ op ∈ ops, good op) → run s0 ops = some (h, s) → P (h0 ++ h) s := by
  induction ops with
  | nil => intro h0 s0 h s p _ hr; simp only [run] at hr; cases hr; simpa using p
  | cons op ops ih =>
    intro h0 s0 h s p hg hr
    simp only [run, Option.bind_eq_bind, Option.bind_eq_some_iff] at hr
    obtain ⟨⟨o, w, s1⟩, e1, ⟨h1, s2⟩, e2, e3⟩ := hr
    cases e3
    have := ih (hp _ _ _ _ _ _ p (hg op (by simp)) e1) (fun x hx => hg x (by simp [hx])) e2
    rwa [List.append_assoc] at this

theorem pendingInp_snoc (h : List (Rec β)) (op o w) : pendingInp (h ++ [⟨op, o, w⟩]) = (match op with
    | .handleInp | .ignoreInp => pendingInp h - 1 | _ => pendingInp h + w.count .input) := by
  rw [pendingInp, List.foldl_append]; cases op <;> rfl

theorem pendingOut_snoc (h : List (Rec β)) (op o w) : pendingOut (h ++ [⟨op, o, w⟩]) = (match op with
    | .handleOut | .ignoreOut => pendingOut h - 1 | _ => pendingOut h + w.count .output) := by
  rw [pendingOut, List.foldl_append]; cases op <;> rfl

theorem receiverWaits_snoc (h : List (Rec β)) (op o w) : receiverWaits (h ++ [⟨op, o, w⟩]) = (match op, o with
    | .recv, .got b => b.isNone
    | .canRecv, .num n => n == 0
    | .handleInp, _ => false
    | _, _ => receiverWaits h) := by
  rw [receiverWaits, List.foldl_append]; cases op <;> cases o <;> rfl

theorem senderWaits_snoc (h : List (Rec β)) (op o w) : senderWaits (h ++ [⟨op, o, w⟩]) = (match op, o with
    | .canSend, .num n => n == 0
    | .send (some _), _ => false
    | .handleOut, _ => false
    | _, _ => senderWaits h) := by
  rw [senderWaits, List.foldl_append]
  cases op with
  | send b => cases b <;> cases o <;> rfl
  | _ => cases o <;> rfl

/-- What `Send` does, in terms of sizes. -/
theorem send_cases {cap} {h : List (Rec β)} {s s' : LT β} {b k w} (d : Data cap h s) (hs : send s (some b) = some (k, w, s')) :
    ∃ q : BQ β, (w, s') = sendTail { s with queue := q } ∧ q.cap = s.queue.cap ∧ 0 < q.size ∧ s.queue.size ≤ q.size := by
  have h1 := d.rep.len
  rcases hf : full s with _ | _
  · obtain ⟨q, e1, e2, e3⟩ := send_room d.rep b hf
    rw [e1, Option.some.injEq, Prod.mk.injEq] at hs
    have := e2.len
    simp only [List.length_map, List.length_append, List.length_singleton] at this h1
    exact ⟨q, hs.2.symm, e3, by omega, by omega⟩
  · rcases hb : blocking s with _ | _
    · obtain ⟨a, l, q, e0, e1, e2, e3⟩ := send_skip d.rep b hf hb
      rw [e1, Option.some.injEq, Prod.mk.injEq] at hs
      have := e2.len
      rw [e0] at h1
      simp only [List.length_map, List.length_append, List.length_singleton, List.length_cons] at this h1
      exact ⟨q, hs.2.symm, e3, by omega, by omega⟩
    · rw [send_block b hf hb] at hs; cases hs

/-- What `Recv` does, in terms of sizes. -/
theorem recv_cases {cap} {h : List (Rec β)} {s s' : LT β} {b w} (d : Data cap h s) (hs : recv s = some (b, w, s')) :
    ∃ q : BQ β, (w, s') = recvTail { s with queue := q } ∧ q.cap = s.queue.cap ∧ q.size = s.queue.size - 1 ∧
      (b = none ↔ s.queue.size = 0) := by
  have h1 := d.rep.len
  have hr := d.rep
  rcases hw : waiting h with _ | ⟨a, l⟩
  · rw [hw] at hr h1
    rw [recv_nil hr] at hs
    cases hs
    simp only [List.map_nil, List.length_nil] at h1
    exact ⟨s.queue, rfl, rfl, by omega, by simp [← h1]⟩
  · rw [hw] at hr h1
    obtain ⟨q, e1, e2, e3⟩ := recv_cons hr
    rw [e1] at hs
    cases hs
    have := e2.len
    simp only [List.map_cons, List.length_cons, List.length_map] at this h1
    exact ⟨q, rfl, e3, by omega, by simp; omega⟩

/-! ### receiver -/

/-- Receiver connected but not yet started. -/
structure InpIdle (k : Kind) (h : List (Rec β)) (s : LT β) : Prop where
  set : s.inpSet = true
  conn : s.connInp = true
  kind : s.inpKind = k
  rng : s.signalInp = 1 ∨ s.signalInp = 2 ∨ s.signalInp = 3
  conf : s.signalInp = 1 → k = .confirm
  sig : s.signalInp ≠ 3 → 0 < s.queue.size
  look : receiverWaits h = false

/-- Receiver runs. -/
structure InpInv (k : Kind) (h : List (Rec β)) (s : LT β) : Prop where
  set : s.inpSet = true
  conn : s.connInp = true
  kind : s.inpKind = k
  rng : s.signalInp = 1 ∨ s.signalInp = 2 ∨ s.signalInp = 3
  conf : s.signalInp = 1 → k = .confirm
  one : s.signalInp = 1 → 0 < pendingInp h
  two : s.signalInp = 2 → 0 < s.queue.size
  wait : receiverWaits h = true → 0 < s.queue.size → 0 < pendingInp h

theorem InpInv.same {k} {h : List (Rec β)} {s s' : LT β} {r} (i : InpInv k h s) (h1 : s'.inpSet = s.inpSet) (h2 : s'.connInp = s.connInp)
    (h3 : s'.inpKind = s.inpKind) (h4 : s'.signalInp = s.signalInp) (h5 : s'.queue.size = s.queue.size)
    (h6 : pendingInp h ≤ pendingInp (h ++ [r])) (h7 : receiverWaits (h ++ [r]) = true → receiverWaits h = true ∨ s.queue.size = 0) : InpInv k (h ++ [r]) s' := by
  refine ⟨h1.trans i.set, h2.trans i.conn, h3.trans i.kind, by rw [h4]; exact i.rng, by rw [h4]; exact i.conf, ?_, ?_, ?_⟩
  · intro h; have := i.one (by rw [← h4]; exact h); omega
  · intro h; rw [h5]; exact i.two (by rw [← h4]; exact h)
  · intro h g
    rw [h5] at g
    rcases h7 h with h | h
    · have := i.wait h g; omega
    · omega

theorem inp_step {cap k} (hk : k = .confirm ∨ k = .operation) {h : List (Rec β)} {s s' : LT β} {op o w} (d : Data cap h s) (i : InpInv k h s)
    (hg : keepsInp op = true) (hs : step s op = some (o, w, s')) : InpInv k (h ++ [⟨op, o, w⟩]) s' := by
  cases op with
  | send b =>
    cases b with
    | none =>
      simp only [step, send, Option.bind_eq_bind, Option.bind_some, Option.some.injEq, Prod.mk.injEq] at hs
      obtain ⟨rfl, rfl, rfl⟩ := hs
      exact i.same rfl rfl rfl rfl rfl (by rw [pendingInp_snoc]; exact Nat.le_add_right _ _) (by rw [receiverWaits_snoc]; exact Or.inl)
    | some b =>
      simp only [step, Option.bind_eq_bind, Option.bind_eq_some_iff] at hs
      obtain ⟨⟨k', w', s''⟩, e, hs⟩ := hs
      cases hs
      obtain ⟨q, e1, e2, e3, e4⟩ := send_cases d e
      rw [sendTail] at e1
      dsimp only at e1
      rw [if_pos i.conn, Prod.mk.injEq] at e1
      obtain ⟨rfl, rfl⟩ := e1
      by_cases h3 : s.signalInp = 3
      · have hsig : signal s.inpKind s.signalInp = (if k = .confirm then 1 else 2, true) := by
          rw [i.kind, h3]; rcases hk with rfl | rfl <;> rfl
        have hp : 0 < pendingInp (h ++ [⟨.send (some b), .sent k', if (signal s.inpKind s.signalInp).2 && s.inpSet then [Wake.input] else []⟩]) := by
          rw [pendingInp_snoc, hsig, i.set]; simp
        refine ⟨i.set, i.conn, i.kind, ?_, ?_, fun _ => hp, fun _ => e3, fun _ _ => hp⟩
        rotate_left
        · show (signal s.inpKind s.signalInp).1 = 1 → _
          rw [hsig]
          dsimp only
          split
          · intro _; assumption
          · intro h; omega
        show (signal s.inpKind s.signalInp).1 = 1 ∨ (signal s.inpKind s.signalInp).1 = 2 ∨ _
        rw [hsig]
        dsimp only
        split
        · exact Or.inl rfl
        · exact Or.inr (Or.inl rfl)
      · have hsig : signal s.inpKind s.signalInp = (s.signalInp, false) := by
          rw [i.kind]; rcases hk with rfl | rfl <;> simp [signal, h3]
        have hp : pendingInp h ≤ pendingInp (h ++ [⟨.send (some b), .sent k', if (signal s.inpKind s.signalInp).2 && s.inpSet then [Wake.input] else []⟩]) := by
          rw [pendingInp_snoc]; exact Nat.le_add_right _ _
        refine ⟨i.set, i.conn, i.kind, ?_, ?_, fun h1 => ?_, fun _ => e3, fun h1 _ => ?_⟩
        rotate_left
        · show (signal s.inpKind s.signalInp).1 = 1 → _
          rw [hsig]; exact i.conf
        rotate_left 2
        · show (signal s.inpKind s.signalInp).1 = 1 ∨ (signal s.inpKind s.signalInp).1 = 2 ∨ (signal s.inpKind s.signalInp).1 = 3
          rw [hsig]; exact i.rng
        · have h1 : (signal s.inpKind s.signalInp).1 = 1 := h1
          rw [hsig] at h1
          exact Nat.lt_of_lt_of_le (i.one h1) hp
        · rw [receiverWaits_snoc] at h1
          have h1 : receiverWaits h = true := h1
          rcases i.rng with h4 | h4 | h4
          · exact Nat.lt_of_lt_of_le (i.one h4) hp
          · exact Nat.lt_of_lt_of_le (i.wait h1 (i.two h4)) hp
          · exact absurd h4 h3
  | recv =>
    simp only [step, Option.bind_eq_bind, Option.bind_eq_some_iff] at hs
    obtain ⟨⟨b, w', s''⟩, e, hs⟩ := hs
    cases hs
    obtain ⟨q, e1, e2, e3, e4⟩ := recv_cases d e
    rw [recvTail, Prod.mk.injEq] at e1
    obtain ⟨rfl, rfl⟩ := e1
    refine ⟨i.set, i.conn, i.kind, ?_, ?_, ?_, ?_, ?_⟩
    rotate_left
    · show (if s.signalInp = 2 then 3 else s.signalInp) = 1 → _
      intro h1
      exact i.conf (by split at h1 <;> omega)
    rotate_left 3
    · show (if s.signalInp = 2 then 3 else s.signalInp) = 1 ∨ (if s.signalInp = 2 then 3 else s.signalInp) = 2 ∨ (if s.signalInp = 2 then 3 else s.signalInp) = 3
      have := i.rng
      split <;> omega
    · intro h1
      have h1 : (if s.signalInp = 2 then 3 else s.signalInp) = 1 := h1
      have h2 : s.signalInp = 1 := by split at h1 <;> omega
      rw [pendingInp_snoc]
      have := i.one h2
      dsimp only; omega
    · intro h1
      have h1 : (if s.signalInp = 2 then 3 else s.signalInp) = 2 := h1
      split at h1 <;> omega
    · intro h1 h2
      rw [receiverWaits_snoc] at h1
      have h2 : 0 < q.size := h2
      have h1 : b = none := by simpa using h1
      have := e4.1 h1
      omega
  | canRecv =>
    simp only [step, Option.some.injEq, Prod.mk.injEq] at hs
    obtain ⟨rfl, rfl, rfl⟩ := hs
    refine i.same rfl rfl rfl rfl rfl (by rw [pendingInp_snoc]; exact Nat.le_add_right _ _) ?_
    rw [receiverWaits_snoc]
    intro h1
    exact Or.inr (by simpa using h1)
  | signalWhenFull =>
    simp only [step, Option.some.injEq, Prod.mk.injEq] at hs
    obtain ⟨rfl, rfl, rfl⟩ := hs
    by_cases hf : full s = true
    · rw [signalWhenFull, if_pos hf]
      exact i.same rfl rfl rfl rfl rfl (by rw [pendingInp_snoc]; exact Nat.le_add_right _ _) (by rw [receiverWaits_snoc]; exact Or.inl)
    · rw [signalWhenFull, if_neg hf]
      have hp : pendingInp h ≤ pendingInp (h ++ [⟨.signalWhenFull, .done, (recvTail s).1⟩]) := by
        rw [pendingInp_snoc]; exact Nat.le_add_right _ _
      refine ⟨i.set, i.conn, i.kind, ?_, ?_, ?_, ?_, ?_⟩
      rotate_left
      · show (if s.signalInp = 2 then 3 else s.signalInp) = 1 → _
        intro h1
        exact i.conf (by split at h1 <;> omega)
      rotate_left 3
      · show (if s.signalInp = 2 then 3 else s.signalInp) = 1 ∨ (if s.signalInp = 2 then 3 else s.signalInp) = 2 ∨ (if s.signalInp = 2 then 3 else s.signalInp) = 3
        have := i.rng
        split <;> omega
      · intro h1
        have h1 : (if s.signalInp = 2 then 3 else s.signalInp) = 1 := h1
        have h2 : s.signalInp = 1 := by split at h1 <;> omega
        have := i.one h2
        omega
      · intro h1
        have h1 : (if s.signalInp = 2 then 3 else s.signalInp) = 2 := h1
        split at h1 <;> omega
      · intro h1 h2
        rw [receiverWaits_snoc] at h1
        have := i.wait h1 h2
        omega
  | handleInp =>
    simp only [step, Option.some.injEq, Prod.mk.injEq] at hs
    obtain ⟨rfl, rfl, rfl⟩ := hs
    have hw : receiverWaits (h ++ [⟨.handleInp, .done, []⟩]) = false := by rw [receiverWaits_snoc]
    rcases hk with rfl | rfl
    · rw [if_pos i.kind, confirm, if_neg (by decide)]
      refine ⟨i.set, i.conn, i.kind, ?_, fun _ => rfl, ?_, ?_, fun h1 => by rw [hw] at h1; cases h1⟩
      · show (if empty s then 3 else 2) = 1 ∨ (if empty s then 3 else 2) = 2 ∨ (if empty s then 3 else 2) = 3
        split <;> simp
      · intro h1
        have h1 : (if empty s then 3 else 2) = 1 := h1
        split at h1 <;> omega
      · intro h1
        have h1 : (if empty s then 3 else 2) = 2 := h1
        show 0 < s.queue.size
        have : ¬ empty s = true := by intro h2; rw [if_pos h2] at h1; omega
        rw [empty, beq_iff_eq] at this
        omega
    · have hn : ¬ s.inpKind = .confirm := by rw [i.kind]; decide
      rw [if_neg hn]
      have hc : s.signalInp ≠ 1 := fun h1 => by have := i.conf h1; cases this
      exact ⟨i.set, i.conn, i.kind, i.rng, i.conf, fun h1 => absurd h1 hc, i.two, fun h1 => by rw [hw] at h1; cases h1⟩
  | disconnect j =>
    cases j with
    | true => cases hg
    | false =>
      have hq : disconnect s false = some ([], (detach s false).1, (detach s false).2) := by
        rw [disconnect]; dsimp only
        rw [if_neg]
        have : (detach s false).2.connInp = true := i.conn
        simp [this]
      rw [step, hq] at hs
      simp only [Option.bind_eq_bind, Option.bind_some, Option.some.injEq, Prod.mk.injEq] at hs
      obtain ⟨rfl, rfl, rfl⟩ := hs
      exact i.same rfl rfl rfl rfl rfl (by rw [pendingInp_snoc]; exact Nat.le_add_right _ _) (by rw [receiverWaits_snoc]; exact Or.inl)
  | handleOut =>
    simp only [step, Option.some.injEq, Prod.mk.injEq] at hs
    obtain ⟨rfl, rfl, rfl⟩ := hs
    split
    all_goals exact i.same rfl rfl rfl rfl rfl (by rw [pendingInp_snoc]; exact Nat.le_add_right _ _) (by rw [receiverWaits_snoc]; exact Or.inl)
  | setConnected j =>
    simp only [step, Option.some.injEq, Prod.mk.injEq] at hs
    obtain ⟨rfl, rfl, rfl⟩ := hs
    cases j
    · exact i.same rfl rfl rfl rfl rfl (by rw [pendingInp_snoc]; exact Nat.le_add_right _ _) (by rw [receiverWaits_snoc]; exact Or.inl)
    · exact i.same rfl i.conn.symm rfl rfl rfl (by rw [pendingInp_snoc]; exact Nat.le_add_right _ _) (by rw [receiverWaits_snoc]; exact Or.inl)
  | assignInp _ => cases hg
  | ignoreInp => cases hg
  | _ =>
    simp only [step, Option.some.injEq, Prod.mk.injEq] at hs
    obtain ⟨rfl, rfl, rfl⟩ := hs
    exact i.same rfl rfl rfl rfl rfl (by rw [pendingInp_snoc]; exact Nat.le_add_right _ _) (by rw [receiverWaits_snoc]; exact Or.inl)

/-- Receiver not connected. -/
structure InpOff (h : List (Rec β)) (s : LT β) : Prop where
  conn : s.connInp = false
  sig : s.signalInp = 3
  look : receiverWaits h = false

theorem inp_off_step {cap} {h : List (Rec β)} {s s' : LT β} {op o w} (d : Data cap h s) (i : InpOff h s)
    (hg : inpSide op = false) (hs : step s op = some (o, w, s')) :
    InpOff (h ++ [⟨op, o, w⟩]) s' ∧ s'.inpSet = s.inpSet ∧ s'.inpKind = s.inpKind := by
  have hl : ∀ {op : Op β} {o w}, inpSide op = false → receiverWaits (h ++ [⟨op, o, w⟩]) = false := by
    intro op o w hg
    rw [receiverWaits_snoc]
    cases op <;> first | exact i.look | cases hg
  cases op with
  | send b =>
    cases b with
    | none =>
      simp only [step, send, Option.bind_eq_bind, Option.bind_some, Option.some.injEq, Prod.mk.injEq] at hs
      obtain ⟨rfl, rfl, rfl⟩ := hs
      exact ⟨⟨i.conn, i.sig, hl rfl⟩, rfl, rfl⟩
    | some b =>
      simp only [step, Option.bind_eq_bind, Option.bind_eq_some_iff] at hs
      obtain ⟨⟨k', w', s''⟩, e, hs⟩ := hs
      cases hs
      obtain ⟨q, e1, -, -, -⟩ := send_cases d e
      rw [sendTail] at e1
      dsimp only at e1
      rw [if_neg (by rw [i.conn]; decide), Prod.mk.injEq] at e1
      obtain ⟨rfl, rfl⟩ := e1
      exact ⟨⟨i.conn, i.sig, hl rfl⟩, rfl, rfl⟩
  | disconnect j =>
    cases j with
    | true => cases hg
    | false =>
      obtain ⟨bs, q, e1, e2, e3⟩ := disconnect_spec d.rep false
      rw [step, e1] at hs
      simp only [Option.bind_eq_bind, Option.bind_some, Option.some.injEq, Prod.mk.injEq] at hs
      obtain ⟨rfl, rfl, rfl⟩ := hs
      exact ⟨⟨i.conn, i.sig, hl rfl⟩, rfl, rfl⟩
  | handleOut =>
    simp only [step, Option.some.injEq, Prod.mk.injEq] at hs
    obtain ⟨rfl, rfl, rfl⟩ := hs
    split <;> exact ⟨⟨i.conn, i.sig, hl rfl⟩, rfl, rfl⟩
  | setConnected j =>
    cases j with
    | true => cases hg
    | false =>
      simp only [step, Option.some.injEq, Prod.mk.injEq] at hs
      obtain ⟨rfl, rfl, rfl⟩ := hs
      exact ⟨⟨i.conn, i.sig, hl rfl⟩, rfl, rfl⟩
  | recv => cases hg
  | canRecv => cases hg
  | signalWhenFull => cases hg
  | handleInp => cases hg
  | ignoreInp => cases hg
  | startInp => cases hg
  | assignInp _ => cases hg
  | _ =>
    simp only [step, Option.some.injEq, Prod.mk.injEq] at hs
    obtain ⟨rfl, rfl, rfl⟩ := hs
    exact ⟨⟨i.conn, i.sig, hl rfl⟩, rfl, rfl⟩

theorem inp_idle_step {cap k} (hk : k = .confirm ∨ k = .operation) {h : List (Rec β)} {s s' : LT β} {op o w} (d : Data cap h s) (i : InpIdle k h s)
    (hg : inpSide op = false ∨ isIgnoreInp op = true) (hs : step s op = some (o, w, s')) : InpIdle k (h ++ [⟨op, o, w⟩]) s' := by
  have hl : receiverWaits (h ++ [⟨op, o, w⟩]) = false := by
    rw [receiverWaits_snoc]
    cases op <;> first | exact i.look | (rcases hg with hg | hg <;> cases hg)
  have same : ∀ {s' : LT β}, s'.inpSet = s.inpSet → s'.connInp = s.connInp → s'.inpKind = s.inpKind → s'.signalInp = s.signalInp →
      s'.queue.size = s.queue.size → InpIdle k (h ++ [⟨op, o, w⟩]) s' := by
    intro s' h1 h2 h3 h4 h5
    exact ⟨h1.trans i.set, h2.trans i.conn, h3.trans i.kind, by rw [h4]; exact i.rng, by rw [h4]; exact i.conf, by rw [h4, h5]; exact i.sig, hl⟩
  cases op with
  | send b =>
    cases b with
    | none =>
      simp only [step, send, Option.bind_eq_bind, Option.bind_some, Option.some.injEq, Prod.mk.injEq] at hs
      obtain ⟨-, -, rfl⟩ := hs
      exact same rfl rfl rfl rfl rfl
    | some b =>
      simp only [step, Option.bind_eq_bind, Option.bind_eq_some_iff] at hs
      obtain ⟨⟨k', w', s''⟩, e, hs⟩ := hs
      simp only [Option.some.injEq, Prod.mk.injEq] at hs
      obtain ⟨-, -, rfl⟩ := hs
      obtain ⟨q, e1, e2, e3, e4⟩ := send_cases d e
      rw [sendTail] at e1
      dsimp only at e1
      rw [if_pos i.conn, Prod.mk.injEq] at e1
      obtain ⟨-, rfl⟩ := e1
      by_cases h3 : s.signalInp = 3
      · have hsig : signal s.inpKind s.signalInp = (if k = .confirm then 1 else 2, true) := by
          rw [i.kind, h3]; rcases hk with rfl | rfl <;> rfl
        refine ⟨i.set, i.conn, i.kind, ?_, ?_, fun _ => e3, hl⟩
        · show (signal s.inpKind s.signalInp).1 = 1 ∨ (signal s.inpKind s.signalInp).1 = 2 ∨ _
          rw [hsig]; dsimp only
          split
          · exact Or.inl rfl
          · exact Or.inr (Or.inl rfl)
        · show (signal s.inpKind s.signalInp).1 = 1 → _
          rw [hsig]; dsimp only
          split
          · intro _; assumption
          · intro h; omega
      · have hsig : signal s.inpKind s.signalInp = (s.signalInp, false) := by
          rw [i.kind]; rcases hk with rfl | rfl <;> simp [signal, h3]
        refine ⟨i.set, i.conn, i.kind, ?_, ?_, fun _ => e3, hl⟩
        · show (signal s.inpKind s.signalInp).1 = 1 ∨ (signal s.inpKind s.signalInp).1 = 2 ∨ (signal s.inpKind s.signalInp).1 = 3
          rw [hsig]; exact i.rng
        · show (signal s.inpKind s.signalInp).1 = 1 → _
          rw [hsig]; exact i.conf
  | disconnect j =>
    cases j with
    | true => rcases hg with hg | hg <;> cases hg
    | false =>
      have hq : disconnect s false = some ([], (detach s false).1, (detach s false).2) := by
        rw [disconnect]; dsimp only
        rw [if_neg]
        have : (detach s false).2.connInp = true := i.conn
        simp [this]
      rw [step, hq] at hs
      simp only [Option.bind_eq_bind, Option.bind_some, Option.some.injEq, Prod.mk.injEq] at hs
      obtain ⟨-, -, rfl⟩ := hs
      exact same rfl rfl rfl rfl rfl
  | handleOut =>
    simp only [step, Option.some.injEq, Prod.mk.injEq] at hs
    obtain ⟨-, -, rfl⟩ := hs
    split <;> exact same rfl rfl rfl rfl rfl
  | setConnected j =>
    cases j with
    | true => rcases hg with hg | hg <;> cases hg
    | false =>
      simp only [step, Option.some.injEq, Prod.mk.injEq] at hs
      obtain ⟨-, -, rfl⟩ := hs
      exact same rfl rfl rfl rfl rfl
  | recv => rcases hg with hg | hg <;> cases hg
  | canRecv => rcases hg with hg | hg <;> cases hg
  | signalWhenFull => rcases hg with hg | hg <;> cases hg
  | handleInp => rcases hg with hg | hg <;> cases hg
  | startInp => rcases hg with hg | hg <;> cases hg
  | assignInp _ => rcases hg with hg | hg <;> cases hg
  | _ =>
    simp only [step, Option.some.injEq, Prod.mk.injEq] at hs
    obtain ⟨-, -, rfl⟩ := hs
    exact same rfl rfl rfl rfl rfl

theorem inp_start {cap k} (hk : k = .confirm ∨ k = .operation) {h : List (Rec β)} {s s' : LT β} {o w} (i : InpIdle k h s)
    (d : Data cap h s) (hs : step s .startInp = some (o, w, s')) : InpInv k (h ++ [⟨.startInp, o, w⟩]) s' := by
  simp only [step, Option.some.injEq, Prod.mk.injEq] at hs
  obtain ⟨rfl, rfl, rfl⟩ := hs
  have hp : 0 < s.queue.size → 0 < pendingInp (h ++ [⟨.startInp, .done, List.replicate (inpStart s) Wake.input⟩]) := by
    intro h1
    rw [pendingInp_snoc]
    dsimp only
    have : inpStart s = 1 := by
      have he : empty s = false := by simp [empty]; omega
      rw [inpStart, i.kind]
      rcases hk with rfl | rfl <;> simp [he]
    rw [this]
    simp
  refine ⟨i.set, i.conn, i.kind, i.rng, i.conf, fun h1 => hp (i.sig (by omega)), fun h1 => i.sig (by omega), fun _ h1 => hp h1⟩

theorem receiver_life {cap k} (hc : 0 < cap) (hk : k = .confirm ∨ k = .operation) {ops : List (Op β)} {h s}
    (hl : ReceiverLife k ops) (hr : run (create cap) ops = some (h, s)) : Data cap h s ∧ InpInv k h s := by
  obtain ⟨a, b, c, e, rfl, ha, hb, hcc, he⟩ := hl
  rw [run_append] at hr
  simp only [Option.bind_eq_some_iff, Option.map_eq_some_iff] at hr
  obtain ⟨⟨h1, s1⟩, r1, ⟨h2, s2⟩, r2, hr⟩ := hr
  cases hr
  have p1 : Data cap h1 s1 ∧ InpOff h1 s1 := by
    have := run_inv (P := fun h s => Data cap h s ∧ InpOff h s) (fun op => inpSide op = false)
      (fun h s op o w s' p g hs => ⟨data_step p.1 hs, (inp_off_step p.1 p.2 g hs).1⟩)
      (h0 := []) (s0 := create cap) ⟨data_init hc, rfl, rfl, rfl⟩ ha r1
    simpa using this
  simp only [run, Option.bind_eq_bind, Option.bind_eq_some_iff] at r2
  obtain ⟨⟨o1, w1, t1⟩, e1, ⟨h3, s3⟩, r2, hr⟩ := r2
  cases hr
  have d1 := data_step p1.1 e1
  have p2 : InpOff (h1 ++ [⟨.assignInp k, o1, w1⟩]) t1 ∧ t1.inpSet = true ∧ t1.inpKind = k := by
    simp only [step, Option.some.injEq, Prod.mk.injEq] at e1
    obtain ⟨-, -, rfl⟩ := e1
    exact ⟨⟨p1.2.conn, p1.2.sig, by rw [receiverWaits_snoc]; exact p1.2.look⟩, rfl, rfl⟩
  rw [run_append] at r2
  simp only [Option.bind_eq_some_iff, Option.map_eq_some_iff] at r2
  obtain ⟨⟨h4, s4⟩, r3, ⟨h5, s5⟩, r4, hr⟩ := r2
  cases hr
  have p3 := run_inv (P := fun h s => Data cap h s ∧ InpOff h s ∧ s.inpSet = true ∧ s.inpKind = k) (fun op => inpSide op = false)
    (fun h s op o w s' p g hs => by
      obtain ⟨g1, g2, g3⟩ := inp_off_step p.1 p.2.1 g hs
      exact ⟨data_step p.1 hs, g1, g2.trans p.2.2.1, g3.trans p.2.2.2⟩) ⟨d1, p2⟩ hb r3
  simp only [run, Option.bind_eq_bind, Option.bind_eq_some_iff] at r4
  obtain ⟨⟨o2, w2, t2⟩, e2, ⟨h6, s6⟩, r5, hr⟩ := r4
  cases hr
  have d2 := data_step p3.1 e2
  have p4 : InpIdle k (h1 ++ [⟨.assignInp k, o1, w1⟩] ++ h4 ++ [⟨.setConnected true, o2, w2⟩]) t2 := by
    simp only [step, Option.some.injEq, Prod.mk.injEq] at e2
    obtain ⟨-, -, rfl⟩ := e2
    rw [if_pos trivial]
    have hs3 := p3.2.1.sig
    exact ⟨p3.2.2.1, rfl, p3.2.2.2, Or.inr (Or.inr hs3), fun h => (by rw [hs3] at h; cases h), fun h => absurd hs3 h, by rw [receiverWaits_snoc]; exact p3.2.1.look⟩
  rw [run_append] at r5
  simp only [Option.bind_eq_some_iff, Option.map_eq_some_iff] at r5
  obtain ⟨⟨h7, s7⟩, r6, ⟨h8, s8⟩, r7, hr⟩ := r5
  cases hr
  have p5 := run_inv (P := fun h s => Data cap h s ∧ InpIdle k h s) (fun op => inpSide op = false ∨ isIgnoreInp op = true)
    (fun h s op o w s' p g hs => ⟨data_step p.1 hs, inp_idle_step hk p.1 p.2 g hs⟩) ⟨d2, p4⟩ hcc r6
  simp only [run, Option.bind_eq_bind, Option.bind_eq_some_iff] at r7
  obtain ⟨⟨o3, w3, t3⟩, e3, ⟨h9, s9⟩, r8, hr⟩ := r7
  cases hr
  have p6 := run_inv (P := fun h s => Data cap h s ∧ InpInv k h s) (fun op => keepsInp op = true)
    (fun h s op o w s' p g hs => ⟨data_step p.1 hs, inp_step hk p.1 p.2 g hs⟩)
    ⟨data_step p5.1 e3, inp_start hk p5.2 p5.1 e3⟩ he r8
  simpa [List.append_assoc] using p6

/-! ### sender -/

/-- Sender not started, so nothing was sent. -/
structure OutOff (h : List (Rec β)) (s : LT β) : Prop where
  size : s.queue.size = 0
  rng : s.signalOut = 1 ∨ s.signalOut = 2 ∨ s.signalOut = 3
  conf : s.signalOut = 1 → s.outKind = .confirm
  off : s.outKind = .none → s.signalOut = 3
  look : senderWaits h = false

/-- Sender runs. -/
structure OutInv (k : Kind) (h : List (Rec β)) (s : LT β) : Prop where
  set : s.outSet = true
  conn : s.connOut = true
  kind : s.outKind = k
  rng : s.signalOut = 1 ∨ s.signalOut = 2 ∨ s.signalOut = 3
  conf : s.signalOut = 1 → k = .confirm
  one : s.signalOut = 1 → 0 < pendingOut h
  two : s.signalOut = 2 → s.queue.size < s.queue.cap
  wait : senderWaits h = true → s.queue.size < s.queue.cap → 0 < pendingOut h

theorem OutInv.same {k} {h : List (Rec β)} {s s' : LT β} {r} (i : OutInv k h s) (h1 : s'.outSet = s.outSet) (h2 : s'.connOut = s.connOut)
    (h3 : s'.outKind = s.outKind) (h4 : s'.signalOut = s.signalOut) (h5 : s'.queue = s.queue)
    (h6 : pendingOut h ≤ pendingOut (h ++ [r])) (h7 : senderWaits (h ++ [r]) = true → senderWaits h = true ∨ ¬ s.queue.size < s.queue.cap) : OutInv k (h ++ [r]) s' := by
  refine ⟨h1.trans i.set, h2.trans i.conn, h3.trans i.kind, by rw [h4]; exact i.rng, by rw [h4]; exact i.conf, ?_, ?_, ?_⟩
  · intro h; have := i.one (by rw [← h4]; exact h); omega
  · intro h; rw [h5]; exact i.two (by rw [← h4]; exact h)
  · intro h g
    rw [h5] at g
    rcases h7 h with h | h
    · have := i.wait h g; omega
    · omega

/-- The common end of `Recv` and `SignalWhenFull`. -/
theorem out_recvTail {k} (hk : k = .confirm ∨ k = .operation) {h : List (Rec β)} {s : LT β} {q : BQ β} {op o} (i : OutInv k h s)
    (hlt : q.size < q.cap)
    (hp : pendingOut (h ++ [⟨op, o, (recvTail { s with queue := q }).1⟩]) = pendingOut h + (recvTail { s with queue := q }).1.count .output)
    (hl : senderWaits (h ++ [⟨op, o, (recvTail { s with queue := q }).1⟩]) = senderWaits h) :
    OutInv k (h ++ [⟨op, o, (recvTail { s with queue := q }).1⟩]) (recvTail { s with queue := q }).2 := by
  by_cases h3 : s.signalOut = 3
  · have hsig : signal s.outKind s.signalOut = (if k = .confirm then 1 else 2, true) := by
      rw [i.kind, h3]; rcases hk with rfl | rfl <;> rfl
    have hw' : (recvTail { s with queue := q }).1 = [Wake.output] := by
      rw [recvTail]; dsimp only; rw [hsig, i.set]; rfl
    have hpos : 0 < pendingOut (h ++ [⟨op, o, (recvTail { s with queue := q }).1⟩]) := by
      rw [hp, hw']; simp
    refine ⟨i.set, i.conn, i.kind, ?_, ?_, fun _ => hpos, fun _ => hlt, fun _ _ => hpos⟩
    · show (signal s.outKind s.signalOut).1 = 1 ∨ (signal s.outKind s.signalOut).1 = 2 ∨ _
      rw [hsig]; dsimp only
      split
      · exact Or.inl rfl
      · exact Or.inr (Or.inl rfl)
    · show (signal s.outKind s.signalOut).1 = 1 → _
      rw [hsig]; dsimp only
      split
      · intro _; assumption
      · intro h; omega
  · have hsig : signal s.outKind s.signalOut = (s.signalOut, false) := by
      rw [i.kind]; rcases hk with rfl | rfl <;> simp [signal, h3]
    have hpos : pendingOut h ≤ pendingOut (h ++ [⟨op, o, (recvTail { s with queue := q }).1⟩]) := by
      rw [hp]; exact Nat.le_add_right _ _
    refine ⟨i.set, i.conn, i.kind, ?_, ?_, ?_, fun _ => hlt, ?_⟩
    · show (signal s.outKind s.signalOut).1 = 1 ∨ (signal s.outKind s.signalOut).1 = 2 ∨ (signal s.outKind s.signalOut).1 = 3
      rw [hsig]; exact i.rng
    · show (signal s.outKind s.signalOut).1 = 1 → _
      rw [hsig]; exact i.conf
    · show (signal s.outKind s.signalOut).1 = 1 → _
      rw [hsig]
      intro h1
      exact Nat.lt_of_lt_of_le (i.one h1) hpos
    · intro h1 _
      rw [hl] at h1
      rcases i.rng with h4 | h4 | h4
      · exact Nat.lt_of_lt_of_le (i.one h4) hpos
      · exact Nat.lt_of_lt_of_le (i.wait h1 (i.two h4)) hpos
      · exact absurd h4 h3

theorem out_step {cap k} (hc : 0 < cap) (hk : k = .confirm ∨ k = .operation) {h : List (Rec β)} {s s' : LT β} {op o w} (d : Data cap h s) (i : OutInv k h s)
    (hg : keepsOut op = true) (hs : step s op = some (o, w, s')) : OutInv k (h ++ [⟨op, o, w⟩]) s' := by
  have hle := d.rep.le
  have hcap := d.size
  cases op with
  | send b =>
    cases b with
    | none =>
      simp only [step, send, Option.bind_eq_bind, Option.bind_some, Option.some.injEq, Prod.mk.injEq] at hs
      obtain ⟨rfl, rfl, rfl⟩ := hs
      exact i.same rfl rfl rfl rfl rfl (by rw [pendingOut_snoc]; exact Nat.le_add_right _ _) (by rw [senderWaits_snoc]; exact Or.inl)
    | some b =>
      simp only [step, Option.bind_eq_bind, Option.bind_eq_some_iff] at hs
      obtain ⟨⟨k', w', s''⟩, e, hs⟩ := hs
      cases hs
      obtain ⟨q, e1, e2, e3, e4⟩ := send_cases d e
      have t : ∀ t : LT β, (sendTail t).2.outSet = t.outSet ∧ (sendTail t).2.connOut = t.connOut ∧ (sendTail t).2.outKind = t.outKind ∧
          (sendTail t).2.signalOut = (if t.signalOut = 2 then 3 else t.signalOut) := by
        intro t; rw [sendTail]; dsimp only; split <;> exact ⟨rfl, rfl, rfl, rfl⟩
      obtain ⟨t1, t2, t3, t4⟩ := t { s with queue := q }
      have hp : pendingOut h ≤ pendingOut (h ++ [⟨.send (some b), .sent k', w'⟩]) := by
        rw [pendingOut_snoc]; exact Nat.le_add_right _ _
      rw [← e1] at t1 t2 t3 t4
      dsimp only at t1 t2 t3 t4 ⊢
      refine ⟨t1.trans i.set, t2.trans i.conn, t3.trans i.kind, ?_, ?_, ?_, ?_, ?_⟩
      · rw [t4]; have := i.rng; split <;> omega
      · rw [t4]; intro h1; exact i.conf (by split at h1 <;> omega)
      · rw [t4]; intro h1; exact Nat.lt_of_lt_of_le (i.one (by split at h1 <;> omega)) hp
      · rw [t4]; intro h1; split at h1 <;> omega
      · rw [senderWaits_snoc]; intro h1; cases h1
  | canSend =>
    simp only [step, Option.some.injEq, Prod.mk.injEq] at hs
    obtain ⟨rfl, rfl, rfl⟩ := hs
    refine i.same rfl rfl rfl rfl rfl (by rw [pendingOut_snoc]; exact Nat.le_add_right _ _) ?_
    rw [senderWaits_snoc]
    intro h1
    have h1 : numCanSend s = 0 := by simpa using h1
    right
    rw [numCanSend] at h1
    split at h1
    · rename_i hf; rw [full, beq_iff_eq] at hf; omega
    · omega
  | recv =>
    simp only [step, Option.bind_eq_bind, Option.bind_eq_some_iff] at hs
    obtain ⟨⟨b, w', s''⟩, e, hs⟩ := hs
    cases hs
    obtain ⟨q, e1, e2, e3, e4⟩ := recv_cases d e
    have e5 : w' = (recvTail { s with queue := q }).1 := congrArg Prod.fst e1
    have e6 : s'' = (recvTail { s with queue := q }).2 := congrArg Prod.snd e1
    subst e5 e6
    exact out_recvTail hk i (by omega) (by rw [pendingOut_snoc]) (by rw [senderWaits_snoc])
  | signalWhenFull =>
    simp only [step, Option.some.injEq, Prod.mk.injEq] at hs
    obtain ⟨rfl, rfl, rfl⟩ := hs
    by_cases hf : full s = true
    · rw [signalWhenFull, if_pos hf]
      exact i.same rfl rfl rfl rfl rfl (by rw [pendingOut_snoc]; exact Nat.le_add_right _ _) (by rw [senderWaits_snoc]; exact Or.inl)
    · rw [signalWhenFull, if_neg hf]
      rw [full, beq_iff_eq] at hf
      exact out_recvTail (q := s.queue) hk i (by omega) (by rw [pendingOut_snoc]) (by rw [senderWaits_snoc])
  | handleOut =>
    simp only [step, Option.some.injEq, Prod.mk.injEq] at hs
    obtain ⟨rfl, rfl, rfl⟩ := hs
    have hw : senderWaits (h ++ [⟨.handleOut, .done, []⟩]) = false := by rw [senderWaits_snoc]
    rcases hk with rfl | rfl
    · rw [if_pos i.kind, confirm, if_pos rfl]
      refine ⟨i.set, i.conn, i.kind, ?_, fun _ => rfl, ?_, ?_, fun h1 => by rw [hw] at h1; cases h1⟩
      · show (if full s then 3 else 2) = 1 ∨ (if full s then 3 else 2) = 2 ∨ (if full s then 3 else 2) = 3
        split <;> simp
      · intro h1
        have h1 : (if full s then 3 else 2) = 1 := h1
        split at h1 <;> omega
      · intro h1
        have h1 : (if full s then 3 else 2) = 2 := h1
        show s.queue.size < s.queue.cap
        have : ¬ full s = true := by intro h2; rw [if_pos h2] at h1; omega
        rw [full, beq_iff_eq] at this
        omega
    · have hn : ¬ s.outKind = .confirm := by rw [i.kind]; decide
      rw [if_neg hn]
      have hc : s.signalOut ≠ 1 := fun h1 => by have := i.conf h1; cases this
      exact ⟨i.set, i.conn, i.kind, i.rng, i.conf, fun h1 => absurd h1 hc, i.two, fun h1 => by rw [hw] at h1; cases h1⟩
  | disconnect j =>
    cases j with
    | false => cases hg
    | true =>
      have hq : disconnect s true = some ([], (detach s true).1, (detach s true).2) := by
        rw [disconnect]; dsimp only
        rw [if_neg]
        have : (detach s true).2.connOut = true := i.conn
        simp [this]
      rw [step, hq] at hs
      simp only [Option.bind_eq_bind, Option.bind_some, Option.some.injEq, Prod.mk.injEq] at hs
      obtain ⟨rfl, rfl, rfl⟩ := hs
      exact i.same rfl rfl rfl rfl rfl (by rw [pendingOut_snoc]; exact Nat.le_add_right _ _) (by rw [senderWaits_snoc]; exact Or.inl)
  | handleInp =>
    simp only [step, Option.some.injEq, Prod.mk.injEq] at hs
    obtain ⟨rfl, rfl, rfl⟩ := hs
    split
    all_goals exact i.same rfl rfl rfl rfl rfl (by rw [pendingOut_snoc]; exact Nat.le_add_right _ _) (by rw [senderWaits_snoc]; exact Or.inl)
  | setConnected j =>
    simp only [step, Option.some.injEq, Prod.mk.injEq] at hs
    obtain ⟨rfl, rfl, rfl⟩ := hs
    cases j
    · exact i.same rfl i.conn.symm rfl rfl rfl (by rw [pendingOut_snoc]; exact Nat.le_add_right _ _) (by rw [senderWaits_snoc]; exact Or.inl)
    · exact i.same rfl rfl rfl rfl rfl (by rw [pendingOut_snoc]; exact Nat.le_add_right _ _) (by rw [senderWaits_snoc]; exact Or.inl)
  | assignOut _ => cases hg
  | ignoreOut => cases hg
  | _ =>
    simp only [step, Option.some.injEq, Prod.mk.injEq] at hs
    obtain ⟨rfl, rfl, rfl⟩ := hs
    exact i.same rfl rfl rfl rfl rfl (by rw [pendingOut_snoc]; exact Nat.le_add_right _ _) (by rw [senderWaits_snoc]; exact Or.inl)

theorem out_off_step {cap} {h : List (Rec β)} {s s' : LT β} {op o w} (d : Data cap h s) (i : OutOff h s)
    (hg : outSide op = false ∨ isIgnoreOut op = true) (hs : step s op = some (o, w, s')) :
    OutOff (h ++ [⟨op, o, w⟩]) s' ∧ s'.outSet = s.outSet ∧ s'.outKind = s.outKind ∧ s'.connOut = s.connOut := by
  have hl : senderWaits (h ++ [⟨op, o, w⟩]) = false := by
    rw [senderWaits_snoc]
    cases op <;> first | exact i.look | (rcases hg with hg | hg <;> cases hg)
  have same : ∀ {s' : LT β}, s'.queue.size = 0 → s'.signalOut = s.signalOut → s'.outKind = s.outKind → OutOff (h ++ [⟨op, o, w⟩]) s' := by
    intro s' h1 h2 h3
    exact ⟨h1, by rw [h2]; exact i.rng, by rw [h2, h3]; exact i.conf, by rw [h2, h3]; exact i.off, hl⟩
  have tail : ∀ {q : BQ β}, q.size = 0 → OutOff (h ++ [⟨op, o, w⟩]) (recvTail { s with queue := q }).2 := by
    intro q h1
    have h2 : (signal s.outKind s.signalOut).1 = s.signalOut ∨ (s.signalOut = 3 ∧ s.outKind = .confirm ∧ (signal s.outKind s.signalOut).1 = 1) ∨
        (s.signalOut = 3 ∧ s.outKind = .operation ∧ (signal s.outKind s.signalOut).1 = 2) := by
      by_cases h3 : s.signalOut = 3
      · rw [h3]; cases s.outKind <;> simp [signal]
      · left; cases s.outKind <;> simp [signal, h3]
    have e : (recvTail { s with queue := q }).2.signalOut = (signal s.outKind s.signalOut).1 := rfl
    rcases h2 with h2 | ⟨h2, h3, h4⟩ | ⟨h2, h3, h4⟩
    · exact same h1 (e.trans h2) rfl
    · refine ⟨h1, by rw [e, h4]; exact Or.inl rfl, fun _ => h3, fun h5 => ?_, hl⟩
      have h5 : s.outKind = .none := h5
      rw [h3] at h5; cases h5
    · refine ⟨h1, by rw [e, h4]; exact Or.inr (Or.inl rfl), fun h5 => ?_, fun h5 => ?_, hl⟩
      · rw [e, h4] at h5; cases h5
      · have h5 : s.outKind = .none := h5
        rw [h3] at h5; cases h5
  have hsz := i.size
  cases op with
  | recv =>
    simp only [step, Option.bind_eq_bind, Option.bind_eq_some_iff] at hs
    obtain ⟨⟨b, w', s''⟩, e, hs⟩ := hs
    simp only [Option.some.injEq, Prod.mk.injEq] at hs
    obtain ⟨-, -, rfl⟩ := hs
    obtain ⟨q, e1, e2, e3, e4⟩ := recv_cases d e
    have e6 : s'' = (recvTail { s with queue := q }).2 := congrArg Prod.snd e1
    subst e6
    exact ⟨tail (by omega), rfl, rfl, rfl⟩
  | signalWhenFull =>
    simp only [step, Option.some.injEq, Prod.mk.injEq] at hs
    obtain ⟨-, -, rfl⟩ := hs
    rw [signalWhenFull]
    split
    · exact ⟨same hsz rfl rfl, rfl, rfl, rfl⟩
    · exact ⟨tail (q := s.queue) hsz, rfl, rfl, rfl⟩
  | disconnect j =>
    cases j with
    | false => rcases hg with hg | hg <;> cases hg
    | true =>
      obtain ⟨bs, q, e1, e2, e3⟩ := disconnect_spec d.rep true
      rw [step, e1] at hs
      simp only [Option.bind_eq_bind, Option.bind_some, Option.some.injEq, Prod.mk.injEq] at hs
      obtain ⟨-, -, rfl⟩ := hs
      refine ⟨same ?_ rfl rfl, rfl, rfl, rfl⟩
      show q.size = 0
      rcases e3 with ⟨-, -, -, e4⟩ | ⟨-, -, rfl⟩
      · have := e4.len
        simpa using this.symm
      · exact hsz
  | handleInp =>
    simp only [step, Option.some.injEq, Prod.mk.injEq] at hs
    obtain ⟨-, -, rfl⟩ := hs
    split <;> exact ⟨same hsz rfl rfl, rfl, rfl, rfl⟩
  | setConnected j =>
    cases j with
    | false => rcases hg with hg | hg <;> cases hg
    | true =>
      simp only [step, Option.some.injEq, Prod.mk.injEq] at hs
      obtain ⟨-, -, rfl⟩ := hs
      exact ⟨same hsz rfl rfl, rfl, rfl, rfl⟩
  | send _ => rcases hg with hg | hg <;> cases hg
  | canSend => rcases hg with hg | hg <;> cases hg
  | handleOut => rcases hg with hg | hg <;> cases hg
  | startOut => rcases hg with hg | hg <;> cases hg
  | assignOut _ => rcases hg with hg | hg <;> cases hg
  | _ =>
    simp only [step, Option.some.injEq, Prod.mk.injEq] at hs
    obtain ⟨-, -, rfl⟩ := hs
    exact ⟨same hsz rfl rfl, rfl, rfl, rfl⟩

theorem out_start {cap k} (hc : 0 < cap) (hk : k = .confirm ∨ k = .operation) {h : List (Rec β)} {s s' : LT β} {o w} (i : OutOff h s)
    (h1 : s.outSet = true) (h2 : s.outKind = k) (h3 : s.connOut = true)
    (d : Data cap h s) (hs : step s .startOut = some (o, w, s')) : OutInv k (h ++ [⟨.startOut, o, w⟩]) s' := by
  simp only [step, Option.some.injEq, Prod.mk.injEq] at hs
  obtain ⟨rfl, rfl, rfl⟩ := hs
  have hsz := i.size
  have hcap := d.size
  have hp : 0 < pendingOut (h ++ [⟨.startOut, .done, List.replicate (outStart s) Wake.output⟩]) := by
    rw [pendingOut_snoc]
    dsimp only
    have : outStart s = 1 := by
      have he : 0 < numCanSend s := by
        rw [numCanSend, full]; rw [if_neg (by simp; omega)]; omega
      rw [outStart, h2]
      rcases hk with rfl | rfl <;> simp [he]
    rw [this]
    simp
  exact ⟨h1, h3, h2, i.rng, fun h => by rw [← h2]; exact i.conf h, fun _ => hp, fun _ => by omega, fun _ _ => hp⟩

theorem sender_life {cap k} (hc : 0 < cap) (hk : k = .confirm ∨ k = .operation) {ops : List (Op β)} {h s}
    (hl : SenderLife k ops) (hr : run (create cap) ops = some (h, s)) : Data cap h s ∧ OutInv k h s := by
  obtain ⟨a, b, c, e, rfl, ha, hb, hcc, he⟩ := hl
  rw [run_append] at hr
  simp only [Option.bind_eq_some_iff, Option.map_eq_some_iff] at hr
  obtain ⟨⟨h1, s1⟩, r1, ⟨h2, s2⟩, r2, hr⟩ := hr
  cases hr
  have p1 : Data cap h1 s1 ∧ OutOff h1 s1 ∧ s1.outKind = .none := by
    have := run_inv (P := fun h s => Data cap h s ∧ OutOff h s ∧ s.outKind = .none) (fun op => outSide op = false)
      (fun h s op o w s' p g hs => by
        obtain ⟨g1, g2, g3, g4⟩ := out_off_step p.1 p.2.1 (Or.inl g) hs
        exact ⟨data_step p.1 hs, g1, g3.trans p.2.2⟩)
      (h0 := []) (s0 := create cap) ⟨data_init hc, ⟨rfl, Or.inr (Or.inr rfl), fun h => (by cases h), fun _ => rfl, rfl⟩, rfl⟩ ha r1
    simpa using this
  simp only [run, Option.bind_eq_bind, Option.bind_eq_some_iff] at r2
  obtain ⟨⟨o1, w1, t1⟩, e1, ⟨h3, s3⟩, r2, hr⟩ := r2
  cases hr
  have d1 := data_step p1.1 e1
  have p2 : OutOff (h1 ++ [⟨.assignOut k, o1, w1⟩]) t1 ∧ t1.outSet = true ∧ t1.outKind = k := by
    simp only [step, Option.some.injEq, Prod.mk.injEq] at e1
    obtain ⟨-, -, rfl⟩ := e1
    have h3 := p1.2.1.off p1.2.2
    exact ⟨⟨p1.2.1.size, p1.2.1.rng, fun h => (by have h : s1.signalOut = 1 := h; omega), fun _ => h3, by rw [senderWaits_snoc]; exact p1.2.1.look⟩, rfl, rfl⟩
  rw [run_append] at r2
  simp only [Option.bind_eq_some_iff, Option.map_eq_some_iff] at r2
  obtain ⟨⟨h4, s4⟩, r3, ⟨h5, s5⟩, r4, hr⟩ := r2
  cases hr
  have p3 := run_inv (P := fun h s => Data cap h s ∧ OutOff h s ∧ s.outSet = true ∧ s.outKind = k) (fun op => outSide op = false)
    (fun h s op o w s' p g hs => by
      obtain ⟨g1, g2, g3, _⟩ := out_off_step p.1 p.2.1 (Or.inl g) hs
      exact ⟨data_step p.1 hs, g1, g2.trans p.2.2.1, g3.trans p.2.2.2⟩) ⟨d1, p2⟩ hb r3
  simp only [run, Option.bind_eq_bind, Option.bind_eq_some_iff] at r4
  obtain ⟨⟨o2, w2, t2⟩, e2, ⟨h6, s6⟩, r5, hr⟩ := r4
  cases hr
  have d2 := data_step p3.1 e2
  have p4 : OutOff (h1 ++ [⟨.assignOut k, o1, w1⟩] ++ h4 ++ [⟨.setConnected false, o2, w2⟩]) t2 ∧ t2.outSet = true ∧ t2.outKind = k ∧ t2.connOut = true := by
    simp only [step, Option.some.injEq, Prod.mk.injEq] at e2
    obtain ⟨-, -, rfl⟩ := e2
    rw [if_neg (by decide)]
    have o := p3.2.1
    exact ⟨⟨o.size, o.rng, o.conf, o.off, by rw [senderWaits_snoc]; exact o.look⟩, p3.2.2.1, p3.2.2.2, rfl⟩
  rw [run_append] at r5
  simp only [Option.bind_eq_some_iff, Option.map_eq_some_iff] at r5
  obtain ⟨⟨h7, s7⟩, r6, ⟨h8, s8⟩, r7, hr⟩ := r5
  cases hr
  have p5 := run_inv (P := fun h s => Data cap h s ∧ OutOff h s ∧ s.outSet = true ∧ s.outKind = k ∧ s.connOut = true) (fun op => outSide op = false ∨ isIgnoreOut op = true)
    (fun h s op o w s' p g hs => by
      obtain ⟨g1, g2, g3, g4⟩ := out_off_step p.1 p.2.1 g hs
      exact ⟨data_step p.1 hs, g1, g2.trans p.2.2.1, g3.trans p.2.2.2.1, g4.trans p.2.2.2.2⟩) ⟨d2, p4⟩ hcc r6
  simp only [run, Option.bind_eq_bind, Option.bind_eq_some_iff] at r7
  obtain ⟨⟨o3, w3, t3⟩, e3, ⟨h9, s9⟩, r8, hr⟩ := r7
  cases hr
  have p6 := run_inv (P := fun h s => Data cap h s ∧ OutInv k h s) (fun op => keepsOut op = true)
    (fun h s op o w s' p g hs => ⟨data_step p.1 hs, out_step hc hk p.1 p.2 g hs⟩)
    ⟨data_step p5.1 e3, out_start hc hk p5.2.1 p5.2.2.1 p5.2.2.2.1 p5.2.2.2.2 p5.1 e3⟩ he r8
  simpa [List.append_assoc] using p6

end Verif.LocalTransport
