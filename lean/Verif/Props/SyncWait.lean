import Verif.SyncWaitInv

/-!
# C96: blocking operations of a module with main loop
-/

namespace Verif.SyncWait
open Verif.LocalTransport Verif.SyncWait.Spec
variable {β : Type}

/-- While an operation is in progress it has no result. -/
theorem fresh_act {m m' : SM β} {a : Act β} (i : m.mode = .idle ∨ m.out = none) (h : act m a = some m') : m'.mode = .idle ∨ m'.out = none := by
  have keep : ∀ {m m' : SM β} {e : Ev}, m.mode = .idle ∨ m.out = none → single m e = some m' → m'.mode = .idle ∨ m'.out = none := by
    intro m m' e i h
    obtain ⟨-, -, -, -, -, -, h4 | h4⟩ := single_cases h
    · obtain ⟨h4, h5⟩ := h4
      rcases i with i | i
      · left
        rcases h4 with h4 | ⟨n, h4⟩
        · rw [h4]; exact i
        · rw [h4, i]; rfl
      · right; rw [h5]; exact i
    · exact .inl h4.2.1
  cases a with
  | env op =>
    simp only [act] at h
    split at h
    · cases h
    · rw [Option.map_eq_some_iff] at h
      obtain ⟨⟨o, m1⟩, h1, rfl⟩ := h
      obtain ⟨w, s', -, rfl⟩ := perform_some h1
      exact i
  | time d => cases h; exact i
  | call g tm =>
    simp only [act] at h
    split at h
    · cases h; exact .inr rfl
    · cases h
  | look =>
    simp only [act] at h
    split at h
    next hm =>
      simp only [Option.bind_eq_bind, Option.bind_eq_some_iff] at h
      obtain ⟨⟨o, m1⟩, h1, h⟩ := h
      obtain ⟨w, s', -, rfl⟩ := perform_some h1
      have i : m.out = none := i.resolve_left (by rw [hm]; intro hx; cases hx)
      cases h
      split
      · split
        · exact .inr i
        · exact .inl rfl
      · split
        · exact .inl rfl
        · exact .inr i
    · cases h
  | take =>
    simp only [act] at h
    split at h
    · simp only [Option.bind_eq_bind, Option.bind_eq_some_iff] at h
      obtain ⟨⟨o, m1⟩, h1, h⟩ := h
      split at h
      · cases h; exact .inl rfl
      · cases h
    · cases h
  | loop e =>
    simp only [act] at h
    split at h
    next tm last n hm =>
      have i : m.out = none := i.resolve_left (by rw [hm]; intro hx; cases hx)
      split at h
      · cases h
      · split at h
        · cases h; exact .inl rfl
        · exact keep (m := { m with mode := .wait (account m.running m.now tm last).1 (account m.running m.now tm last).2 n }) (.inr i) h
    · cases h
  | leave =>
    simp only [act] at h
    split at h
    next hm =>
      have i : m.out = none := i.resolve_left (by rw [hm]; intro hx; cases hx)
      split at h
      · split at h
        · cases h; exact .inl rfl
        · cases h; exact .inr i
      · cases h
    · cases h
  | work e =>
    simp only [act] at h
    split at h
    · exact keep i h
    · cases h

theorem acts_inv {P : SM β → Prop} (hP : ∀ m m' a, P m → act m a = some m' → P m') {as : List (Act β)} :
    ∀ {m m' : SM β}, P m → acts m as = some m' → P m' := by
  induction as with
  | nil => intro m m' i h; cases h; exact i
  | cons a as ih =>
    intro m m' i h
    simp only [acts, Option.bind_eq_some_iff] at h
    obtain ⟨m1, h1, h2⟩ := h
    exact ih (hP _ _ _ i h1) h2

theorem clock_begin (s : LocalTransport.LT β) (h : List (Rec β)) (r t l : Bool) (now : Int) : Clock (begin s h r t l now) := trivial

/-- **C96, not too early.** Whatever happens, an operation with a timeout which is not negative gives up only
when more time than the timeout has passed since the call. -/
theorem C96_not_early (s : LocalTransport.LT β) (h : List (Rec β)) (running onTmout onLost : Bool) (now : Int) (as : List (Act β)) (m m' : SM β) (a : Act β)
    (hr : acts (begin s h running onTmout onLost now) as = some m) (hm : m.mode ≠ .idle) (ha : act m a = some m')
    (ho : m'.out = some .nothing ∨ m'.out = some .timeout) (hl : 0 ≤ m.limit) : m.limit < m.now - m.t0 := by
  obtain ⟨c, f⟩ := acts_inv (P := fun m => Clock m ∧ (m.mode = .idle ∨ m.out = none)) (fun m m' a p q => ⟨p.1.act q, fresh_act p.2 q⟩) ⟨clock_begin _ _ _ _ _ _, .inl rfl⟩ hr
  have f : m.out = none := f.resolve_left hm
  have kept : ∀ {m1 m2 : SM β} {e : Ev}, m1.out = none → single m1 e = some m2 → ¬ (m2.out = some .nothing ∨ m2.out = some .timeout) := by
    intro m1 m2 e f h ho
    obtain ⟨-, -, -, -, -, -, h4 | h4⟩ := single_cases h
    · rw [h4.2, f] at ho; rcases ho with ho | ho <;> cases ho
    · rw [h4.2.2] at ho; rcases ho with ho | ho <;> cases ho
  have bad : ∀ {x : Option (Res β)}, x = none → (x = some .nothing ∨ x = some .timeout) → m.limit < m.now - m.t0 := by
    intro x hx ho; subst hx; rcases ho with ho | ho <;> cases ho
  cases a with
  | env op =>
    simp only [act] at ha
    split at ha
    · cases ha
    · rw [Option.map_eq_some_iff] at ha
      obtain ⟨⟨o, m1⟩, h1, rfl⟩ := ha
      obtain ⟨w, s', -, rfl⟩ := perform_some h1
      exact bad f ho
  | time d => cases ha; exact bad f ho
  | call g tm => simp only [act] at ha; rw [if_neg hm] at ha; cases ha
  | look =>
    simp only [act] at ha
    split at ha
    next tm e =>
      simp only [Option.bind_eq_bind, Option.bind_eq_some_iff] at ha
      obtain ⟨⟨o, m1⟩, h1, ha⟩ := ha
      obtain ⟨w, s', -, rfl⟩ := perform_some h1
      cases ha
      unfold Clock at c
      rw [e] at c
      obtain ⟨c1, c2⟩ := c
      split at ho
      · split at ho
        · exact bad f ho
        · rcases ho with ho | ho <;> cases ho
      · split at ho
        · omega
        · exact bad f ho
    · cases ha
  | take =>
    simp only [act] at ha
    split at ha
    · simp only [Option.bind_eq_bind, Option.bind_eq_some_iff] at ha
      obtain ⟨⟨o, m1⟩, h1, ha⟩ := ha
      split at ha
      · cases ha; rcases ho with ho | ho <;> cases ho
      · cases ha
    · cases ha
  | loop e =>
    simp only [act] at ha
    split at ha
    next tm last n hmode =>
      split at ha
      · cases ha
      · have k := c.account hmode
        split at ha
        next hn =>
          have hn : m.running = true ∧ (account m.running m.now tm last).1 < 0 := by simpa using hn
          omega
        · exact absurd ho (kept (m1 := { m with mode := .wait (account m.running m.now tm last).1 (account m.running m.now tm last).2 n }) f ha)
    · cases ha
  | leave =>
    simp only [act] at ha
    split at ha
    · split at ha
      · split at ha
        · cases ha; rcases ho with ho | ho <;> cases ho
        · cases ha; exact bad f ho
      · cases ha
    · cases ha
  | work e => simp only [act] at ha; rw [if_neg hm] at ha; cases ha

/-- The port of a running module gets connected. -/
def demoOps : List (Op Nat) := [.assignOut .confirm, .assignInp .confirm, .setConnected false, .setConnected true]

theorem demo_connected : Connected .confirm demoOps := ⟨[.assignOut .confirm], [.setConnected false], rfl, by simp [inpSide], by simp [inpSide]⟩

/-- Hypotheses of `C96_not_early`: a `Recv` with timeout 5 gives up after 7. -/
example : ∃ h s m m', run (create 4) demoOps = some (h, s) ∧
    acts (begin s h true false false 100) [.call .recv 5, .look, .loop .none, .time 7] = some m ∧ m.mode ≠ .idle ∧
    act m (.loop .none) = some m' ∧ m'.out = some .nothing ∧ 0 ≤ m.limit := ⟨_, _, _, _, rfl, rfl, by decide, rfl, rfl, by decide⟩

/-- Exceptions come only when configured. -/
def Conf (t l : Bool) (m : SM β) : Prop :=
  m.onTmout = t ∧ m.onLost = l ∧ (m.out = some .timeout → t = true) ∧ (m.out = some .lost → l = true)

theorem Conf.of {t l} {m m' : SM β} (c : Conf t l m) (h1 : m'.onTmout = m.onTmout) (h2 : m'.onLost = m.onLost)
    (h3 : m'.out = m.out ∨ (m'.out ≠ some .timeout ∧ m'.out ≠ some .lost)) : Conf t l m' := by
  obtain ⟨c1, c2, c3, c4⟩ := c
  refine ⟨h1.trans c1, h2.trans c2, fun h => ?_, fun h => ?_⟩
  · rcases h3 with h3 | h3
    · exact c3 (h3 ▸ h)
    · exact absurd h h3.1
  · rcases h3 with h3 | h3
    · exact c4 (h3 ▸ h)
    · exact absurd h h3.2

theorem Conf.single {t l} {m m' : SM β} {e : Ev} (c : Conf t l m) (h : single m e = some m') : Conf t l m' := by
  obtain ⟨-, -, -, -, h1, h2, h4 | h4⟩ := single_cases h
  · exact c.of h1 h2 (.inl h4.2)
  · exact c.of h1 h2 (.inr (by rw [h4.2.2]; exact ⟨by simp, by simp⟩))

theorem Conf.act {t l} {m m' : SM β} {a : Act β} (c : Conf t l m) (h : act m a = some m') : Conf t l m' := by
  cases a with
  | env op =>
    simp only [SyncWait.act] at h
    split at h
    · cases h
    · rw [Option.map_eq_some_iff] at h
      obtain ⟨⟨o, m1⟩, h1, rfl⟩ := h
      obtain ⟨w, s', -, rfl⟩ := perform_some h1
      exact c
  | time d => cases h; exact c
  | call g tm =>
    simp only [SyncWait.act] at h
    split at h
    · cases h; exact c.of rfl rfl (.inr ⟨by simp, by simp⟩)
    · cases h
  | look =>
    simp only [SyncWait.act] at h
    split at h
    · simp only [Option.bind_eq_bind, Option.bind_eq_some_iff] at h
      obtain ⟨⟨o, m1⟩, h1, h⟩ := h
      obtain ⟨w, s', -, rfl⟩ := perform_some h1
      cases h
      split
      · split
        · exact c.of rfl rfl (.inl rfl)
        · exact c.of rfl rfl (.inr ⟨by simp, by simp⟩)
      · split
        · exact c.of rfl rfl (.inr ⟨by simp, by simp⟩)
        · exact c.of rfl rfl (.inl rfl)
    · cases h
  | take =>
    simp only [SyncWait.act] at h
    split at h
    · simp only [Option.bind_eq_bind, Option.bind_eq_some_iff] at h
      obtain ⟨⟨o, m1⟩, h1, h⟩ := h
      obtain ⟨w, s', -, rfl⟩ := perform_some h1
      split at h
      · cases h; exact c.of rfl rfl (.inr ⟨by simp, by simp⟩)
      · cases h
    · cases h
  | loop e =>
    simp only [SyncWait.act] at h
    split at h
    next tm last n hm =>
      split at h
      · cases h
      · split at h
        · cases h
          obtain ⟨c1, c2, -, -⟩ := c
          refine ⟨c1, c2, fun hx => ?_, fun hx => ?_⟩
          · dsimp only at hx
            split at hx
            next ht => rw [← c1]; exact ht
            · cases hx
          · dsimp only at hx
            split at hx <;> cases hx
        · exact Conf.single (m := { m with mode := .wait (account m.running m.now tm last).1 (account m.running m.now tm last).2 n }) c h
    · cases h
  | leave =>
    simp only [SyncWait.act] at h
    split at h
    · split at h
      · split at h
        next hl =>
          cases h
          obtain ⟨c1, c2, -, -⟩ := c
          refine ⟨c1, c2, fun hx => (by cases hx), fun _ => ?_⟩
          rw [Bool.and_eq_true] at hl
          rw [← c2]; exact hl.2
        · cases h; exact c
      · cases h
    · cases h
  | work e =>
    simp only [SyncWait.act] at h
    split at h
    · exact c.single h
    · cases h

/-- **C96, exceptions only when configured.** Whatever happens, operations end with the timeout exception only after
`SetTmoutExcept`, with the disconnect exception only after `SetDisconnectExcept`. -/
theorem C96_exceptions (s : LocalTransport.LT β) (h : List (Rec β)) (running onTmout onLost : Bool) (now : Int) (as : List (Act β)) (m : SM β)
    (hr : acts (begin s h running onTmout onLost now) as = some m) :
    (m.out = some .timeout → onTmout = true) ∧ (m.out = some .lost → onLost = true) :=
  (acts_inv (P := Conf onTmout onLost) (fun _ _ _ p q => p.act q) ⟨rfl, rfl, fun hx => (by cases hx), fun hx => (by cases hx)⟩ hr).2.2

/-- Both exceptions, and the same runs without them. -/
example : ∀ t l : Bool, ∃ h s m1 m2, run (create 4) demoOps = some (h, s) ∧
    acts (begin s h true t l 100) [.call .recv 5, .look, .loop .none, .time 7, .loop .none] = some m1 ∧
    m1.out = some (if t then .timeout else .nothing) ∧
    acts (begin s h true t l 100) [.call .recv 5, .look, .loop .gone, .leave] = some m2 ∧
    m2.out = (if l then some .lost else none) ∧ (l = false → m2.mode = .test 5) := by
  intro t l
  cases t <;> cases l <;> exact ⟨_, _, _, _, rfl, rfl, rfl, rfl, rfl, by first | exact fun _ => rfl | exact fun hx => nomatch hx⟩

/-- **C96, no deadlock.** Whatever happened before, an operation in progress can go on, also when the module is stopped:
one of the steps test, turn of the loop, end of the loop is possible without other threads. -/
theorem C96_goes_on (m : SM β) (hm : m.mode ≠ .idle ∧ m.mode ≠ .take) :
    (act m .look).isSome = true ∨ (act m (.loop .none)).isSome = true ∨ (act m .leave).isSome = true := by
  rcases hmo : m.mode with _ | tm | _ | ⟨tm, last, n⟩
  · exact absurd hmo hm.1
  · left
    have e : step m.lt .canRecv = some (.num m.lt.queue.size, [], m.lt) := rfl
    simp [act, hmo, perform, e]
  · exact absurd hmo hm.2
  · right
    simp only [act, hmo]
    cases hr : m.running with
    | false => left; simp [single]
    | true =>
      cases n with
      | none => left; simp only [Option.isSome_none, Bool.false_and, Bool.false_eq_true, if_false]; split <;> rfl
      | some n => right; simp only [if_true]; split <;> rfl

/-- **C96, a waiting module is woken.** For a port which is connected while the module runs, and a module which is
not stopped: whatever other threads do, if `Recv` or `WaitInput` for one buffer waits and there is a buffer, then
an event is on its way to it. -/
theorem C96_wakes_partial (cap : Nat) (hc : 0 < cap) (k : Kind) (hk : k = .confirm ∨ k = .operation) (ops : List (Op β)) (h : List (Rec β))
    (s : LocalTransport.LT β) (onTmout onLost : Bool) (now : Int) (as : List (Act β)) (m : SM β)
    (hl : Connected k ops) (hr : run (create cap) ops = some (h, s)) (ha : acts (begin s h true onTmout onLost now) as = some m)
    (hn : ∀ a ∈ as, noStop a = true) (tm : Int) (last : Option Int) (hm : m.mode = .wait tm last none)
    (hg : m.goal = .recv ∨ m.goal = .input 1) (hw : waiting m.hist ≠ []) : 0 < pendingInp m.hist := by
  obtain ⟨d, g⟩ := connected hc hl hr
  have i : Inv cap k m := Inv.acts hc hk ⟨d, g, rfl, fun tm last hx => (by cases hx), fun ht => (by cases ht)⟩ hn ha
  refine i.wait tm last hm (by rcases hg with hg | hg <;> rw [hg] <;> simp [Goal.one]) ?_
  have hlen := i.data.rep.len
  rw [List.length_map] at hlen
  have := List.length_pos_iff.2 hw
  omega

/-- **C96, `Recv` returns the oldest buffer.** In the same situation, if the timeout did not yet expire, then the
event which is on its way makes `Recv` return the oldest buffer. -/
theorem C96_returns_partial (cap : Nat) (hc : 0 < cap) (k : Kind) (hk : k = .confirm ∨ k = .operation) (ops : List (Op β)) (h : List (Rec β))
    (s : LocalTransport.LT β) (onTmout onLost : Bool) (now : Int) (as : List (Act β)) (m : SM β)
    (hl : Connected k ops) (hr : run (create cap) ops = some (h, s)) (ha : acts (begin s h true onTmout onLost now) as = some m)
    (hn : ∀ a ∈ as, noStop a = true) (tm : Int) (last : Option Int) (hm : m.mode = .wait tm last none)
    (hg : m.goal = .recv) (hw : waiting m.hist ≠ []) (ht : m.now - m.t0 ≤ m.limit) :
    ∃ m' b, acts m [.loop .own, .leave, .look, .take] = some m' ∧ (waiting m.hist).head? = some b ∧ m'.out = some (.got (some b)) ∧
      received m'.hist = received m.hist ++ [b] ∧ m'.mode = .idle := by
  have hp := C96_wakes_partial cap hc k hk ops h s onTmout onLost now as m hl hr ha hn tm last hm (.inl hg) hw
  obtain ⟨d, g⟩ := connected hc hl hr
  have i : Inv cap k m := Inv.acts hc hk ⟨d, g, rfl, fun tm last hx => (by cases hx), fun ht => (by cases ht)⟩ hn ha
  have c : Clock m := acts_inv (P := Clock) (fun m m' a p q => p.act q) (clock_begin _ _ _ _ _ _) ha
  have hk2 := c.account hm
  have hrun := i.run
  have hpos : ¬ (account m.running m.now tm last).1 < 0 := by
    unfold Clock at c
    rw [hm] at c
    obtain ⟨c1, c2, c3⟩ := c
    rw [hrun]
    unfold account
    rw [if_pos rfl]
    cases last with
    | none => dsimp only; omega
    | some l => obtain ⟨c3, c4⟩ := c3; dsimp only; omega
  obtain ⟨s1, e1, hq⟩ : ∃ s1, step m.lt .handleInp = some (.done, [], s1) ∧ s1.queue = m.lt.queue := by
    refine ⟨_, rfl, ?_⟩
    split <;> rfl
  have d1 := data_step i.data e1
  have hw1 : waiting (m.hist ++ [⟨.handleInp, .done, []⟩]) = waiting m.hist := by
    simp [waiting, sent, gone, Rec.sent, Rec.received, Rec.skipped, Rec.cleared]
  have e2 : step s1 .canRecv = some (.num s1.queue.size, [], s1) := rfl
  have hlen := i.data.rep.len
  rw [List.length_map] at hlen
  rcases hwc : waiting m.hist with _ | ⟨b, l⟩
  · exact absurd hwc hw
  · have hrp := d1.rep
    rw [hw1, hwc] at hrp
    obtain ⟨q, e3, -, -⟩ := recv_cons hrp
    obtain ⟨w, s2, e4⟩ : ∃ w s', step s1 .recv = some (.got (some b), w, s') := ⟨_, _, by rw [step, e3]; rfl⟩
    have hsz : 0 < s1.queue.size := by rw [hq]; rw [hwc] at hlen; simp at hlen; omega
    let r := account m.running m.now tm last
    let m1 : SM β := { m with mode := .wait r.1 r.2 (some .own), lt := s1, hist := m.hist ++ [⟨.handleInp, .done, []⟩] }
    let m3 : SM β := { m1 with mode := .take, hist := m1.hist ++ [⟨.canRecv, .num s1.queue.size, []⟩] }
    let m4 : SM β := { m3 with mode := .idle, lt := s2, hist := m3.hist ++ [⟨.recv, .got (some b), w⟩], out := some (.got (some b)) }
    have a1 : act m (.loop .own) = some m1 := by
      simp only [act, hm]
      rw [if_neg (by simp), if_neg (by simp [hpos])]
      simp only [single]
      rw [if_pos hp, if_pos hrun]
      simp only [perform, e1, Option.bind_eq_bind, Option.bind_some, note]
      rfl
    have a2 : act m1 .leave = some { m1 with mode := .test r.1 } := by
      simp only [act, m1]
      rw [if_pos hrun]
      rfl
    have a3 : act { m1 with mode := .test r.1 } .look = some m3 := by
      simp only [act, perform, m1, e2, Option.bind_eq_bind, Option.bind_some, hg]
      rw [if_pos (by simp [enough, hsz])]
      simp only [m3, m1, hg]
    have a4 : act m3 .take = some m4 := by
      simp only [act, perform, m3, m1, e4, Option.bind_eq_bind, Option.bind_some]
      rfl
    refine ⟨m4, b, ?_, rfl, rfl, ?_, rfl⟩
    · simp only [acts, a1, a2, a3, a4, Option.bind_some]
    · simp [m4, m3, m1, received, Rec.received]

/-- Hypotheses of both theorems: the module waits in `Recv` when a buffer is sent. -/
example : Connected .confirm demoOps ∧ ∃ h s m, run (create 4) demoOps = some (h, s) ∧
    acts (begin s h true false false 100) [.call .recv 5, .look, .loop .none, .time 3, .env (.send (some 8))] = some m ∧
    m.mode = .wait 5 (some 100) none ∧ m.goal = .recv ∧ waiting m.hist = [8] ∧ m.now - m.t0 ≤ m.limit :=
  ⟨demo_connected, _, _, _, rfl, rfl, rfl, rfl, rfl, by decide⟩

/-- **C96, value of `Recv`.** In the same situation, also when `Recv` did not wait: between the test and the `Recv`
of the port other threads can not take the data away. -/
theorem C96_value_partial (cap : Nat) (hc : 0 < cap) (k : Kind) (hk : k = .confirm ∨ k = .operation) (ops : List (Op β)) (h : List (Rec β))
    (s : LocalTransport.LT β) (onTmout onLost : Bool) (now : Int) (as : List (Act β)) (m : SM β)
    (hl : Connected k ops) (hr : run (create cap) ops = some (h, s)) (ha : acts (begin s h true onTmout onLost now) as = some m)
    (hn : ∀ a ∈ as, noStop a = true) (hm : m.mode = .take) :
    ∃ m' b, act m .take = some m' ∧ (waiting m.hist).head? = some b ∧ m'.out = some (.got (some b)) := by
  obtain ⟨d, g⟩ := connected hc hl hr
  have i : Inv cap k m := Inv.acts hc hk ⟨d, g, rfl, fun tm last hx => (by cases hx), fun ht => (by cases ht)⟩ hn ha
  have hlen := i.data.rep.len
  rw [List.length_map] at hlen
  have hsz := i.take hm
  rcases hwc : waiting m.hist with _ | ⟨b, l⟩
  · rw [hwc] at hlen; simp at hlen; omega
  · have hrp := i.data.rep
    rw [hwc] at hrp
    obtain ⟨q, e3, -, -⟩ := recv_cons hrp
    obtain ⟨w, s2, e4⟩ : ∃ w s', step m.lt .recv = some (.got (some b), w, s') := ⟨_, _, by rw [step, e3]; rfl⟩
    refine ⟨{ m with mode := .idle, lt := s2, hist := m.hist ++ [⟨.recv, .got (some b), w⟩], out := some (.got (some b)) }, b, ?_, rfl, rfl⟩
    simp only [act, hm, perform, e4, Option.bind_eq_bind, Option.bind_some]

example : ∃ h s m, run (create 4) demoOps = some (h, s) ∧
    acts (begin s h true false false 100) [.env (.send (some 8)), .call .recv 5, .look, .env (.send (some 9)), .env (.disconnect false)] = some m ∧
    m.mode = .take := ⟨_, _, _, rfl, rfl, rfl⟩

/-- **C96 counterexample, default timeout.** "Blocks until buffer is arrived": with the default timeout -1 `Recv` and
`WaitInput` never wait. -/
theorem C96_default_counterexample (m : SM β) (hm : m.mode = .idle) (g : Goal) (hg : g = .recv ∨ g = .input 1) (tm : Int) (ht : tm < 0)
    (he : m.lt.queue.size = 0) : ∃ m', acts m [.call g tm, .look] = some m' ∧ m'.mode = .idle ∧ m'.out = some .nothing ∧ m'.now = m.now := by
  have e : step m.lt .canRecv = some (.num m.lt.queue.size, [], m.lt) := rfl
  refine ⟨{ m with mode := .idle, goal := g, t0 := m.now, limit := tm, out := some .nothing, hist := m.hist ++ [⟨.canRecv, .num m.lt.queue.size, []⟩] }, ?_, rfl, rfl, rfl⟩
  simp only [acts, act, if_pos hm, Option.bind_some, perform, e, Option.bind_eq_bind]
  rw [if_neg (by rcases hg with rfl | rfl <;> simp [enough, he]), if_pos ht]

example : ∃ h s, run (create 4) demoOps = some (h, s) ∧ (begin s h true false false 0).lt.queue.size = 0 := ⟨_, _, rfl, rfl⟩

/-- **C96 counterexample, `WaitInput` for two buffers.** The event of the first buffer is confirmed while the buffer
is in the queue; then the queue gives no event before the next `Recv`: the second buffer wakes nobody. -/
theorem C96_two_buffers_counterexample :
    ∃ h s m, run (create 4) demoOps = some (h, s) ∧
      acts (begin s h true false false 0) [.call (.input 2) 50, .look, .loop .none, .env (.send (some 1)), .loop .own, .leave, .look, .loop .none,
        .env (.send (some 2))] = some m ∧
      m.mode = .wait 50 (some 0) none ∧ waiting m.hist = [1, 2] ∧ pendingInp m.hist = 0 := ⟨_, _, _, rfl, rfl, rfl, rfl, rfl⟩

/-- State of a `Recv` which is never woken. -/
def Stuck (m : SM β) : Prop :=
  (∃ tm last, m.mode = .wait tm last none) ∨ m.mode = .idle ∧ (m.out = some .nothing ∨ m.out = some .timeout ∨ m.out = some .stopped)

theorem stuck_act {cap} {m m' : SM β} {a : Act β} (d : Deaf cap m) (i : Stuck m) (hq : quiet a = true) (h : act m a = some m') : Stuck m' := by
  have idle : ∀ {m m' : SM β} {e : Ev}, m.mode = .idle → (m.out = some .nothing ∨ m.out = some .timeout ∨ m.out = some .stopped) → single m e = some m' → Stuck m' := by
    intro m m' e h1 h2 h
    obtain ⟨-, -, -, -, -, -, h4 | h4⟩ := single_cases h
    · right
      refine ⟨?_, by rw [h4.2]; exact h2⟩
      rcases h4.1 with h4 | ⟨n, h4⟩
      · rw [h4, h1]
      · rw [h4, h1]; rfl
    · exact .inr ⟨h4.2.1, .inr (.inr h4.2.2)⟩
  cases a with
  | env op =>
    simp only [act] at h
    split at h
    · cases h
    · rw [Option.map_eq_some_iff] at h
      obtain ⟨⟨o, m1⟩, h1, rfl⟩ := h
      obtain ⟨w, s', -, rfl⟩ := perform_some h1
      exact i
  | time t => cases h; exact i
  | call g tm => cases hq
  | look =>
    simp only [act] at h
    split at h
    next e => rcases i with ⟨_, _, i⟩ | ⟨i, -⟩ <;> rw [e] at i <;> cases i
    · cases h
  | take =>
    simp only [act] at h
    split at h
    next e => rcases i with ⟨_, _, i⟩ | ⟨i, -⟩ <;> rw [e] at i <;> cases i
    · cases h
  | loop e =>
    simp only [act] at h
    split at h
    next tm last n hm =>
      have hnone : n = none := by
        rcases i with ⟨_, _, i⟩ | ⟨i, -⟩ <;> rw [hm] at i <;> cases i
        rfl
      subst hnone
      split at h
      · cases h
      · split at h
        · cases h
          refine .inr ⟨rfl, ?_⟩
          dsimp only
          split
          · exact .inr (.inl rfl)
          · exact .inl rfl
        · have hno := (Deaf.single (m := { m with mode := .wait (account m.running m.now tm last).1 (account m.running m.now tm last).2 none }) (d.of rfl rfl) h).2
          cases e with
          | own => exact absurd rfl hno
          | gone | conn => cases hq
          | halt => cases h; exact .inr ⟨rfl, .inr (.inr rfl)⟩
          | none | other | start | stop => cases h; exact .inl ⟨_, _, rfl⟩
    · cases h
  | leave =>
    simp only [act] at h
    split at h
    next e => rcases i with ⟨_, _, i⟩ | ⟨i, -⟩ <;> rw [e] at i <;> cases i
    · cases h
  | work e =>
    simp only [act] at h
    split at h
    next hm =>
      rcases i with ⟨_, _, i⟩ | ⟨-, i⟩
      · rw [hm] at i; cases i
      · exact idle hm i h
    · cases h

/-- **C96 counterexample, data before the start.** A buffer arrives before the module is started; its event is dropped
without a confirmation and a module with main loop gets no start events.  The module receives this buffer; then it
waits for the next one.  The next one arrives, but whatever happens afterwards, no event comes: `Recv` ends without
a buffer, unless the connection changes. -/
theorem C96_before_start_counterexample (b c : β) :
    ∃ h s m, run (create 4) [.assignOut .confirm, .assignInp .confirm, .setConnected false, .setConnected true] = some (h, s) ∧
      acts (begin s h false false false 0) [.env (.send (some b)), .work .own, .work .start, .call .recv 50, .look, .take, .call .recv 50, .look,
        .env (.send (some c))] = some m ∧
      m.mode = .wait 50 none none ∧ m.running = true ∧ waiting m.hist = [c] ∧
      ∀ as m', (∀ a ∈ as, quiet a = true) → acts m as = some m' → Stuck m' := by
  refine ⟨_, _, _, rfl, rfl, rfl, rfl, rfl, ?_⟩
  intro as
  have key : ∀ (as : List (Act β)) (m m' : SM β), Deaf 4 m → Stuck m → (∀ a ∈ as, quiet a = true) → acts m as = some m' → Stuck m' := by
    intro as
    induction as with
    | nil => intro m m' _ i _ h; cases h; exact i
    | cons a as ih =>
      intro m m' d i hq h
      simp only [acts, Option.bind_eq_some_iff] at h
      obtain ⟨m1, h1, h2⟩ := h
      exact ih m1 m' (d.act h1) (stuck_act d i (hq a (by simp)) h1) (fun b hb => hq b (by simp [hb])) h2
  intro m'
  refine key as _ m' ⟨?_, rfl, rfl, rfl⟩ (.inl ⟨_, _, rfl⟩)
  exact data_steps (by decide) (run_steps [.assignOut .confirm, .assignInp .confirm, .setConnected false, .setConnected true, .send (some b), .ignoreInp,
    .canRecv, .recv, .canRecv, .send (some c)] rfl).1

/-- The same happens when the module is stopped while an event is on its way and started again. -/
theorem C96_restart_counterexample :
    ∃ h s m, run (create 4) demoOps = some (h, s) ∧
      acts (begin s h true false false 0) [.env (.send (some 1)), .work .stop, .work .own, .work .start, .call .recv 50, .look, .take, .call .recv 50, .look,
        .env (.send (some 2))] = some m ∧
      m.mode = .wait 50 none none ∧ m.running = true ∧ waiting m.hist = [2] ∧ pendingInp m.hist = 0 := ⟨_, _, _, rfl, rfl, rfl, rfl, rfl, rfl⟩

/-- **C96 counterexample, `StopUntilRestart`.** "Suspend of module execution until new Start": the main loop goes on at
once, and the stopped module receives data. -/
theorem C96_suspend_counterexample :
    ∃ h s m, run (create 4) demoOps = some (h, s) ∧
      acts (stopUntilRestart (begin s h true false false 0)) [.env (.send (some 1)), .call .recv (-1), .look, .take] = some m ∧
      m.running = false ∧ m.out = some (.got (some 1)) := ⟨_, _, _, rfl, rfl, rfl, rfl⟩

end Verif.SyncWait
