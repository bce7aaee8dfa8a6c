import Verif.MbsCmdLemmas
/-!
# C118: commands to MBS are sent one after the other and answered once
-/

namespace Verif.MbsCmd
open Verif.Bytes

/-- Every command is answered at most once, in the order of submission; what is not yet answered
is still in the queue. -/
theorem C118_order (P : Proto) (ok : Bool) (buf : List Byte) (ops : List Op) (hb : buf.length = 256)
    (hg : Good P (submitted ops)) (hx : (run P (init ok buf) ops).exited = false) :
    (run P (init ok buf) ops).replies.map (·.1) ++ (run P (init ok buf) ops).cmds = submitted ops :=
  (inv_run ok hb _ ops rfl hg hx).order

/-- The records sent are those of the commands already answered and of the one waiting for its
reply, as far as they fit, in the order of submission and with the text of the command; a command
that does not fit is answered with failure; the send buffer is not overrun. -/
theorem C118_sent (P : Proto) (ok : Bool) (buf : List Byte) (ops : List Op) (hb : buf.length = 256)
    (hg : Good P (submitted ops)) (hx : (run P (init ok buf) ops).exited = false) :
    let s := run P (init ok buf) ops
    s.sent.map (textIn P) =
      ((s.replies.map (·.1) ++ if s.wait then s.cmds.take 1 else []).filter (Fits P)).map (expected P) ∧
    (∀ c b, (c, b) ∈ s.replies → ¬ Fits P c → b = false) ∧
    (s.wait = true → ∃ c l, s.cmds = c :: l ∧ Fits P c) ∧ s.ub = false := by
  have h := inv_run ok hb _ ops rfl hg hx
  refine ⟨h.sent, fun c b hm hf => h.long (c, b) hm hf, ?_, h.ub⟩
  intro hw
  have hne := h.wait hw
  have hfit := h.fit hw
  cases hc : (run P (init ok buf) ops).cmds with
  | nil => exact absurd hc hne
  | cons c l => exact ⟨c, l, rfl, hfit c (by rw [hc]; rfl)⟩

theorem step_recv {P : Proto} {s : St} (hx : s.exited = false) (hi : ConnInv s) {c : Cmd} {l : List Cmd}
    (hw : s.wait = true) (hc : s.cmds = c :: l) (r : List Byte) :
    step P s (.recv r) = match judge P s.sendId r with
      | some b => { s with cmds := l, wait := false, replies := s.replies ++ [(c, b)] }
      | none => s := by
  unfold step
  rw [if_neg (by rw [hx]; decide)]
  dsimp only
  rw [(received_fields P s r).2.1, if_pos (hi.conn hw)]
  unfold received answer
  rw [if_pos hw, hc]
  cases judge P s.sendId r <;> rfl

/-- A record from MBS while a command waits: a reply with the number of the record sent last and
status 0 answers the command with success, any other reply with failure; the keep-alive record and
records without byte order mark change nothing. -/
theorem C118_mbs_verdict (ok : Bool) (buf : List Byte) (ops : List Op) (c : Cmd) (l : List Cmd) (r : List Byte)
    (hx : (run .rem (init ok buf) ops).exited = false)
    (hw : (run .rem (init ok buf) ops).wait = true)
    (hc : (run .rem (init ok buf) ops).cmds = c :: l) (hr : r.length = 524) :
    let s := run .rem (init ok buf) ops
    (∀ id st, id < 0xffffffff → st < 2 ^ 32 → RemReply r id st →
      ∃ b, step .rem s (.recv r) =
          { s with cmds := l, wait := false, replies := s.replies ++ [(c, b)] } ∧
        (b = true ↔ st = 0 ∧ s.sent.getLast?.map idIn = some id)) ∧
    (∀ st, st < 2 ^ 32 → RemReply r 0xffffffff st → step .rem s (.recv r) = s) ∧
    ((∀ id st, id < 2 ^ 32 → st < 2 ^ 32 → ¬ RemReply r id st) → step .rem s (.recv r) = s) := by
  have hi := conn_run .rem ok buf ops
  have hid := id_run ok buf ops
  have hs := step_recv (P := .rem) hx hi hw hc r
  refine ⟨?_, ?_, ?_⟩
  · intro id st h1 h2 h
    refine ⟨decide (st = 0 ∧ (run .rem (init ok buf) ops).sendId = id), ?_, ?_⟩
    · rw [hs, judge_of_reply hr (by omega) (by omega) h, if_neg (by omega)]
    · rw [decide_eq_true_iff, last_id hid (hi.sent hw), Option.some.injEq]
  · intro st h2 h
    rw [hs, judge_of_reply hr (by omega) (by omega) h, if_pos rfl]
  · intro h
    rw [hs]
    rcases judge_rem hr (run .rem (init ok buf) ops).sendId with ⟨id, st, h1, h2, h3, _⟩ | ⟨_, h4⟩
    · exact absurd h3 (h id st (by omega) (by omega))
    · rw [h4]

/-- Records sent to MBS carry numbers 1 … 0x7fff0000; two records less than 0x7fff0000 apart have
different numbers, so a late reply does not make a later command successful. -/
theorem C118_numbers (ok : Bool) (buf : List Byte) (ops : List Op) :
    let s := run .rem (init ok buf) ops
    (∀ (i : Nat) (r : List Byte), s.sent[i]? = some r → 0 < idIn r ∧ idIn r ≤ 0x7fff0000) ∧
    (∀ (i j : Nat) (r q : List Byte), s.sent[i]? = some r → s.sent[j]? = some q → i < j →
      j < i + 0x7fff0000 → idIn r ≠ idIn q) := by
  have h := id_run ok buf ops
  constructor
  · intro i r hr
    rw [h.ids i r hr]
    omega
  · intro i j r q hr hq h1 h2
    rw [h.ids i r hr, h.ids j q hq]
    omega

/-- The prompter: every record answers the command, with success when it carries status 0. -/
theorem C118_prompter_verdict (pfx : List Byte) (ok : Bool) (buf : List Byte) (ops : List Op) (c : Cmd) (l : List Cmd)
    (r : List Byte) (hx : (run (.prompter pfx) (init ok buf) ops).exited = false)
    (hw : (run (.prompter pfx) (init ok buf) ops).wait = true)
    (hc : (run (.prompter pfx) (init ok buf) ops).cmds = c :: l) (hr : r.length = 8) :
    let s := run (.prompter pfx) (init ok buf) ops
    ∃ b, step (.prompter pfx) s (.recv r) =
        { s with cmds := l, wait := false, replies := s.replies ++ [(c, b)] } ∧
      (b = true ↔ PrompterReply r 0) := by
  have hi := conn_run (.prompter pfx) ok buf ops
  have hs := step_recv (P := .prompter pfx) hx hi hw hc r
  obtain ⟨b, h1, h2⟩ := judge_prompter hr pfx (run (.prompter pfx) (init ok buf) ops).sendId
  refine ⟨b, ?_, h2⟩
  rw [hs, h1]

/-! ## A client that waits for the reply -/

theorem exchange_spec {s : St} (x : Exchange) (hx : s.exited = false) (hc : s.conn = true)
    (hw : s.wait = false) (hq : s.cmds = []) (hid : IdInv s) (hst : x.status < 2 ^ 32)
    (hinf : x.info.length = 512) :
    (exchange s x).exited = false ∧ (exchange s x).conn = true ∧ (exchange s x).wait = false ∧
    (exchange s x).cmds = [] ∧ IdInv (exchange s x) ∧
    (exchange s x).replies = s.replies ++ [(x.cmd, decide (x.cmd.text.length ≤ 510 ∧ x.status = 0))] ∧
    (exchange s x).sent = s.sent ++ (if x.cmd.text.length ≤ 510 then
      [remRecord (nextId s.sendId) x.cmd.text] else []) := by
  have h1 : step .rem s (.submit x.cmd) = sendNext .rem { s with cmds := [x.cmd] } [x.cmd] := by
    unfold step next
    rw [if_neg (by rw [hx]; decide)]
    dsimp only
    rw [if_neg (by rw [hw]; decide), if_neg (by simp), if_neg (by rw [hc]; decide), hq]
    rfl
  have hstep := id_step hid (.submit x.cmd)
  unfold exchange
  by_cases hf : x.cmd.text.length ≤ 510
  · have ht : tooLong .rem x.cmd.text = false := by
      simp only [tooLong, decide_eq_false_iff_not]; omega
    have h2 : step .rem s (.submit x.cmd) =
        { s with cmds := [x.cmd], wait := true, sendId := nextId s.sendId,
                 sent := s.sent ++ [remRecord (nextId s.sendId) x.cmd.text] } := by
      rw [h1, sendNext, if_neg (by rw [ht]; decide)]
      rfl
    have hn : nextId s.sendId ≤ 0x7fff0000 := by
      have := hid.next
      unfold nextId
      split <;> omega
    dsimp only
    rw [h2, if_neg (by simp)]
    simp only [List.getLast?_concat]
    rw [idIn_rem (by omega)]
    rw [h2] at hstep
    have hl : (wire x.big 1 ++ wire x.big (nextId s.sendId) ++ wire x.big x.status ++ x.info).length = 524 := by
      simp [wire_length, hinf]
    have hrep : RemReply (wire x.big 1 ++ wire x.big (nextId s.sendId) ++ wire x.big x.status ++ x.info)
        (nextId s.sendId) x.status := by
      refine ⟨x.big, ?_⟩
      exact List.take_left' (by simp [wire_length])
    have hr := step_recv (P := .rem)
      (s := { s with cmds := [x.cmd], wait := true, sendId := nextId s.sendId,
                     sent := s.sent ++ [remRecord (nextId s.sendId) x.cmd.text] })
      hx ⟨fun _ => hc, fun _ => by simp, fun _ => by simp⟩ rfl rfl
      (wire x.big 1 ++ wire x.big (nextId s.sendId) ++ wire x.big x.status ++ x.info)
    rw [judge_of_reply hl (by omega) (by omega) hrep, if_neg (by omega)] at hr
    rw [hr]
    refine ⟨hx, hc, rfl, rfl, ⟨hstep.next, hstep.ids⟩, ?_, ?_⟩
    · simp [hf]
    · simp [hf]
  · have ht : tooLong .rem x.cmd.text = true := by
      simp only [tooLong, decide_eq_true_iff]; omega
    have h2 : step .rem s (.submit x.cmd) =
        { s with cmds := [], replies := s.replies ++ [(x.cmd, false)] } := by
      rw [h1, sendNext, if_pos ht]
      rfl
    rw [h2] at hstep
    dsimp only
    rw [h2, if_pos rfl]
    exact ⟨hx, hc, hw, rfl, hstep, by simp [hf], by simp [hf]⟩

/-- A client that submits the next command when it has the reply to the previous one gets for
every command the result MBS reports, for any number of commands and either byte order; every
command that fits is sent with its text. -/
theorem C118_session (buf : List Byte) (xs : List Exchange)
    (hst : ∀ x ∈ xs, x.status < 2 ^ 32 ∧ x.info.length = 512 ∧ NoNul x.cmd.text) :
    let s := xs.foldl exchange (init true buf)
    s.replies = xs.map (fun x => (x.cmd, decide (x.cmd.text.length ≤ 510 ∧ x.status = 0))) ∧
    s.sent.map (textIn .rem) = (xs.filter (fun x => x.cmd.text.length ≤ 510)).map (·.cmd.text) ∧
    s.cmds = [] ∧ s.exited = false := by
  have key : ∀ (xs : List Exchange) (s : St), s.exited = false → s.conn = true → s.wait = false →
      s.cmds = [] → IdInv s → (∀ x ∈ xs, x.status < 2 ^ 32 ∧ x.info.length = 512 ∧ NoNul x.cmd.text) →
      (xs.foldl exchange s).replies = s.replies ++
        xs.map (fun x => (x.cmd, decide (x.cmd.text.length ≤ 510 ∧ x.status = 0))) ∧
      (xs.foldl exchange s).sent.map (textIn .rem) = s.sent.map (textIn .rem) ++
        (xs.filter (fun x => x.cmd.text.length ≤ 510)).map (·.cmd.text) ∧
      (xs.foldl exchange s).cmds = [] ∧ (xs.foldl exchange s).exited = false := by
    intro xs
    induction xs with
    | nil => intro s h1 _ _ h4 _ _; simp [h1, h4]
    | cons x xs ih =>
      intro s h1 h2 h3 h4 h5 h6
      obtain ⟨a1, a2, a3⟩ := h6 x (by simp)
      obtain ⟨b1, b2, b3, b4, b5, b6, b7⟩ := exchange_spec x h1 h2 h3 h4 h5 a1 a2
      obtain ⟨c1, c2, c3, c4⟩ := ih (exchange s x) b1 b2 b3 b4 b5 (fun y hy => h6 y (by simp [hy]))
      rw [List.foldl_cons]
      refine ⟨?_, ?_, c3, c4⟩
      · rw [c1, b6]; simp
      · rw [c2, b7, List.map_append, List.append_assoc]
        congr 1
        by_cases hf : x.cmd.text.length ≤ 510
        · simp [hf, textIn_rem a3 hf]
        · simp [hf]
  have := key xs (init true buf) rfl rfl rfl rfl ⟨rfl, by simp [init]⟩ hst
  simpa [init] using this

example : (∀ x ∈ [Exchange.mk ⟨1, [115, 116]⟩ true 0 (List.replicate 512 0)],
    x.status < 2 ^ 32 ∧ x.info.length = 512 ∧ NoNul x.cmd.text) := by
  intro x hx
  rw [List.mem_singleton.1 hx]
  exact ⟨by decide, List.length_replicate, by simp [NoNul]⟩

/-! ## Commands that are not sent -/

theorem net_idle {P : Proto} : ∀ (ops : List Op) (s : St), s.wait = false → s.conn = true →
    (∀ o ∈ ops, NetOp o) → run P s ops = s := by
  intro ops
  induction ops with
  | nil => intro s _ _ _; rfl
  | cons o l ih =>
    intro s hw hc h
    have hs : step P s o = s := by
      have ho := h o (by simp)
      unfold step
      split
      · rfl
      · cases o with
        | sendInfo => rfl
        | recv r =>
          dsimp only
          have e : received P s r = s := by
            unfold received
            rw [if_neg (by rw [hw]; decide)]
          rw [e, if_pos hc]
        | submit c => exact absurd ho (by simp [NetOp])
        | close => exact absurd ho (by simp [NetOp])
        | timeout b => exact absurd ho (by simp [NetOp])
    show run P (step P s o) l = s
    rw [hs]
    exact ih s hw hc (fun o' ho' => h o' (by simp [ho']))

/-- The reply to a command does not start the next one: of two commands the second stays in the
queue, whatever MBS sends afterwards, and no timeout is active. -/
theorem C118_stalled_counterexample (buf : List Byte) (a b : Cmd) (ha : a.text.length ≤ 510) (r : List Byte)
    (hr : r.length = 524) (hrep : RemReply r 2 0) (ops : List Op) (ho : ∀ o ∈ ops, NetOp o) :
    let s := run .rem (init true buf) ([.submit a, .submit b, .recv r] ++ ops)
    s.cmds = [b] ∧ s.replies = [(a, true)] ∧ s.sent.length = 1 ∧ s.timer = false ∧ s.exited = false := by
  have ht : tooLong .rem a.text = false := by
    simp only [tooLong, decide_eq_false_iff_not]; omega
  have h1 : step .rem (init true buf) (.submit a) =
      { init true buf with cmds := [a], wait := true, sendId := 2, sent := [remRecord 2 a.text] } := by
    show sendNext .rem { init true buf with cmds := [a] } [a] = _
    rw [sendNext, if_neg (by rw [ht]; decide)]
    rfl
  have h2 : run .rem (init true buf) [.submit a, .submit b] =
      { init true buf with cmds := [a, b], wait := true, sendId := 2, sent := [remRecord 2 a.text] } := by
    show step .rem (step .rem (init true buf) (.submit a)) (.submit b) = _
    rw [h1]
    rfl
  have h3 : run .rem (init true buf) [.submit a, .submit b, .recv r] =
      { init true buf with cmds := [b], wait := false, sendId := 2, sent := [remRecord 2 a.text],
                           replies := [(a, true)] } := by
    show step .rem (run .rem (init true buf) [.submit a, .submit b]) (.recv r) = _
    rw [h2]
    have hs := step_recv (P := .rem) (c := a) (l := [b])
      (s := { init true buf with cmds := [a, b], wait := true, sendId := 2, sent := [remRecord 2 a.text] })
      rfl ⟨fun _ => rfl, fun _ => by simp, fun _ => by simp⟩ rfl rfl r
    rw [judge_of_reply hr (by decide) (by decide) hrep, if_neg (by decide)] at hs
    rw [hs]
    rfl
  rw [run_append, h3, net_idle ops _ rfl rfl ho]
  exact ⟨rfl, rfl, rfl, rfl, rfl⟩

example : ∃ r : List Byte, r.length = 524 ∧ RemReply r 2 0 :=
  ⟨wire false 1 ++ wire false 2 ++ wire false 0 ++ List.replicate 512 0,
    by rw [List.length_append, List.length_replicate]; rfl,
    false, List.take_left' (by simp [wire])⟩

/-- With a connection a submitted command starts the queue: afterwards a command waits for its
reply or there is none left. -/
theorem C118_submit_progress (P : Proto) (ok : Bool) (buf : List Byte) (ops : List Op) (c : Cmd)
    (hc : (run P (init ok buf) ops).conn = true) (hx : (run P (init ok buf) ops).exited = false) :
    let s := run P (init ok buf) (ops ++ [.submit c])
    s.exited = false ∧ (s.wait = true ∨ s.cmds = []) := by
  have hi := conn_run P ok buf ops
  dsimp only
  rw [run_snoc]
  constructor
  · cases h : (step P (run P (init ok buf) ops) (.submit c)).exited with
    | false => rfl
    | true => rw [step_exited hx hi] at h; rw [h.2] at hc; cases hc
  · unfold step next
    rw [if_neg (by rw [hx]; decide)]
    dsimp only
    split
    · rename_i hw; exact Or.inl hw
    · rename_i hw
      rw [if_neg (by simp), if_neg (by rw [hc]; decide)]
      rcases (sendNext_fields P ((run P (init ok buf) ops).cmds ++ [c])
        { run P (init ok buf) ops with cmds := (run P (init ok buf) ops).cmds ++ [c] }).2.2.2 (by simpa using hw) with ⟨h, _⟩ | ⟨_, h⟩
      · exact Or.inl h
      · exact Or.inr h

/-- After the loss of the connection the worker connects again by itself and starts the queue. -/
theorem C118_reconnect (P : Proto) (ok : Bool) (buf : List Byte) (ops : List Op) (fails : Nat)
    (hx : (run P (init ok buf) ops).exited = false) :
    let s := run P (init ok buf) (ops ++ .close :: (List.replicate fails (.timeout false) ++ [.timeout true]))
    s.exited = false ∧ s.conn = true ∧ (s.wait = true ∨ s.cmds = []) := by
  have hi := conn_run P ok buf ops
  dsimp only
  rw [run_append]
  generalize hs : run P (init ok buf) ops = s at hx hi
  show (run P (step P s .close) _).exited = false ∧ _
  have h1 : (step P s .close).exited = false ∧ (step P s .close).conn = false ∧
      (step P s .close).timer = true ∧ (step P s .close).wait = false := by
    unfold step
    rw [if_neg (by rw [hx]; decide)]
    dsimp only
    split
    · rename_i hw
      unfold answer
      split
      · rename_i e; exact absurd e (hi.cmds hw)
      · exact ⟨hx, rfl, rfl, rfl⟩
    · rename_i hw
      exact ⟨hx, rfl, rfl, by simpa using hw⟩
  show (run P (step P s .close) _).exited = false ∧ (run P (step P s .close) _).conn = true ∧
    ((run P (step P s .close) _).wait = true ∨ (run P (step P s .close) _).cmds = [])
  generalize step P s .close = t at h1
  obtain ⟨a1, a2, a3, a4⟩ := h1
  have h2 : ∀ n, run P t (List.replicate n (.timeout false)) = t := by
    intro n
    induction n with
    | zero => rfl
    | succ n ih =>
      show run P (step P t (.timeout false)) (List.replicate n (.timeout false)) = t
      have : step P t (.timeout false) = t := by
        unfold step
        rw [if_neg (by rw [a1]; decide)]
        simp [a2, a3]
      rw [this, ih]
  rw [run_append, h2]
  have h3 : run P t [.timeout true] = next P { t with conn := true, timer := false } := by
    show step P t (.timeout true) = _
    unfold step
    rw [if_neg (by rw [a1]; decide)]
    simp [a3]
  rw [h3]
  unfold next
  rw [if_neg (by rw [a4]; decide)]
  split
  · rename_i e; exact ⟨a1, rfl, Or.inr e⟩
  · rw [if_neg (by simp)]
    have hf := sendNext_fields P t.cmds { t with conn := true, timer := false }
    refine ⟨by rw [hf.2.1]; exact a1, by rw [hf.1], ?_⟩
    rcases hf.2.2.2 a4 with ⟨h, _⟩ | ⟨_, h⟩
    · exact Or.inl h
    · exact Or.inr h

/-- When the connection is lost, the command waiting for its reply fails, the others stay. -/
theorem C118_lost (P : Proto) (ok : Bool) (buf : List Byte) (ops : List Op) (c : Cmd) (l : List Cmd)
    (hx : (run P (init ok buf) ops).exited = false) (hw : (run P (init ok buf) ops).wait = true)
    (hc : (run P (init ok buf) ops).cmds = c :: l) :
    let s := run P (init ok buf) (ops ++ [.close])
    s.replies = (run P (init ok buf) ops).replies ++ [(c, false)] ∧ s.cmds = l ∧ s.wait = false ∧
    s.conn = false := by
  dsimp only
  rw [run_snoc]
  unfold step
  rw [if_neg (by rw [hx]; decide)]
  dsimp only
  rw [if_pos hw]
  unfold answer
  dsimp only
  rw [hc]
  exact ⟨rfl, rfl, rfl, rfl⟩

theorem sendNext_replies (P : Proto) : ∀ (l : List Cmd) (s : St),
    ∃ l', (sendNext P s l).replies = s.replies ++ l' ∧ ∀ p ∈ l', p.2 = false := by
  intro l
  induction l with
  | nil => intro s; exact ⟨[], (List.append_nil _).symm, by simp⟩
  | cons c l ih =>
    intro s
    rw [sendNext]
    split
    · obtain ⟨l', h1, h2⟩ := ih { s with replies := s.replies ++ [(c, false)] }
      refine ⟨(c, false) :: l', by rw [h1]; simp, ?_⟩
      intro p hp
      rcases List.mem_cons.1 hp with rfl | h
      · rfl
      · exact h2 p h
    · exact ⟨[], by rw [(send_fields P _ _).2.2.2.2.1, List.append_nil], by simp⟩

theorem next_replies (P : Proto) (s : St) :
    ∃ l', (next P s).replies = s.replies ++ l' ∧ ∀ p ∈ l', p.2 = false := by
  unfold next
  split
  · exact ⟨[], (List.append_nil _).symm, by simp⟩
  · split
    · exact ⟨[], (List.append_nil _).symm, by simp⟩
    · split
      · exact ⟨[], (List.append_nil _).symm, by simp⟩
      · exact sendNext_replies P _ _

/-- Replies once given stay, and only a record from the other side makes a command successful. -/
theorem C118_success_needs_reply (P : Proto) (ok : Bool) (buf : List Byte) (ops : List Op) (o : Op) :
    ∃ l', (run P (init ok buf) (ops ++ [o])).replies = (run P (init ok buf) ops).replies ++ l' ∧
      ((∃ r, o = .recv r) ∨ ∀ p ∈ l', p.2 = false) := by
  rw [run_snoc]
  generalize run P (init ok buf) ops = s
  have h0 : ∃ l', s.replies = s.replies ++ l' ∧ ((∃ r, o = .recv r) ∨ ∀ p ∈ l', p.2 = false) :=
    ⟨[], (List.append_nil _).symm, Or.inr (by simp)⟩
  unfold step
  split
  · exact h0
  · cases o with
    | submit c =>
      obtain ⟨l', h1, h2⟩ := next_replies P { s with cmds := s.cmds ++ [c] }
      exact ⟨l', h1, Or.inr h2⟩
    | sendInfo => exact h0
    | recv r =>
      have h1 : ∃ l', (received P s r).replies = s.replies ++ l' := by
        unfold received answer
        split
        · split
          · split
            · exact ⟨[], (List.append_nil _).symm⟩
            · exact ⟨_, rfl⟩
          · exact ⟨[], (List.append_nil _).symm⟩
        · exact ⟨[], (List.append_nil _).symm⟩
      obtain ⟨l', h1⟩ := h1
      refine ⟨l', ?_, Or.inl ⟨r, rfl⟩⟩
      dsimp only
      split <;> exact h1
    | close =>
      dsimp only
      split
      · unfold answer
        split
        · exact h0
        · exact ⟨_, rfl, Or.inr (by simp)⟩
      · exact h0
    | timeout b =>
      dsimp only
      split
      · exact h0
      · split
        · obtain ⟨l', h1, h2⟩ := next_replies P { s with conn := true, timer := false }
          exact ⟨l', h1, Or.inr h2⟩
        · exact h0

/-- A worker started without reachable MBS tries until it is connected. -/
theorem C118_connect (P : Proto) (buf : List Byte) (fails : Nat) :
    let s := run P (init false buf) (List.replicate fails (.timeout false) ++ [.timeout true])
    s.conn = true ∧ s.exited = false := by
  dsimp only
  have h2 : ∀ n, run P (init false buf) (List.replicate n (.timeout false)) = init false buf := by
    intro n
    induction n with
    | zero => rfl
    | succ n ih => exact ih
  rw [run_append, h2]
  exact ⟨rfl, rfl⟩

/-- The process ends (`exit(5)`) exactly when a command is submitted while there is no connection. -/
theorem C118_exit_iff (P : Proto) (ok : Bool) (buf : List Byte) (ops : List Op) :
    (run P (init ok buf) ops).exited = true ↔
      ∃ a c b, ops = a ++ .submit c :: b ∧ (run P (init ok buf) a).conn = false := by
  constructor
  · have : ∀ (n : Nat) (ops : List Op), ops.length = n → (run P (init ok buf) ops).exited = true →
        ∃ a c b, ops = a ++ .submit c :: b ∧ (run P (init ok buf) a).conn = false := by
      intro n
      induction n with
      | zero =>
        intro ops h hx
        rw [List.length_eq_zero_iff.1 h] at hx
        cases hx
      | succ n ih =>
        intro ops hl hx
        rcases List.eq_nil_or_concat ops with rfl | ⟨a, o, rfl⟩
        · simp at hl
        · rw [List.concat_eq_append] at *
          rw [run_snoc] at hx
          cases h : (run P (init ok buf) a).exited with
          | true =>
            obtain ⟨a', c, b, e, hc⟩ := ih a (by simpa using hl) h
            exact ⟨a', c, b ++ [o], by rw [e]; simp, hc⟩
          | false =>
            obtain ⟨⟨c, e⟩, hc⟩ := (step_exited h (conn_run P ok buf a) o).1 hx
            exact ⟨a, c, [], by rw [e], hc⟩
    exact this _ ops rfl
  · rintro ⟨a, c, b, rfl, hc⟩
    rw [run_append]
    show (run P (step P (run P (init ok buf) a) (.submit c)) b).exited = true
    have h1 : (step P (run P (init ok buf) a) (.submit c)).exited = true := by
      cases h : (run P (init ok buf) a).exited with
      | true => rw [exited_step _ h, h]
      | false => exact (step_exited h (conn_run P ok buf a) _).2 ⟨⟨c, rfl⟩, hc⟩
    rw [exited_run b h1, h1]

/-- A command that arrives while MBS is not reachable ends the process, for both workers. -/
theorem C118_exit_counterexample (P : Proto) (buf : List Byte) (c : Cmd) :
    (run P (init false buf) [.submit c]).exited = true ∧
    (run P (init true buf) [.close, .submit c]).exited = true :=
  ⟨(C118_exit_iff P false buf _).2 ⟨[], c, [], rfl, rfl⟩,
   (C118_exit_iff P true buf _).2 ⟨[.close], c, [], rfl, rfl⟩⟩

/-- The prompter worker takes any record as reply to the command sent last: when the prompter sends
a second record after the reply to `a`, and it arrives after `b` was sent, `b` is successful. -/
theorem C118_prompter_late_counterexample (buf : List Byte) (a b : Cmd) (r : List Byte)
    (ha : a.text.length ≤ 250) (hb : b.text.length ≤ 250) (hr : r.length = 8) (hrep : PrompterReply r 0) :
    (run (.prompter [104, 58]) (init true buf) [.submit a, .recv r, .submit b, .recv r]).replies =
      [(a, true), (b, true)] := by
  have hj : ∀ i, judge (.prompter [104, 58]) i r = some true := by
    intro i
    obtain ⟨x, h1, h2⟩ := judge_prompter hr [104, 58] i
    rw [h1, h2.2 hrep]
  have ht : ∀ c : Cmd, c.text.length ≤ 250 → tooLong (.prompter [104, 58]) c.text = false := by
    intro c hc
    simp only [tooLong, List.length_cons, List.length_nil]
    rw [if_pos (by decide), decide_eq_false_iff_not]
    omega
  have h1 : ∀ (s : St) (c : Cmd), s.exited = false → s.conn = true → s.wait = false → s.cmds = [] →
      c.text.length ≤ 250 →
      let t := step (.prompter [104, 58]) (step (.prompter [104, 58]) s (.submit c)) (.recv r)
      t.exited = false ∧ t.conn = true ∧ t.wait = false ∧ t.cmds = [] ∧ t.replies = s.replies ++ [(c, true)] := by
    intro s c hx hc hw hq hl
    have e1 : step (.prompter [104, 58]) s (.submit c) =
        send (.prompter [104, 58]) { s with cmds := [c] } c.text := by
      unfold step next
      rw [if_neg (by rw [hx]; decide)]
      dsimp only
      rw [if_neg (by rw [hw]; decide), if_neg (by simp), if_neg (by rw [hc]; decide), hq]
      show sendNext _ _ [c] = _
      rw [sendNext, if_neg (by rw [ht c hl]; decide)]
    have hf := send_fields (.prompter [104, 58]) { s with cmds := [c] } c.text
    dsimp only
    rw [e1]
    rw [step_recv (c := c) (l := []) (by rw [hf.2.2.2.1]; exact hx)
      ⟨fun _ => by rw [hf.1]; exact hc, fun _ => hf.2.2.2.2.2.2, fun _ => by rw [hf.2.2.1]; simp⟩ hf.2.1 hf.2.2.1,
      hj]
    exact ⟨by rw [hf.2.2.2.1]; exact hx, by rw [hf.1]; exact hc, rfl, rfl, by rw [hf.2.2.2.2.1]⟩
  obtain ⟨x1, x2, x3, x4, x5⟩ := h1 (init true buf) a rfl rfl rfl rfl ha
  obtain ⟨_, _, _, _, y5⟩ := h1 _ b x1 x2 x3 x4 hb
  have : run (.prompter [104, 58]) (init true buf) [.submit a, .recv r, .submit b, .recv r] =
    step (.prompter [104, 58]) (step (.prompter [104, 58]) (step (.prompter [104, 58])
      (step (.prompter [104, 58]) (init true buf) (.submit a)) (.recv r)) (.submit b)) (.recv r) := rfl
  rw [this, y5, x5]
  rfl

example : PrompterReply [0, 0, 0, 1, 0, 0, 0, 0] 0 := ⟨true, rfl⟩

/-- A host name that does not fit into the send buffer defeats the length check: the buffer is
overrun by every command of reasonable length. -/
theorem C118_prefix_counterexample (pfx buf : List Byte) (c : Cmd) (hp : NoNul pfx) (hl : 256 < pfx.length)
    (hl2 : pfx.length ≤ 2 ^ 32) (hc : c.text.length < 2 ^ 32) :
    (run (.prompter pfx) (init true buf) [.submit c]).ub = true := by
  have ht : tooLong (.prompter pfx) c.text = false := by
    simp only [tooLong]
    rw [if_neg (by omega), decide_eq_false_iff_not]
    have e : (2 : Nat) ^ 64 = 2 ^ 32 * 2 ^ 32 := by rw [← Nat.pow_add]
    have e2 : 2 * 2 ^ 32 ≤ (2 : Nat) ^ 32 * 2 ^ 32 := Nat.mul_le_mul_right _ (by decide)
    rw [← e] at e2
    omega
  have e1 : run (.prompter pfx) (init true buf) [.submit c] =
      send (.prompter pfx) { init true buf with cmds := [c] } c.text := by
    show sendNext (.prompter pfx) { init true buf with cmds := [c] } [c] = _
    rw [sendNext, if_neg (by rw [ht]; decide)]
  rw [e1]
  have hlen : 256 < (prompterBuf buf pfx c.text).length := by
    unfold prompterBuf
    rw [cstr_id hp]
    simp only [List.length_append]
    omega
  show (false || decide (256 < (prompterBuf buf pfx c.text).length)) = true
  simp [hlen]

/-! Examples -/

example : Good (.prompter [104, 58]) (submitted [.submit ⟨1, [115]⟩, .close, .submit ⟨2, [116]⟩]) :=
  ⟨fun p h => by
      cases h
      exact ⟨by simp [NoNul], by decide⟩,
   fun c hc => by
      simp only [submitted, List.mem_cons, List.not_mem_nil, or_false] at hc
      rcases hc with rfl | rfl <;> simp [NoNul]⟩

example : (run .rem (init true []) [.submit ⟨1, [115]⟩]).wait = true ∧
    (run .rem (init true []) [.submit ⟨1, [115]⟩]).cmds = [⟨1, [115]⟩] ∧
    (run .rem (init true []) [.submit ⟨1, [115]⟩]).exited = false := ⟨rfl, rfl, rfl⟩

example : (run (.prompter [104, 58]) (init true []) [.submit ⟨1, [115]⟩]).wait = true ∧
    (run (.prompter [104, 58]) (init true []) [.submit ⟨1, [115]⟩]).exited = false := ⟨rfl, rfl⟩

end Verif.MbsCmd
