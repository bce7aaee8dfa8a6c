import Verif.ConnMgrTime

/-!
# C72: connection manager

A manager in which nothing has happened (`Fresh`) and any list of operations: events of connection objects, time
outs, commands, answers of devices and of other nodes, in any order.
-/

namespace Verif.ConnMgr

open Spec

/-- For the examples: record 0 is a required server, 1 an optional server, every other one a required client. -/
def demo : Mgr :=
  { objs := fun k =>
      if k = 0 then { localUrl := 1, remoteUrl := 2, server := true, opt := false }
      else if k = 1 then { localUrl := 3, remoteUrl := 4, server := true, opt := true }
      else { localUrl := 2, remoteUrl := 1, server := false, opt := false, clientId := 9 } }

theorem demo_fresh : Fresh demo := by
  refine ⟨rfl, rfl, rfl, ?_, ?_, ?_⟩ <;> intro id <;> simp only [demo] <;> split
  · rfl
  · split <;> rfl
  · rfl
  · split <;> rfl
  · rfl
  · split <;> rfl

def yes : Nat → Bool := fun _ => true
def none' : Nat → Bool := fun _ => false

/-- The server is prepared by its device, another node asks, the device says that the connection is there. -/
def serverRun : List Op :=
  [.event 0 .pending false, .activate 7, .timeout yes yes 100 5000, .handleReply 0 true, .globalConnect yes 8 1 2 9,
   .answerRemote 0 true, .handleReply 0 true]

/-- The client is prepared, asks, is accepted, the device says that the connection is there. -/
def clientRun : List Op :=
  [.event 2 .pending false, .activate 7, .timeout yes yes 100 5000, .handleReply 2 true, .timeout yes yes 100 4900,
   .connectReply yes 1 2 .ok { connId := some (5, 6), serverId := 4, inline := 16, timeout := 3000, ackn := true },
   .handleReply 2 true]

/-- Every record goes only the ways of `Next`: the device prepares it, then it asks or is asked, then the device
connects; it may fail everywhere, and starts again only after it was connected or failed. -/
theorem C72_progress {m : Mgr} (h : Fresh m) (ops : List Op) (id : Nat) :
    Legal .init (progressOf id (run m ops).out) ((run m ops).objs id).progress :=
  (Inv.run ops (Inv.fresh h)).traced id

example : progressOf 0 (run demo serverRun).out = [.init, .doingInit, .pending, .doingConnect, .connected, .init] := by
  decide

example : progressOf 2 (run demo clientRun).out =
    [.init, .doingInit, .pending, .waitReply, .doingConnect, .connected, .init] := by decide

/-- Every command which came is answered once or still waits: no command is answered twice, none is forgotten. -/
theorem C72_commands {m : Mgr} (h : Fresh m) (ops : List Op) (c : Nat) :
    received c ops = answered c (run m ops).out + waiting (run m ops) c := by
  have := run_bal c ops (Inv.fresh h)
  have h0 : bal m c = 0 := by
    unfold bal waiting
    rw [h.out, h.cmd, h.recs]
    rfl
  unfold bal at this h0
  omega

example : received 8 serverRun = 1 ∧ answered 8 (run demo serverRun).out = 1 ∧
    answered 7 (run demo serverRun).out = 1 := by decide

/-- One check of the records: a record which is over leaves the list, its object gets the state which belongs to it,
the others are not touched; the activating command is answered as `Verdict` says and is then gone. -/
theorem C72_check {m : Mgr} (h : Fresh m) (ops : List Op) (devs addrs : Nat → Bool) (d t : Int) :
    let s := run m ops
    let n := step s (.timeout devs addrs d t)
    s.doing ≠ 0 →
    ∃ (p : Nat → Progress) (l : List Out) (v : Option Res),
      (∀ id ∈ s.recs, (remains (s.objs id) d > 0 ∧ p id = (s.objs id).progress) ∨
        (remains (s.objs id) d ≤ 0 ∧ Due (devs (s.objs id).dev ∧ (s.objs id).port) (addrs (s.objs id).remoteUrl)
          (s.objs id).server (s.objs id).progress (p id))) ∧
      n.recs = s.recs.filter (fun id => !(p id == .failed || p id == .connected)) ∧
      (∀ id ∈ s.recs, p id = .failed → (n.objs id).state = .failed) ∧
      (∀ id ∈ n.recs, (n.objs id).progress = p id ∧ (n.objs id).state = (s.objs id).state) ∧
      Verdict (∃ id ∈ s.recs, p id = .failed ∧ (s.objs id).opt = false) n.recs (fun id => (s.objs id).opt)
        (decide (s.cmd ≠ none ∧ t = 0)) v ∧
      n.out = s.out ++ l ++ (match s.cmd, v with | some c, some r => [.answer c r] | _, _ => []) ∧
      n.cmd = (if v = none then s.cmd else none) := by
  intro s n hd
  have I : Inv s := Inv.run ops (Inv.fresh h)
  have hn : n = checkRecs (s.recs.foldl (turn devs addrs d) s) (decide (s.left t = 0)) := timeout_doing devs addrs d t hd
  have T := Inv.turns devs addrs d s.recs I (fun _ h => h)
  obtain ⟨l0, a0, _, _, _, _⟩ := turns_out devs addrs d s.recs s
  obtain ⟨v, l1, C⟩ := checkRecs_spec T.1.nodup (decide (s.left t = 0))
  have S := Same.turns devs addrs d s.recs s
  have hcmd := turns_cmd devs addrs d s.recs s
  have hfin : decide (s.left t = 0) = decide (s.cmd ≠ none ∧ t = 0) := by
    apply decide_eq_decide.mpr
    unfold Mgr.left
    by_cases hc : s.cmd = none
    · rw [if_pos hc]; simp [hc]
    · rw [if_neg hc]; simp [hc]
  have hrec : n.recs = s.recs.filter (fun id =>
      !((((s.recs.foldl (turn devs addrs d) s).objs id).progress == .failed) ||
        (((s.recs.foldl (turn devs addrs d) s).objs id).progress == .connected))) := by
    rw [hn, C.recs]
    unfold remaining
    rw [T.2]
    rfl
  refine ⟨fun id => ((s.recs.foldl (turn devs addrs d) s).objs id).progress, l0 ++ l1, v, ?_, hrec, ?_, ?_, ?_, ?_, ?_⟩
  · intro id hid
    dsimp only
    rw [turns_at devs addrs d s.recs s I.nodup hid]
    exact turn_due devs addrs d s id
  · intro id hid hp
    dsimp only at hp
    rw [hn]
    have := (checkRecs_gone T.1.nodup (decide (s.left t = 0)) (by rw [T.2]; exact hid) (Or.inl hp)).2
    rw [this, hp]
    rfl
  · intro id hid
    rw [hn] at hid ⊢
    obtain ⟨e, hm⟩ := checkRecs_objs T.1.nodup _ hid
    rw [e]
    refine ⟨rfl, ?_⟩
    rw [T.2] at hm
    rw [turns_at devs addrs d s.recs s I.nodup hm]
    exact turn_state devs addrs d s id
  · rw [← hfin, hn, C.recs]
    have hv := C.verdict
    have e1 : (∃ id ∈ (s.recs.foldl (turn devs addrs d) s).recs,
        ((s.recs.foldl (turn devs addrs d) s).objs id).progress = .failed ∧
        ((s.recs.foldl (turn devs addrs d) s).objs id).opt = false) =
        (∃ id ∈ s.recs, ((s.recs.foldl (turn devs addrs d) s).objs id).progress = .failed ∧
          (s.objs id).opt = false) := by
      rw [T.2]
      apply propext
      constructor <;> rintro ⟨id, a, b, c⟩ <;> refine ⟨id, a, b, ?_⟩
      · rw [← (fixed_eq (S id)).2.2.2]; exact c
      · rw [(fixed_eq (S id)).2.2.2]; exact c
    have e2 : (fun id => ((s.recs.foldl (turn devs addrs d) s).objs id).opt) = fun id => (s.objs id).opt :=
      funext fun id => (fixed_eq (S id)).2.2.2
    rw [e1, e2] at hv
    exact hv
  · rw [hn, C.out, a0, hcmd, List.append_assoc s.out l0 l1]
    congr 1
    cases s.cmd <;> cases v <;> rfl
  · rw [hn, C.cmd, hcmd]

example : let s := run demo (serverRun.take 6)
    s.doing ≠ 0 ∧ (step s (.handleReply 0 true)).out = s.out ++ [.progress 0 .connected, .progress 0 .init,
      .state 0 .connected, .answer 7 .ok] := by decide

example : let s := run demo (serverRun.take 6)
    (step s (.timeout yes yes 100 0)).out = s.out ++ [.answer 7 .timedout] := by decide

/-- When the activating command is answered with success: from its arrival no required connection failed, every
required record which was in the list then was connected meanwhile, and only optional records are left. -/
theorem C72_answer_ok {m : Mgr} (h : Fresh m) (ops1 : List Op) (c : Nat) (ops2 : List Op) (op : Op)
    (act : Op) (hact : act = .activate c ∨ act = .shutdown c) :
    let s := step (run m ops1) act
    let e := run s ops2
    let n := step e op
    Kept c s ops2 → n.cmd = none → ∀ l, n.out = e.out ++ l → Out.answer c .ok ∈ l →
    ∃ l', n.out = s.out ++ l' ∧
      ∀ id, (s.objs id).opt = false →
        id ∉ n.recs ∧ Out.state id .failed ∉ l' ∧ (id ∈ s.recs → Out.progress id .connected ∈ l') := by
  intro s e n hk hn l hl ha
  have I : Inv s := (Inv.run ops1 (Inv.fresh h)).step act
  obtain ⟨l1, e1, hc, h1⟩ := kept_required ops2 I hk
  obtain ⟨l2, e2, R⟩ := required_step (I.run ops2) hc op
  have hl2 : l = l2 := by
    have : (run s ops2).out ++ l = (run s ops2).out ++ l2 := hl.symm.trans e2
    exact List.append_cancel_left this
  subst hl2
  refine ⟨l1 ++ l, ?_, ?_⟩
  · show (step (run s ops2) op).out = _
    rw [e2, e1, List.append_assoc]
  · intro id hid
    have hopt : ((run s ops2).objs id).opt = false := by
      rw [(fixed_eq (Same.run ops2 s id)).2.2.2]; exact hid
    have hg : Good (step (run s ops2) op) c l := Or.inr ⟨hn, ha⟩
    have hnot : id ∉ n.recs := by
      intro hm
      have := R.done hn ha id hm
      rw [hopt] at this
      cases this
    refine ⟨hnot, ?_, ?_⟩
    · intro hm
      rcases List.mem_append.mp hm with hm | hm
      · exact (h1 id hid).1 hm
      · exact R.state hg id hopt hm
    · intro hm
      rcases (h1 id hid).2 hm with h' | h'
      · rcases R.stays hg id hopt h' with h'' | h''
        · exact absurd h'' hnot
        · exact List.mem_append_right _ h''
      · exact List.mem_append_left _ h'

example : let s := step (run demo [.event 0 .pending false]) (.activate 7)
    let ops2 := (serverRun.drop 2).take 4
    let e := run s ops2
    let n := step e (.handleReply 0 true)
    Kept 7 s ops2 ∧ n.cmd = none ∧ n.out = e.out ++ [.progress 0 .connected, .progress 0 .init, .state 0 .connected,
      .answer 7 .ok] ∧ 0 ∈ s.recs ∧ (s.objs 0).opt = false := by
  refine ⟨?_, by decide, by decide, by decide, by decide⟩
  exact ⟨rfl, rfl, rfl, rfl, rfl⟩

/-- A record becomes connected, and its object gets the state connected from the manager, only when the device says
so and the record is in the last step. -/
theorem C72_connected {m : Mgr} (h : Fresh m) (ops : List Op) (op : Op) (l : List Out)
    (hl : (step (run m ops) op).out = (run m ops).out ++ l) (id : Nat)
    (hm : Out.progress id .connected ∈ l ∨ Out.state id .connected ∈ l) :
    op = .handleReply id true ∧ ((run m ops).objs id).progress = .doingConnect := by
  obtain ⟨l', e, hc⟩ := step_connected (Inv.run ops (Inv.fresh h)) op
  have : l = l' := List.append_cancel_left (hl.symm.trans e)
  subst this
  exact hc id hm

example : (step (run demo (serverRun.take 6)) (.handleReply 0 true)).out = (run demo (serverRun.take 6)).out ++
    [.progress 0 .connected, .progress 0 .init, .state 0 .connected, .answer 7 .ok] := by decide

/-- Only clients ask another node, and they ask for the connection the other way round. -/
theorem C72_requests {m : Mgr} (h : Fresh m) (ops : List Op) (id u1 u2 cl : Nat) (t : Int)
    (hm : Out.connect id u1 u2 cl t ∈ (run m ops).out) :
    (m.objs id).server = false ∧ u1 = (m.objs id).remoteUrl ∧ u2 = (m.objs id).localUrl := by
  have := run_asks ops (Inv.fresh h) (by intro _ _ _ _ _ hm; rw [h.out] at hm; simp at hm) id u1 u2 cl t hm
  obtain ⟨a, b, c, _⟩ := fixed_eq (Same.run ops m id)
  rw [← a, ← b, ← c]
  exact this

example : Out.connect 2 1 2 0 10000 ∈ (run demo clientRun).out := by decide

/-- Without a record for the addresses the request of another node is refused. -/
theorem C72_unknown (m : Mgr) (devs : Nat → Bool) (c u1 u2 cl : Nat)
    (hno : ∀ id ∈ m.recs, ¬((m.objs id).localUrl = u1 ∧ (m.objs id).remoteUrl = u2)) :
    step m (.globalConnect devs c u1 u2 cl) = m.emit [.answer c .no] := by
  have : find m u1 u2 = none := by
    unfold find
    rw [List.find?_eq_none]
    intro id hid
    simpa using hno id hid
  simp only [step, globalConnect, this]

example : ∀ id ∈ (run demo (serverRun.take 3)).recs, ¬(((run demo (serverRun.take 3)).objs id).localUrl = 2 ∧
    ((run demo (serverRun.take 3)).objs id).remoteUrl = 1) := by decide

/-- The record which a request means: the first one with these addresses. -/
def Means (m : Mgr) (loc rem id : Nat) : Prop :=
  ∃ a b, m.recs = a ++ id :: b ∧ (m.objs id).localUrl = loc ∧ (m.objs id).remoteUrl = rem ∧
    ∀ k ∈ a, ¬((m.objs k).localUrl = loc ∧ (m.objs k).remoteUrl = rem)

theorem means_find {m : Mgr} {loc rem id : Nat} (h : Means m loc rem id) : find m loc rem = some id := by
  obtain ⟨a, b, e, h1, h2, h3⟩ := h
  unfold find
  rw [e, List.find?_append, List.find?_eq_none.mpr (by intro k hk; simpa using h3 k hk)]
  simp [h1, h2]

/-- The request of another node for a record: answered at once as `Reply` says, then nothing else changes; otherwise
the command waits at the record, the record goes to the last step and the device is asked to connect. -/
theorem C72_reply (m : Mgr) (devs : Nat → Bool) (c u1 u2 cl id : Nat) (h : Means m u1 u2 id) :
    ∃ v, Reply (devs (m.objs id).dev) (some (m.objs id).progress) v ∧
      let n := step m (.globalConnect devs c u1 u2 cl)
      (∀ r, v = some r → n = m.emit [.answer c r]) ∧
      (v = none → (n.objs id).progress = .doingConnect ∧ (n.objs id).remote = some c ∧
        (∀ k, k ≠ id → n.objs k = m.objs k) ∧ n.recs = m.recs ∧ n.cmd = m.cmd ∧
        ((m.objs id).server = true → (n.objs id).clientId = cl ∧
          n.out = m.out ++ [.filled c (infoOf (m.objs id)),
            .progress id .doingConnect, .handle id]) ∧
        ((m.objs id).server = false → n.out = m.out ++ [.progress id .doingConnect, .handle id])) := by
  have hf := means_find h
  cases hp : (m.objs id).progress with
  | init => exact ⟨some .again, .early _ (Or.inl rfl), by
      simp only [step, globalConnect, hf, hp]; exact ⟨fun r e => by cases e; rfl, fun e => by cases e⟩⟩
  | doingInit => exact ⟨some .again, .early _ (Or.inr rfl), by
      simp only [step, globalConnect, hf, hp]; exact ⟨fun r e => by cases e; rfl, fun e => by cases e⟩⟩
  | waitReply => exact ⟨some .no, .wrong _ (Or.inl rfl), by
      simp only [step, globalConnect, hf, hp]; exact ⟨fun r e => by cases e; rfl, fun e => by cases e⟩⟩
  | doingConnect => exact ⟨some .no, .wrong _ (Or.inr (Or.inl rfl)), by
      simp only [step, globalConnect, hf, hp]; exact ⟨fun r e => by cases e; rfl, fun e => by cases e⟩⟩
  | connected => exact ⟨some .no, .wrong _ (Or.inr (Or.inr (Or.inr rfl))), by
      simp only [step, globalConnect, hf, hp]; exact ⟨fun r e => by cases e; rfl, fun e => by cases e⟩⟩
  | failed => exact ⟨some .no, .wrong _ (Or.inr (Or.inr (Or.inl rfl))), by
      simp only [step, globalConnect, hf, hp]; exact ⟨fun r e => by cases e; rfl, fun e => by cases e⟩⟩
  | pending =>
    cases hd : devs (m.objs id).dev with
    | false => exact ⟨some .no, .noDevice rfl, by
        simp only [step, globalConnect, hf, hp, hd]; exact ⟨fun r e => by cases e; rfl, fun e => by cases e⟩⟩
    | true =>
      refine ⟨none, .start rfl, ?_⟩
      simp only [step, globalConnect, hf, hp, hd, if_true]
      refine ⟨fun r e => (by cases e), fun _ => ?_⟩
      have L := Local.fillAnswer m c id cl
      refine ⟨by simp [fillAnswer, Mgr.setProgress], by simp [fillAnswer, Mgr.setProgress], L.other, L.recs, L.cmd, ?_, ?_⟩
      · intro hs
        simp [fillAnswer, fill, Mgr.setProgress, hs, infoOf, Rec.delay]
      · intro hs
        simp [fillAnswer, fill, Mgr.setProgress, hs]

example : Means (run demo (serverRun.take 4)) 1 2 0 ∧ ((run demo (serverRun.take 4)).objs 0).progress = .pending :=
  ⟨⟨[], [], by decide, by decide, by decide, by simp⟩, by decide⟩

/-- Server and client: what the server writes into the command is what the client has after the answer; both sides
then know the same identifier, time out, acknowledge and inline size, the identifier of the server's and of the
client's device. -/
theorem C72_both_ends (ms mc : Mgr) (devs devc : Nat → Bool) (c s k : Nat) (i : Info)
    (hs : Means ms (mc.objs k).remoteUrl (mc.objs k).localUrl s)
    (hk : Means mc (mc.objs k).localUrl (mc.objs k).remoteUrl k)
    (hserver : (ms.objs s).server = true) (hclient : (mc.objs k).server = false)
    (hp : (ms.objs s).progress = .pending) (hw : (mc.objs k).progress = .waitReply)
    (hds : devs (ms.objs s).dev = true) (hdc : devc (mc.objs k).dev = true) :
    let ns := step ms (.globalConnect devs c (mc.objs k).remoteUrl (mc.objs k).localUrl (mc.objs k).clientId)
    let nc := step mc (.connectReply devc (mc.objs k).remoteUrl (mc.objs k).localUrl .ok i)
    Out.filled c i ∉ ms.out → Out.filled c i ∈ ns.out →
    (nc.objs k).connId = (ns.objs s).connId ∧ (nc.objs k).serverId = (ns.objs s).serverId ∧
    (nc.objs k).clientId = (ns.objs s).clientId ∧ (nc.objs k).timeout = (ns.objs s).timeout ∧
    (nc.objs k).ackn = (ns.objs s).ackn ∧ (nc.objs k).inline = (ns.objs s).inline ∧
    (nc.objs k).progress = .doingConnect ∧ (ns.objs s).progress = .doingConnect ∧
    nc.out = mc.out ++ [.progress k .doingConnect, .handle k] := by
  intro ns nc hnot hin
  have hfs := means_find hs
  have hfk := means_find hk
  have ens : ns = fillAnswer ms c s (mc.objs k).clientId := by
    simp only [ns, step, globalConnect, hfs, hp, hds, if_true]
  have enc : nc = (((mc.upd k fun r => r.take i).upd k fun r => r.delay 100000 false).setProgress k .doingConnect).emit
      [.handle k] := by
    simp only [nc, step, connectReply, hfk, hw]
    rw [if_neg (by simp), if_neg (by rw [upd_self, take_dev, hdc]; simp)]
  have hi : i = infoOf (ms.objs s) := by
    rw [ens] at hin
    simp only [fillAnswer, fill, hserver, if_true, Mgr.setProgress, emit_out, upd_out, List.mem_append,
      List.mem_singleton] at hin
    rcases hin with ((hin | hin) | hin) | hin
    · exact absurd hin hnot
    · exact (Out.filled.inj hin).2
    · cases hin
    · cases hin
  rw [ens, enc, hi]
  refine ⟨?_, ?_, ?_, ?_, ?_, ?_, ?_, ?_, ?_⟩ <;>
    simp [fillAnswer, fill, Mgr.setProgress, hserver, hclient, Rec.take, Rec.delay, infoOf]

example : let ms := run demo (serverRun.take 4)
    let mc := run demo (clientRun.take 5)
    Means ms (mc.objs 2).remoteUrl (mc.objs 2).localUrl 0 ∧ Means mc (mc.objs 2).localUrl (mc.objs 2).remoteUrl 2 ∧
    (ms.objs 0).server = true ∧ (mc.objs 2).server = false ∧ (ms.objs 0).progress = .pending ∧
    (mc.objs 2).progress = .waitReply := by
  exact ⟨⟨[], [], by decide, by decide, by decide, by simp⟩, ⟨[], [], by decide, by decide, by decide, by simp⟩,
    by decide, by decide, by decide, by decide⟩

/-- The identifiers which a manager gives away in its life are all different, and contain its own address. -/
theorem C72_connId {m : Mgr} (h : Fresh m) (ops : List Op) :
    (given (run m ops).out).Nodup ∧
    ∀ x ∈ given (run m ops).out, ∃ k, k < (run m ops).counter ∧ x = some ((run m ops).addr, k) := by
  have J : Ids m := by
    refine ⟨?_, ?_, ?_, ?_, ?_⟩
    · intro x hx; rw [h.out] at hx; simp [given] at hx
    · rw [h.out]; simp [given]
    · intro id hid; rw [h.recs] at hid; simp at hid
    · intro id hid; rw [h.recs] at hid; simp at hid
    · intro id hid; rw [h.recs] at hid; simp at hid
  have := run_ids ops (Inv.fresh h) J
  exact ⟨this.nodup, this.old⟩

example : given (run demo (serverRun ++ [.event 0 .broken false, .timeout yes yes 100 5000, .handleReply 0 true,
    .globalConnect yes 9 1 2 9])).out = [some (1, 0), some (1, 1)] := by decide

/-- A device which does not answer: the record fails after five seconds. -/
theorem C72_init_timeout {m : Mgr} (h : Fresh m) (ops : List Op) (id : Nat) (t : Tick) (l : List Tick) :
    let s := run m ops
    id ∈ s.recs → s.doing ≠ 0 → (s.objs id).progress = .init → (s.objs id).set = 0 → (s.objs id).acc ≤ t.diff →
    5000 ≤ (l.map Tick.diff).sum →
    let n := run s ((t :: l).map Tick.op)
    id ∉ n.recs ∧ (n.objs id).state = .failed := by
  intro s hid hd hp hset hacc hsum n
  have I : Inv s := Inv.run ops (Inv.fresh h)
  have J : Inv (timeout t.devs t.addrs t.diff t.left s) := I.step t.op
  obtain ⟨O1, O2⟩ := timeout_obj t.devs t.addrs t.diff t.left I hd hid
  have hc : (s.objs id).check t.diff = ({ s.objs id with acc := (s.objs id).acc - t.diff }, (s.objs id).acc - t.diff) := by
    unfold Rec.check
    rw [if_neg (by rw [hset]; decide)]
  have hturn : ((turn t.devs t.addrs t.diff s id).objs id).progress = .failed ∨
      (((turn t.devs t.addrs t.diff s id).objs id).progress = .doingInit ∧
       ((turn t.devs t.addrs t.diff s id).objs id).set = 0 ∧ ((turn t.devs t.addrs t.diff s id).objs id).acc = 5000) := by
    unfold turn
    dsimp only
    rw [hc, if_neg (show ¬ (s.objs id).acc - t.diff > 0 by omega)]
    unfold act
    dsimp only
    rw [upd_self]
    dsimp only
    rw [hp]
    dsimp only
    split
    · left; simp [Mgr.setProgress]
    · right; simp [Mgr.setProgress, Rec.delay]
  show id ∉ (run (timeout t.devs t.addrs t.diff t.left s) (l.map Tick.op)).recs ∧
    ((run (timeout t.devs t.addrs t.diff t.left s) (l.map Tick.op)).objs id).state = .failed
  rcases hturn with hf | ⟨h1, h2, h3⟩
  · obtain ⟨a, b⟩ := O2 (by rw [hf]; exact Or.inl rfl)
    obtain ⟨a2, b2⟩ := ticks_notin l J a
    refine ⟨a2, ?_⟩
    rw [b2, b, hf]
    rfl
  · obtain ⟨a, b, c⟩ := O1 (by rw [h1]; simp [over])
    refine init_late l J a (by rw [c]; exact hd) (by rw [b]; exact h1) (by rw [b]; exact h2) (by rw [b, h3]; decide)
      (by rw [b, h3]; exact hsum)

example : let s := run demo (serverRun.take 2)
    0 ∈ s.recs ∧ s.doing ≠ 0 ∧ (s.objs 0).progress = .init ∧ (s.objs 0).set = 0 ∧ (s.objs 0).acc ≤ 100 := by decide

/-- After `register` the record starts anew: it has no identifiers of earlier connections, a server has a new one, no
command waits, and a broken connection starts the manager by itself. -/
theorem C72_register (m : Mgr) (id : Nat) (v : St) (hv : v = .pending ∨ v = .broken) (hid : id ∉ m.recs) :
    let n := step m (.event id v false)
    n.recs = m.recs ++ [id] ∧ (n.objs id).progress = .init ∧ (n.objs id).serverId = 0 ∧ (n.objs id).clientId = 0 ∧
    (n.objs id).connId = (if (m.objs id).server then some (m.addr, m.counter) else none) ∧
    (n.objs id).remote = none ∧ n.cmd = m.cmd ∧
    n.doing = (if v = .broken ∧ m.doing = 0 ∧ m.cmd = none then 1 else m.doing) ∧
    (∀ k, k ≠ id → n.objs k = m.objs k) := by
  intro n
  have e : n = register m id (decide (v = .broken)) := by
    show paramEvent m id v false = _
    unfold paramEvent
    rw [if_neg (by decide), if_neg (by rcases hv with h | h <;> rw [h] <;> decide), if_neg hid]
  rw [e]
  unfold register Mgr.number
  have hs : ((m.reset id).objs id).server = (m.objs id).server := by
    simp [Mgr.reset, Mgr.replyRemote, Rec.clear, Rec.delay]
  dsimp only
  rw [hs]
  cases hsv : (m.objs id).server
  · rw [if_neg (by decide)]
    refine ⟨rfl, ?_, ?_, ?_, ?_, ?_, rfl, ?_, fun k hk => (Local.reset m id).other k hk⟩
    all_goals first
      | (simp [Mgr.reset, Mgr.replyRemote, Rec.clear, Rec.delay]; done)
      | skip
    show (if m.doing = 0 ∧ m.cmd = none ∧ decide (v = .broken) = true then _ else m.doing) = _
    congr 1
    apply propext
    simp only [decide_eq_true_eq]
    constructor <;> rintro ⟨a, b, c⟩ <;> exact ⟨by assumption, by assumption, by assumption⟩
  · rw [if_pos rfl]
    refine ⟨rfl, ?_, ?_, ?_, ?_, ?_, rfl, ?_, fun k hk => ?_⟩
    all_goals first
      | (simp [Mgr.reset, Mgr.replyRemote, Rec.clear, Rec.delay, Mgr.upd, Mgr.emit]; done)
      | skip
    · show (if m.doing = 0 ∧ m.cmd = none ∧ decide (v = .broken) = true then _ else m.doing) = _
      congr 1
      apply propext
      simp only [decide_eq_true_eq]
      constructor <;> rintro ⟨a, b, c⟩ <;> exact ⟨by assumption, by assumption, by assumption⟩
    · show (Mgr.upd _ id _).objs k = _
      rw [upd_other _ _ _ hk]
      exact (Local.reset m id).other k hk

example : (step (run demo clientRun) (.event 2 .broken false)).doing = 1 := by decide

/-- A client record which waits for its next attempt. -/
structure Waits (m : Mgr) (id : Nat) (a : Int) : Prop where
  inv : Inv m
  mem : id ∈ m.recs
  doing : m.doing ≠ 0
  progress : (m.objs id).progress = .pending
  server : (m.objs id).server = false
  set : (m.objs id).set = 0
  acc : (m.objs id).acc = a

theorem Waits.tick {m : Mgr} {id : Nat} {a : Int} (w : Waits m id a) (t : Tick) (h : t.diff < a) :
    Waits (step m t.op) id (a - t.diff) ∧ ((step m t.op).objs id).remoteUrl = (m.objs id).remoteUrl := by
  have hc : (m.objs id).check t.diff = ({ m.objs id with acc := a - t.diff }, a - t.diff) := by
    unfold Rec.check
    rw [if_neg (by rw [w.set]; decide), w.acc]
  have ht : (turn t.devs t.addrs t.diff m id).objs id = { m.objs id with acc := a - t.diff } := by
    unfold turn
    dsimp only
    rw [hc, if_pos (show a - t.diff > 0 by omega), upd_self]
  obtain ⟨O1, _⟩ := timeout_obj t.devs t.addrs t.diff t.left w.inv w.doing w.mem
  obtain ⟨x, y, z⟩ := O1 (by rw [ht]; show ¬ over (m.objs id).progress; rw [w.progress]; simp [over])
  rw [ht] at y
  have y' : (step m t.op).objs id = { m.objs id with acc := a - t.diff } := y
  exact ⟨⟨w.inv.step t.op, x, by show (timeout _ _ _ _ _).doing ≠ 0; rw [z]; exact w.doing, by rw [y']; exact w.progress,
    by rw [y']; exact w.server, by rw [y']; exact w.set, by rw [y']⟩, by rw [y']⟩

theorem Waits.ticks : ∀ (l : List Tick) {m : Mgr} {id : Nat} {a : Int}, Waits m id a →
    (∀ p q, l = p ++ q → p ≠ [] → (p.map Tick.diff).sum < a) →
    Waits (run m (l.map Tick.op)) id (a - (l.map Tick.diff).sum) ∧
      ((run m (l.map Tick.op)).objs id).remoteUrl = (m.objs id).remoteUrl
  | [], m, id, a, w, _ => ⟨by simpa [run] using w, rfl⟩
  | t :: l, m, id, a, w, h => by
    have h0 : t.diff < a := by simpa using h [t] l rfl (by simp)
    obtain ⟨w1, e1⟩ := w.tick t h0
    obtain ⟨w2, e2⟩ := Waits.ticks l w1 (fun p q e hp => by
      have := h (t :: p) q (by rw [e]; rfl) (by simp)
      simp only [List.map_cons, List.sum_cons] at this
      omega)
    refine ⟨?_, e2.trans e1⟩
    have : a - ((t :: l).map Tick.diff).sum = a - t.diff - (l.map Tick.diff).sum := by
      simp only [List.map_cons, List.sum_cons]; omega
    rw [this]
    exact w2

theorem Waits.over {m : Mgr} {id : Nat} {a : Int} (w : Waits m id a) (t : Tick) (h : a ≤ t.diff)
    (ha : t.addrs (m.objs id).remoteUrl = true) : ((step m t.op).objs id).progress = .waitReply := by
  have hc : (m.objs id).check t.diff = ({ m.objs id with acc := a - t.diff }, a - t.diff) := by
    unfold Rec.check
    rw [if_neg (by rw [w.set]; decide), w.acc]
  have ht : ((turn t.devs t.addrs t.diff m id).objs id).progress = .waitReply := by
    unfold turn
    dsimp only
    rw [hc, if_neg (show ¬ a - t.diff > 0 by omega)]
    unfold act
    dsimp only
    rw [upd_self]
    dsimp only
    rw [w.progress]
    dsimp only
    rw [w.server, if_neg (by decide), ha, if_neg (by decide)]
    simp [Mgr.setProgress, Rec.delay]
  obtain ⟨O1, _⟩ := timeout_obj t.devs t.addrs t.diff t.left w.inv w.doing w.mem
  obtain ⟨_, y, _⟩ := O1 (by rw [ht]; simp [Spec.over])
  show ((timeout _ _ _ _ _).objs id).progress = _
  rw [y, ht]

/-- The pause of a client after it was refused. -/
def pause (res : Res) : Int := if res = .again then 200 else 1000

/-- A client which was refused asks again after a pause, not earlier and not later: counted from the first time out
after the refusal. -/
theorem C72_retry {m : Mgr} (h : Fresh m) (ops : List Op) (devs : Nat → Bool) (id u1 u2 : Nat) (res : Res) (i : Info)
    (t : Tick) (l : List Tick) :
    let s := run m ops
    Means s u2 u1 id → (s.objs id).progress = .waitReply → (s.objs id).server = false → s.doing ≠ 0 → res ≠ .ok →
    (∀ p q, l = p ++ q → (p.map Tick.diff).sum < pause res) →
    let n := run (step s (.connectReply devs u1 u2 res i)) ((t :: l).map Tick.op)
    (n.objs id).progress = .pending ∧
    ∀ u : Tick, pause res ≤ (l.map Tick.diff).sum + u.diff → u.addrs (s.objs id).remoteUrl = true →
      ((step n u.op).objs id).progress = .waitReply := by
  intro s hm hp hsv hd hres hl n
  have I : Inv s := Inv.run ops (Inv.fresh h)
  have hid : id ∈ s.recs := by
    obtain ⟨a, b, e, _⟩ := hm
    rw [e]; simp
  let n0 := step s (.connectReply devs u1 u2 res i)
  have I0 : Inv n0 := I.step _
  have e0 : n0 = (s.setProgress id .pending).upd id fun r =>
      r.delay (if res = .again then (if r.server then 2000 else 200) else 1000) false := by
    simp only [n0, step, connectReply, means_find hm, hp]
    rw [if_pos hres]
  have hpos : 0 < pause res := by unfold pause; split <;> decide
  have ho : n0.objs id = { s.objs id with progress := .pending, set := pause res, acc := 0 } := by
    rw [e0, upd_self]
    have e1 : (s.setProgress id .pending).objs id = { s.objs id with progress := .pending } := by
      simp [Mgr.setProgress]
    rw [e1]
    unfold Rec.delay pause
    dsimp only
    rw [hsv, if_neg (by decide)]
    cases res <;> rfl
  have hr : n0.recs = s.recs := by rw [e0]; rfl
  have hdo : n0.doing = s.doing := by rw [e0]; rfl
  have ht : (turn t.devs t.addrs t.diff n0 id).objs id =
      { s.objs id with progress := .pending, set := 0, acc := pause res } := by
    unfold turn
    have hc : (n0.objs id).check t.diff = ({ n0.objs id with acc := pause res, set := 0 }, pause res) := by
      unfold Rec.check
      rw [ho]
      dsimp only
      rw [if_pos hpos]
    dsimp only
    rw [hc, if_pos hpos, upd_self, ho]
  obtain ⟨O1, _⟩ := timeout_obj t.devs t.addrs t.diff t.left I0 (by rw [hdo]; exact hd) (by rw [hr]; exact hid)
  obtain ⟨x, y, z⟩ := O1 (by rw [ht]; simp [Spec.over])
  rw [ht] at y
  have w : Waits (step n0 t.op) id (pause res) :=
    ⟨I0.step t.op, x, by show (timeout _ _ _ _ _).doing ≠ 0; rw [z, hdo]; exact hd,
      by show ((timeout _ _ _ _ _).objs id).progress = _; rw [y],
      by show ((timeout _ _ _ _ _).objs id).server = _; rw [y]; exact hsv,
      by show ((timeout _ _ _ _ _).objs id).set = _; rw [y],
      by show ((timeout _ _ _ _ _).objs id).acc = _; rw [y]⟩
  obtain ⟨w2, e2⟩ := Waits.ticks l w (fun p q e _ => hl p q e)
  have en : n = run (step n0 t.op) (l.map Tick.op) := rfl
  rw [en]
  refine ⟨w2.progress, fun u hu ha => w2.over u (by omega) ?_⟩
  rw [e2]
  have : ((step n0 t.op).objs id).remoteUrl = (s.objs id).remoteUrl := by
    show ((timeout _ _ _ _ _).objs id).remoteUrl = _
    rw [y]
  rw [this]
  exact ha

example : let s := run demo (clientRun.take 5)
    2 ∈ s.recs ∧ (s.objs 2).progress = .waitReply ∧ (s.objs 2).server = false ∧ s.doing ≠ 0 ∧
    ((run s [.connectReply yes 1 2 .no ⟨none, 0, 0, 0, false⟩, .timeout yes yes 100 5000, .timeout yes yes 999 4000]).objs
      2).progress = .pending ∧
    ((run s [.connectReply yes 1 2 .no ⟨none, 0, 0, 0, false⟩, .timeout yes yes 100 5000, .timeout yes yes 999 4000,
      .timeout yes yes 1 4000]).objs 2).progress = .waitReply := by decide

/-- The end of the manager: the activating command is refused, no record is left, all objects of the list are in
state failed. -/
theorem C72_cleanup {m : Mgr} :
    (cleanup m).recs = [] ∧ (cleanup m).cmd = none ∧ (∀ id ∈ m.recs, ((cleanup m).objs id).state = .failed) ∧
    ∃ l, (cleanup m).out = m.out ++ (match m.cmd with | some c => [.answer c .no] | none => []) ++ l ∧
      ∀ o ∈ l, ∃ id ∈ m.recs, o = .state id .failed := by
  have key : ∀ (ids : List Nat) (m : Mgr),
      (ids.foldl (fun m id => m.changeState id .failed) m).cmd = m.cmd ∧
      (∀ id, id ∈ ids ∨ (m.objs id).state = .failed →
        ((ids.foldl (fun m id => m.changeState id .failed) m).objs id).state = .failed) ∧
      ∃ l, (ids.foldl (fun m id => m.changeState id .failed) m).out = m.out ++ l ∧
        ∀ o ∈ l, ∃ id ∈ ids, o = .state id .failed := by
    intro ids
    induction ids with
    | nil => intro m; exact ⟨rfl, fun id h => by simpa using h, [], by simp, by simp⟩
    | cons a ids ih =>
      intro m
      obtain ⟨h1, h2, l, h3, h4⟩ := ih (m.changeState a .failed)
      have ha : ((m.changeState a .failed).objs a).state = .failed := by
        unfold Mgr.changeState
        split
        · assumption
        · simp
      refine ⟨h1.trans (Local.changeState m a .failed).cmd, ?_, ?_⟩
      · intro id hid
        apply h2
        by_cases e : id = a
        · right; rw [e]; exact ha
        · rcases hid with hid | hid
          · rcases List.mem_cons.mp hid with hid | hid
            · exact absurd hid e
            · exact Or.inl hid
          · right; rw [(Local.changeState m a .failed).other id e]; exact hid
      · have : ∃ l0, (m.changeState a .failed).out = m.out ++ l0 ∧ ∀ o ∈ l0, o = .state a .failed := by
          unfold Mgr.changeState
          split
          · exact ⟨[], by simp, by simp⟩
          · exact ⟨[.state a .failed], rfl, by simp⟩
        obtain ⟨l0, e0, h0⟩ := this
        refine ⟨l0 ++ l, by rw [List.foldl_cons, h3, e0, List.append_assoc], ?_⟩
        intro o ho
        rcases List.mem_append.mp ho with ho | ho
        · exact ⟨a, List.mem_cons_self .., h0 o ho⟩
        · obtain ⟨id, hid, e⟩ := h4 o ho
          exact ⟨id, List.mem_cons_of_mem _ hid, e⟩
  let m1 : Mgr := { m with doing := 0 }.answer .no
  obtain ⟨h1, h2, l, h3, h4⟩ := key m.recs.reverse m1
  refine ⟨rfl, h1, ?_, l, ?_, ?_⟩
  · intro id hid
    exact h2 id (Or.inl (List.mem_reverse.mpr hid))
  · refine h3.trans ?_
    congr 1
    show m.out ++ answers m.cmd .no = _
    cases m.cmd <;> rfl
  · intro o ho
    obtain ⟨id, hid, e⟩ := h4 o ho
    exact ⟨id, List.mem_reverse.mp hid, e⟩

/-! ### What the manager does not do -/

/-- The answer of the other node comes, but the device of the record is gone: whatever happens later — time outs,
commands, new events — the record stays in the list and waits for an answer which it already had, until another answer
for it comes or a device reports a failure for it. -/
theorem C72_lost_counterexample : ∀ ops : List Op, (∀ op ∈ ops, wakes 2 op = false) →
    ((run demo (clientRun.take 5 ++ [.connectReply none' 1 2 .ok
      { connId := some (5, 6), serverId := 4, inline := 16, timeout := 3000, ackn := true }] ++ ops)).objs 2).progress =
        .waitReply ∧
    2 ∈ (run demo (clientRun.take 5 ++ [.connectReply none' 1 2 .ok
      { connId := some (5, 6), serverId := 4, inline := 16, timeout := 3000, ackn := true }] ++ ops)).recs := by
  intro ops h
  have : ∀ a b, run demo (a ++ b) = run (run demo a) b := fun a b => List.foldl_append ..
  rw [this]
  exact stuck_run ops (Inv.run _ (Inv.fresh demo_fresh)) (by decide) h

/-- Without a device which answers, an asked node which never answers is waited for without end: there is no time out
for this step. -/
theorem C72_no_timeout_counterexample : ∀ l : List Tick,
    ((run (run demo (clientRun.take 5)) (l.map Tick.op)).objs 2).progress = .waitReply := by
  intro l
  refine (stuck_run (l.map Tick.op) (Inv.run _ (Inv.fresh demo_fresh)) (by decide) ?_).1
  intro op hop
  obtain ⟨t, _, rfl⟩ := List.mem_map.mp hop
  rfl

/-- Answers of the device carry no mark of the step: a second positive answer in the last step makes the record
connected although the device was asked twice and the second command is not answered. -/
theorem C72_stale_counterexample :
    let ops : List Op := [.event 0 .pending false, .activate 7, .timeout yes yes 100 5000, .handleReply 0 true,
      .globalConnect yes 8 1 2 9, .handleReply 0 true]
    Out.state 0 .connected ∈ (run demo ops).out ∧ Out.answer 8 .no ∈ (run demo ops).out ∧
    Out.answer 7 .ok ∈ (run demo ops).out := by decide

/-- A required connection which failed before the command arrived is not seen: success is reported. -/
theorem C72_before_counterexample :
    let ops : List Op := [.event 0 .broken false, .timeout none' yes 100 5000, .activate 7, .timeout yes yes 100 5000]
    Out.state 0 .failed ∈ (run demo (ops.take 2)).out ∧ ((run demo ops).objs 0).opt = false ∧
    ((run demo ops).objs 0).state = .failed ∧ Out.answer 7 .ok ∈ (run demo ops).out := by decide

/-- The command to shut connections down does the same as the command to activate them, up to the sign of a number
which is only compared with zero. -/
theorem C72_shutdown_counterexample (m : Mgr) (c : Nat) :
    step m (.shutdown c) = { step m (.activate c) with doing := -1 } ∧
    (run demo [.event 0 .pending false, .shutdown 7, .timeout yes yes 100 5000]).out =
      (run demo [.event 0 .pending false, .activate 7, .timeout yes yes 100 5000]).out ∧
    Out.handle 0 ∈ (run demo [.event 0 .pending false, .shutdown 7, .timeout yes yes 100 5000]).out :=
  ⟨rfl, by decide, by decide⟩

/-- At the end of the manager the request of another node stays without answer. -/
theorem C72_cleanup_counterexample :
    let s := run demo (serverRun.take 5)
    waiting s 8 = 1 ∧ answered 8 (cleanup s).out = 0 ∧ (cleanup s).recs = [] := by decide

/-- A client which waits itself for asking accepts the request of another client: nothing is written into the command. -/
theorem C72_client_counterexample :
    let s := run demo (clientRun.take 4 ++ [.globalConnect yes 8 2 1 5])
    (s.objs 2).server = false ∧ (s.objs 2).progress = .doingConnect ∧ given s.out = [] ∧ (s.objs 2).connId = none := by
  decide

end Verif.ConnMgr
