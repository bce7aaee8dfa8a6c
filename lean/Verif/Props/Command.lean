import Verif.CommandLemmas

/-! # Properties C18 (callers of a command), C19 (commands queue), C47 (timeout result) -/

namespace Verif.Command

/-! ## C18 -/
section Callers
variable {W : Type} [DecidableEq W]

/-- **C18**, at most once: over any history of one command no registration is informed twice, and no
informed registration is still registered afterwards. -/
theorem C18_informed_at_most_once (ops : List (COp W)) :
    (((Cmd.create : Cmd W).run ops).1.flatten.map Caller.reg).Nodup ∧
    ∀ x ∈ ((Cmd.create : Cmd W).run ops).1.flatten, ∀ y ∈ ((Cmd.create : Cmd W).run ops).2.callers, x.reg ≠ y.reg :=
  ⟨(run_informed ops cmd_inv_create).2.1, (run_informed ops cmd_inv_create).2.2⟩

/-- **C18**, last in first out: one `Reply` after any history informs callers in decreasing order of
registration, all of them registered later than every caller that stays registered. -/
theorem C18_lifo (ops : List (COp W)) (res : Int) (accept : Caller W → Bool) :
    let c := ((Cmd.create : Cmd W).run ops).2
    let r := c.reply res accept
    r.1.Pairwise (fun a b => b.reg < a.reg) ∧ ∀ x ∈ r.1, x ∈ c.callers ∧ x.worker ≠ none ∧ ∀ y ∈ r.2.callers, y.reg < x.reg := by
  intro c r
  have h : c.Inv := cmd_inv_run ops cmd_inv_create
  obtain ⟨vs, h1, h2, _⟩ := reply_split c res accept
  have hord := h.ord
  rw [h1, List.pairwise_append] at hord
  refine ⟨?_, ?_⟩
  · show (c.reply res accept).1.Pairwise _
    rw [h2]
    have := hord.2.1
    rw [List.pairwise_reverse] at this
    exact this.filter _
  · intro x hx
    have hx' : x ∈ vs.filter (fun r => r.worker.isSome) := by rw [← h2]; exact hx
    have hs := (List.mem_filter.mp hx').2
    refine ⟨(step_regs h (.reply res accept)).1 x hx, ?_, (step_regs h (.reply res accept)).2.2.2.1 x hx⟩
    intro e; simp [e] at hs

/-- **C18**, somebody gets the reply: if any caller with a worker accepts, exactly the last informed one
accepted (all informed before it refused); otherwise every caller with a worker was informed and none
stays registered. -/
theorem C18_reply_reaches_acceptor (ops : List (COp W)) (res : Int) (accept : Caller W → Bool) :
    let c := ((Cmd.create : Cmd W).run ops).2
    let r := c.reply res accept
    (∀ x ∈ c.callers, x.worker ≠ none → (x ∈ r.1 ∨ x ∈ r.2.callers)) ∧
    (r.2.callers ≠ [] → ∃ last front, r.1 = front ++ [last] ∧ accept last = true ∧ ∀ x ∈ front, accept x = false) ∧
    ((∀ x ∈ c.callers, x.worker ≠ none → accept x = false) → r.2.callers = []) := by
  intro c r
  obtain ⟨vs, h1, h2, h3, h4⟩ := reply_split c res accept
  have hsome : ∀ x : Caller W, x.worker ≠ none → x.worker.isSome = true := by
    intro x hx; cases h : x.worker <;> simp_all
  refine ⟨?_, ?_, ?_⟩
  · intro x hx hw
    rw [h1, List.mem_append] at hx
    rcases hx with hx | hx
    · right; exact hx
    · left
      show x ∈ (c.reply res accept).1
      rw [h2, List.mem_filter]
      exact ⟨by simpa using hx, hsome x hw⟩
  · intro hne
    obtain ⟨l, ws, e1, e2, e3, e4⟩ := h3 hne
    refine ⟨l, ws.filter (fun r => r.worker.isSome), ?_, e3, ?_⟩
    · show (c.reply res accept).1 = _
      rw [h2, e1, List.filter_append]; simp [e2]
    · intro x hx
      obtain ⟨hx1, hx2⟩ := List.mem_filter.mp hx
      exact e4 x hx1 hx2
  · intro hall
    refine h4 (fun x hx hs => hall x hx ?_)
    intro e; simp [e] at hs

/-- **C18**, never after removal: whoever is informed after `RemoveCaller(w, exe)` either does not match
the removed caller or was registered anew after the removal. -/
theorem C18_not_informed_after_removal (before after : List (COp W)) (w : Option W) (exe : Option Nat) :
    let c := ((Cmd.create : Cmd W).run (before ++ [.remove w exe])).2
    ∀ x ∈ (c.run after).1.flatten, x.worker = w → (exe = none ∨ x.exe = exe) → c.nreg ≤ x.reg := by
  intro c x hx hw he
  have h : c.Inv := cmd_inv_run _ cmd_inv_create
  rcases (run_informed after h).1 x hx with hx' | hx'
  · exfalso
    have hc : c.callers = ((Cmd.create : Cmd W).run before).2.callers.filter fun r => !removeMatch w exe r := by
      show ((Cmd.create : Cmd W).run (before ++ [.remove w exe])).2.callers = _
      rw [cmd_run_append]; rfl
    rw [hc, List.mem_filter] at hx'
    have := hx'.2
    simp [removeMatch, hw] at this
    rcases he with he | he
    · exact this.1 he
    · exact this.2 he
  · exact hx'

/-- Three callers (one without worker, one refusing): the reply informs the refusing latest one and then
the accepting first one. -/
example : ((Cmd.create : Cmd Nat).run [.add (some 1) none, .add none none, .add (some 2) (some 7),
      .reply 1 (fun r => r.worker = some 1)]).1
    = [[], [], [], [⟨some 2, some 7, 2⟩, ⟨some 1, none, 0⟩]] := by decide

/-! ## C47 -/

omit [DecidableEq W] in
/-- **C47 (partial).** A command replied with a non-negative result reports exactly this result.
Missing: negative results such as `cmd_timedout`, see the counterexample. -/
theorem C47_reply_result_partial (c : Cmd W) (res : Int) (hres : 0 ≤ res) (accept : Caller W → Bool) :
    (c.reply res accept).2.getResult = res := by
  simp [Cmd.reply, hres, Cmd.setResult, Cmd.getResult]

example : ((Cmd.create : Cmd Nat).reply 1 (fun _ => true)).2.getResult = 1 := by decide

/-- **C47 counterexample.** A command replied as timed out reports `cmd_false`, and when a result was
set before it reports that one: the caller cannot see the timeout. -/
theorem C47_timeout_counterexample :
    ((Cmd.create : Cmd Nat).reply cmdTimedout (fun _ => true)).2.getResult = cmdFalse ∧
    (((Cmd.create : Cmd Nat).setResult 1).reply cmdTimedout (fun _ => true)).2.getResult = 1 ∧
    cmdTimedout ≠ cmdFalse := by decide

end Callers

/-! ## C19 -/
section QueueProps
variable {C : Type} [DecidableEq C]

/-- Vocabulary: the commands handed out by a call. -/
def QOut.returned : QOut C → List C
  | .cmd (some c) => [c]
  | .effects l => l.map fun
      | .replied c _ => c | .repliedKeep c => c | .callerRemoved c => c | .released c => c
  | _ => []

/-- **C19**, unique ids: after any history, if no command in the queue is older than the last
`2^32 - 1` pushes, all commands in the queue have different non-zero ids, and the id returned by the
next `Push` differs from the ids of all commands younger than that. -/
theorem C19_ids_unique (k : Kind) (ops : List (QOp C)) :
    let q := ((CQ.create k : CQ C).run ops).2
    ((∀ r ∈ q.list, q.pushes < r.seq + (2 ^ 32 - 1)) → (q.list.map Rec.id).Nodup ∧ ∀ r ∈ q.list, r.id ≠ 0) ∧
    (∀ (c : C) (k' : Kind), (q.push c k').1 ≠ 0 ∧ (q.push c k').1 < 2 ^ 32 ∧
      ∀ r ∈ q.list, q.pushes + 1 < r.seq + (2 ^ 32 - 1) → r.id ≠ (q.push c k').1) := by
  intro q
  have h : q.Inv := inv_run ops (inv_create k)
  refine ⟨fun hw => ⟨?_, ?_⟩, ?_⟩
  · rw [List.Nodup, List.pairwise_map]
    have : q.list.Pairwise (fun a b => a.seq < b.seq ∧ a ∈ q.list ∧ b ∈ q.list) := by
      refine List.Pairwise.imp_of_mem (fun ha hb hab => ⟨hab, ha, hb⟩) h.ord
    refine this.imp ?_
    rintro a b ⟨hab, ha, hb⟩
    have h1 := h.ids a ha; have h2 := h.ids b hb; have h3 := hw a ha; have h4 := hw b hb
    rw [h1.2.2, h2.2.2]
    omega
  · intro r hr; have := h.ids r hr; omega
  · intro c k'
    have hid : (q.push c k').1 = (q.pushes + 1 - 1) % (2 ^ 32 - 1) + 1 := nextId_spec _ h.ctr
    rw [hid]
    refine ⟨by omega, by omega, ?_⟩
    intro r hr hlt
    have h1 := h.ids r hr
    rw [h1.2.2]; omega

/-- Two commands pushed, one taken, one more pushed. -/
example : (((CQ.create .submit : CQ Char).run [.push 'a' .none, .push 'b' .assign, .pop, .push 'c' .reply]).2.list.map
    fun r => (r.cmd, r.kind, r.id)) = [('b', .assign, 2), ('c', .reply, 3)] := by decide

omit [DecidableEq C] in
/-- **C19**, pop by id: with unique ids, `PopWithId` of the id of a queued command returns that command
and leaves all others in order; an unknown id returns nothing and changes nothing. -/
theorem C19_popWithId (q : CQ C) (hu : (q.list.map Rec.id).Nodup) :
    (∀ l1 r l2, q.list = l1 ++ r :: l2 → (q.popWithId r.id).1 = some r.cmd ∧ (q.popWithId r.id).2.list = l1 ++ l2) ∧
    (∀ id, (∀ r ∈ q.list, r.id ≠ id) → (q.popWithId id).1 = none ∧ (q.popWithId id).2.list = q.list) := by
  refine ⟨?_, ?_⟩
  · intro l1 r l2 he
    rw [he] at hu
    have hn : ∀ x ∈ l1, decide (x.id = r.id) = false := by
      intro x hx
      simp only [List.map_append, List.map_cons, List.nodup_append] at hu
      have := hu.2.2 x.id (List.mem_map_of_mem hx) r.id (by simp)
      simpa using this
    simp only [CQ.popWithId, he]
    rw [takeFirst_some (fun x => decide (x.id = r.id)) l1 r l2 hn (by simp)]
    exact ⟨rfl, rfl⟩
  · intro id hid
    simp only [CQ.popWithId]
    rw [takeFirst_none (fun x => decide (x.id = id)) q.list (by simpa using hid)]
    exact ⟨rfl, rfl⟩

example : ((⟨[⟨'a', .submit, 1, 1⟩, ⟨'b', .reply, 2, 2⟩], .none, 2, 2⟩ : CQ Char).list.map Rec.id).Nodup := by decide

omit [DecidableEq C] in
/-- **C19**, pop by kind: `PopWithKind` returns the oldest command of that kind and leaves the others in
order. -/
theorem C19_popWithKind (q : CQ C) (k : Kind) :
    (∀ l1 r l2, q.list = l1 ++ r :: l2 → r.kind = k → (∀ x ∈ l1, x.kind ≠ k) →
      (q.popWithKind k).1 = some r.cmd ∧ (q.popWithKind k).2.list = l1 ++ l2) ∧
    ((∀ r ∈ q.list, r.kind ≠ k) → (q.popWithKind k).1 = none ∧ (q.popWithKind k).2.list = q.list) := by
  refine ⟨?_, ?_⟩
  · intro l1 r l2 he hr hn
    simp only [CQ.popWithKind, he]
    rw [takeFirst_some (fun x => decide (x.kind = k)) l1 r l2 (by simpa using hn) (by simpa using hr)]
    exact ⟨rfl, rfl⟩
  · intro hn
    simp only [CQ.popWithKind]
    rw [takeFirst_none (fun x => decide (x.kind = k)) q.list (by simpa using hn)]
    exact ⟨rfl, rfl⟩

example : ((⟨[⟨'a', .submit, 1, 1⟩, ⟨'b', .reply, 2, 2⟩, ⟨'c', .reply, 3, 3⟩], .none, 3, 3⟩ : CQ Char).popWithKind .reply).1
    = some 'b' := by decide

omit [DecidableEq C] in
/-- **C19**, clean-up: every command is treated exactly once, oldest first - submitted and postponed
ones are replied with the given result, replied ones with their own result, assigned ones loose this
worker as caller - and the queue is empty afterwards. -/
theorem C19_cleanup (q : CQ C) (res : Int) :
    (q.cleanup res).2.list = [] ∧ (q.cleanup res).1.length = q.list.length ∧
    ∀ (i : Nat) (r : Rec C), q.list[i]? = some r → (q.cleanup res).1[i]? = some
      (if r.kind = .submit ∨ r.kind = .postponed then .replied r.cmd res
       else if r.kind = .reply then .repliedKeep r.cmd
       else if r.kind = .assign then .callerRemoved r.cmd else .released r.cmd) := by
  refine ⟨rfl, by simp [CQ.cleanup], ?_⟩
  intro i r hr
  simp only [CQ.cleanup, List.getElem?_map, hr, Option.map_some, cleanupEffect]
  cases r.kind <;> simp

/-- Vocabulary: the commands that enter the queue by the calls: those pushed, and those given to
`ChangeKind` while they are not in the queue. -/
def entered : CQ C → List (QOp C) → List C
  | _, [] => []
  | q, op :: ops =>
    (match op with
      | .push c _ => [c]
      | .changeKind c _ => if c ∈ q.list.map Rec.cmd then [] else [c]
      | _ => []) ++ entered (q.step op).2 ops

theorem takeFirst_count (p : Rec C → Bool) (l : List (Rec C)) (c : C) :
    ((takeFirst p l).1.map Rec.cmd).toList.count c + ((takeFirst p l).2.map Rec.cmd).count c = (l.map Rec.cmd).count c := by
  induction l with
  | nil => simp [takeFirst]
  | cons r l ih =>
    by_cases h : p r = true
    · simp [takeFirst, h, List.count_cons]; omega
    · simp only [takeFirst, h]
      simp only [Bool.false_eq_true, if_false, List.map_cons, List.count_cons]
      omega

theorem changeLoop_cmds (c : C) (k : Kind) (l : List (Rec C)) :
    (changeLoop c k l).2.map Rec.cmd = l.map Rec.cmd ∧
    ((changeLoop c k l).1 = none ↔ c ∉ l.map Rec.cmd) := by
  induction l with
  | nil => simp [changeLoop]
  | cons r l ih =>
    by_cases h : r.cmd = c
    · simp [changeLoop, h]
    · simp only [changeLoop, h, if_false, List.map_cons, ih.1, ih.2, List.mem_cons, not_or]
      simp [Ne.symm h]

theorem step_count (q : CQ C) (op : QOp C) (c : C) :
    ((q.step op).1.returned).count c + ((q.step op).2.list.map Rec.cmd).count c =
      (q.list.map Rec.cmd).count c + (match op with
      | .push c _ => [c]
      | .changeKind c _ => if c ∈ q.list.map Rec.cmd then [] else [c]
      | _ => []).count c := by
  have tf : ∀ p : Rec C → Bool, (QOut.cmd ((takeFirst p q.list).1.map Rec.cmd)).returned
      = ((takeFirst p q.list).1.map Rec.cmd).toList := by
    intro p; cases (takeFirst p q.list).1 <;> rfl
  cases op with
  | push c' k => simp [CQ.step, CQ.push, QOut.returned, List.count_append]
  | pop =>
    cases hq : q.list with
    | nil => simp [CQ.step, CQ.pop, hq, QOut.returned]
    | cons r l => simp [CQ.step, CQ.pop, hq, QOut.returned, List.count_cons]; omega
  | popWithKind k =>
    have := takeFirst_count (fun r => decide (r.kind = k)) q.list c
    simp only [CQ.step, CQ.popWithKind, tf, List.count_nil]; omega
  | popWithId i =>
    have := takeFirst_count (fun r => decide (r.id = i)) q.list c
    simp only [CQ.step, CQ.popWithId, tf, List.count_nil]; omega
  | changeKind c' k =>
    have h := changeLoop_cmds c' k q.list
    simp only [CQ.step, CQ.changeKind]
    rcases hx : changeLoop c' k q.list with ⟨_ | id, l⟩
    · rw [hx] at h
      have : c' ∉ q.list.map Rec.cmd := h.2.mp rfl
      simp only [this, if_false]
      simp [CQ.push, QOut.returned, List.count_append]
    · rw [hx] at h
      have : c' ∈ q.list.map Rec.cmd := by
        by_cases hm : c' ∈ q.list.map Rec.cmd
        · exact hm
        · have := h.2.mpr hm; simp at this
      simp only [this, if_true]
      simp [QOut.returned, h.1]
  | cleanup res =>
    have : ∀ l : List (Rec C), (QOut.effects (l.map (cleanupEffect res))).returned = l.map Rec.cmd := by
      intro l
      simp only [QOut.returned, List.map_map]
      apply List.map_congr_left
      intro r _
      simp only [Function.comp, cleanupEffect]
      cases r.kind <;> rfl
    simp [CQ.step, CQ.cleanup, this]
  | replyTimedout t =>
    simp only [CQ.step, CQ.replyTimedout, QOut.returned, List.map_map, List.count_nil]
    have : ∀ l : List (Rec C), ((l.filter fun r => t r.cmd).map (fun r => r.cmd)).count c
        + ((l.filter fun r => !t r.cmd).map Rec.cmd).count c = (l.map Rec.cmd).count c := by
      intro l
      induction l with
      | nil => rfl
      | cons r l ih =>
        by_cases h : t r.cmd = true
        · simp [h, List.count_cons]; omega
        · simp only [Bool.not_eq_true] at h
          simp [h, List.count_cons]; omega
    exact this q.list

/-- **C19**, conservation: over any history each command (counted with multiplicity) that entered the
queue is either still there or was handed out - popped, replied or released - exactly once. -/
theorem C19_conservation (k : Kind) (ops : List (QOp C)) (c : C) :
    let r := (CQ.create k : CQ C).run ops
    (r.1.flatMap QOut.returned).count c + (r.2.list.map Rec.cmd).count c
      = (entered (CQ.create k) ops).count c := by
  have key : ∀ (ops : List (QOp C)) (q : CQ C),
      ((q.run ops).1.flatMap QOut.returned).count c + ((q.run ops).2.list.map Rec.cmd).count c
        = (q.list.map Rec.cmd).count c + (entered q ops).count c := by
    intro ops
    induction ops with
    | nil => intro q; simp [CQ.run, entered]
    | cons op ops ih =>
      intro q
      have h1 := ih (q.step op).2
      have h2 := step_count q op c
      simp only [CQ.run, List.flatMap_cons, List.count_append, entered]
      omega
  intro r
  have h := key ops (CQ.create k)
  rw [show ((CQ.create k : CQ C).list.map Rec.cmd).count c = 0 from rfl, Nat.zero_add] at h
  exact h

example : entered (CQ.create .submit : CQ Char) [.push 'a' .none, .changeKind 'a' .reply, .changeKind 'b' .assign, .popWithKind .assign]
    = ['a', 'b'] := by decide

end QueueProps
end Verif.Command
