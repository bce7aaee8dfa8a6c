import Verif.MbsNetCalm

/-! C79: what a client of an MBS server gets. -/

namespace Verif.MbsNet

open Verif.Bytes Spec

/-- Full statement: this for all buffers; missing: buffers of odd length and above the announced limit, see the counterexamples below.
The client gets what was posted, in order, without gaps and changes, for all interleavings and also when sockets fail or one
of the sides ends. -/
theorem C79_in_order_partial (stream iter asks : Bool) (sub junk : Nat) (hj : junk < 4294967296) (ops : List Op)
    (hf : ∀ i ∈ posted ops, Fit iter i) :
    ((Net.start stream iter sub junk asks).run ops).cli.out <+: payloads iter sub 0 (posted ops) := by
  obtain ⟨-, -, -, -, -, -, fl, y, lk⟩ := inv_run (inv_start ⟨stream, iter, sub, junk⟩ asks hj) ops hf
  rw [List.nil_append] at lk
  exact (List.prefix_append _ fl).trans lk.pre

/-- A short story: two buffers are posted, one of them is delivered, then the client ends. -/
def story : List Op :=
  [.post (.buf ⟨[1, 2], []⟩), .work, .push 16, .sent, .timer, .work, .readSize, .recv, .push 49, .push 1, .sent, .signal,
    .post (.buf ⟨[3, 4, 5, 6], []⟩), .recv, .readStart [0, 0, 0, 0], .recv, .readComplete, .work, .cliCleanup, .req, .signal]

example : (∀ i ∈ posted story, Fit false i) ∧ payloads false 0 0 (posted story) = [[1, 2], [3, 4, 5, 6]] ∧
    ((Net.start false false 0 7 false).run story).cli.out = [[1, 2]] := by
  refine ⟨by simp [story, posted, Fit], by simp [story, posted, payloads, Full], by decide +kernel⟩

/-- As long as nobody fails and nobody ends, no side gives up. -/
theorem C79_no_error_partial (stream iter asks : Bool) (sub junk : Nat) (hj : junk < 4294967296) (ops : List Op)
    (hf : ∀ i ∈ posted ops, Fit iter i) (hc : ∀ op ∈ ops, Calm op) :
    let s := (Net.start stream iter sub junk asks).run ops
    s.srv.drv ≠ .closed ∧ s.srv.st ≠ .error ∧ s.srv.st ≠ .closing ∧ s.srv.bad = false ∧
      s.cli.st ≠ .error ∧ s.cli.st ≠ .closing ∧ s.cli.st ≠ .closed ∧
      s.cli.drv ≠ .ended ∧ s.cli.drv ≠ .thrown ∧ s.cli.drv ≠ .hangs := by
  intro s
  obtain ⟨-, fl, y, lk, tk⟩ := quiet_run (quiet_start ⟨stream, iter, sub, junk⟩ asks hj) ops hf hc
  obtain ⟨a1, a2, a3, a4⟩ := tk.alive
  refine ⟨tk.live.1, tk.live.2.2, tk.live.2.1, (lk.live tk.live).1.bad, a2, a1, a3, a4, crel_drv lk.cli tk.alive⟩

/-- Nothing gets stuck: from every state of a calm connection server and client alone can bring everything which was posted to
the receiver. A client of a stream server has to ask for buffers. -/
theorem C79_delivered_partial (stream iter asks : Bool) (sub junk : Nat) (hj : junk < 4294967296) (ha : stream = true → asks = true)
    (ops : List Op) (hf : ∀ i ∈ posted ops, Fit iter i) (hc : ∀ op ∈ ops, Calm op) :
    ∃ more, (∀ op ∈ more, Inner op) ∧
      ((Net.start stream iter sub junk asks).run (ops ++ more)).cli.out = payloads iter sub 0 (posted ops) ∧
      ((Net.start stream iter sub junk asks).run (ops ++ more)).srv.queue = [] := by
  have hq := quiet_run (quiet_start ⟨stream, iter, sub, junk⟩ asks hj) ops hf hc
  rw [List.nil_append] at hq
  obtain ⟨more, h1, h2, h3⟩ := deliver _ (Nat.le_refl _) hq (by
    intro h
    rw [stream_run ops (quiet_start ⟨stream, iter, sub, junk⟩ asks hj) hf hc]
    exact ha h)
  refine ⟨more, h1, ?_⟩
  unfold Net.run at h2 h3 ⊢
  rw [List.foldl_append]
  exact ⟨h2, h3⟩

example : let b : Item := .buf ⟨[1, 2, 3, 4], [⟨[9, 8, 7], 6⟩, ⟨[1], 2⟩]⟩
    (∀ i ∈ posted [.post b, .work, .push 5], Fit true i) ∧ (∀ op ∈ [Op.post b, .work, .push 5], Calm op) ∧
      payloads true 5 0 [b] = [mbsEvent 0 5 [9, 8, 7, 6] ++ mbsEvent 1 5 [1, 2]] := by
  refine ⟨?_, by simp [Calm], by simp [payloads, Full, mbsEvents, evData]⟩
  simp [posted, Fit, mbsEvents, mbsEvent_length, evData]

/-- A stream server sends not more than one buffer for each request, whatever the client sends. -/
theorem C79_on_request (iter asks : Bool) (sub junk : Nat) (hj : junk < 4294967296) (reqs : List Req) (ops : List Op)
    (ho : ∀ op ∈ ops, ServerOp op) (hf : ∀ i ∈ posted ops, Fit iter i) :
    let s := Net.run { Net.start true iter sub junk asks with up := reqs } ops
    s.srv.drv ≠ .closed → s.srv.st ≠ .error → s.srv.st ≠ .closing →
      ∃ taken, posted ops = taken ++ s.srv.queue ∧ s.up.length ≤ reqs.length ∧
        (payloads iter sub 0 taken).length ≤ reqs.length - s.up.length := by
  intro s h1 h2 h3
  have h0 : SAlone ⟨true, iter, sub, junk⟩ reqs.length { Net.start true iter sub junk asks with up := reqs } [] := by
    refine ⟨rfl, rfl, rfl, hj, by simp, Nat.le_refl _, fun _ => ⟨?_, by simp [Net.start, Srv.start], [], rfl, by simp, rfl, ?_⟩⟩
    · exact ⟨by simp [Net.start, Srv.start], rfl, ⟨rfl, rfl⟩, ⟨rfl, Or.inl rfl⟩⟩
    · simp [payloads, Net.credit, Net.start, Srv.start]
  obtain ⟨-, -, -, -, -, h6, h7⟩ := alone_run h0 ops ho hf
  obtain ⟨-, -, taken, e1, -, -, e4⟩ := h7 ⟨h1, h3, h2⟩
  refine ⟨taken, by simpa using e1, h6, ?_⟩
  change _ + s.credit ≤ _ at e4
  have : s.up.length ≤ s.credit := by unfold Net.credit; omega
  change (payloads iter sub 0 taken).length + _ ≤ _ at e4
  omega

example : let ops : List Op := [.post (.buf ⟨[1, 2], []⟩), .post (.buf ⟨[3, 4], []⟩), .push 16, .sent, .req, .work, .push 99, .sent,
      .signal, .work]
    let s := Net.run { Net.start true false 0 0 true with up := [.getevt] } ops
    (∀ op ∈ ops, ServerOp op) ∧ s.srv.drv = .waitCb ∧ s.srv.st = .waitReqBack ∧ s.up = [] := by
  refine ⟨by simp [ServerOp], ?_⟩
  decide +kernel

/-- Between a stream server and its client at most one buffer is on the way. -/
theorem C79_one_on_the_way (iter : Bool) (sub junk : Nat) (hj : junk < 4294967296) (ops : List Op)
    (hf : ∀ i ∈ posted ops, Fit iter i) (hc : ∀ op ∈ ops, Calm op) :
    let s := (Net.start true iter sub junk true).run ops
    ∃ taken, posted ops = taken ++ s.srv.queue ∧ (payloads iter sub 0 taken).length ≤ s.cli.out.length + 1 := by
  intro s
  obtain ⟨-, fl, y, lk, tk⟩ := quiet_run (quiet_start ⟨true, iter, sub, junk⟩ true hj) ops hf hc
  obtain ⟨-, -, taken, e1, -, -, e4⟩ := lk.live tk.live
  refine ⟨taken, by simpa using e1, ?_⟩
  have hs : ((Net.start true iter sub junk true).run ops).cli.stream = true :=
    stream_run ops (quiet_start ⟨true, iter, sub, junk⟩ true hj) hf hc
  have h1 := tk.bal hs (Or.inl rfl)
  have h2 := busy_le s.cli
  have e4' : payloads iter sub 0 taken = s.cli.out ++ fl := e4
  change _ = s.cli.busy at h1
  rw [e4', List.length_append]
  omega

/-- The limit which the server tells is not checked by it: the client gives up on a longer buffer. -/
theorem C79_too_long_counterexample (c : Cli) (junk len : Nat) (hj : junk < 4294967296) (h : len % 2 = 0) (hl : len < 4294967248)
    (hb : 4194304 < len) (h1 : c.st = .recvHeader) (h2 : c.drv = .size) (h3 : c.swapping = false) (h4 : c.maxBytes = 4194304) :
    (c.recv (mkHdr junk len).bytes).1.st = .error ∧ (c.recv (mkHdr junk len).bytes).1.drv = .ended := by
  simp only [Cli.recv, h1, Cli.onHeader, h3, Bool.false_eq_true, if_false,
    Hdr.ofBytes_bytes (mkHdr_small hj (show len < 4294967296 by omega)), h4]
  rw [mkHdr_readSize h hl, if_pos hb]
  simp only [Cli.callBack, h2]
  exact ⟨trivial, by simp [takeSize, diError, diCallBack, diEnd, diDflt, diValid]⟩

/-- The server sends a header of the wrong length for a buffer of odd length and sends all bytes: the client takes the last byte for
the begin of the next header. -/
theorem C79_odd_counterexample :
    ∃ ops : List Op, (∀ i ∈ posted ops, ∃ b : Buf, i = .buf b ∧ b.raw.length ≤ 4) ∧
      ¬ ((Net.start false false 0 0 false).run ops).cli.out <+: payloads false 0 0 (posted ops) := by
  refine ⟨[.post (.buf ⟨[1, 2, 3], []⟩), .push 16, .sent, .work, .push 99, .readSize, .recv, .recv, .readStart [0, 0, 0, 0], .recv,
    .readComplete], ?_, ?_⟩
  · intro i hi
    obtain rfl : i = _ := by simpa [posted] using hi
    exact ⟨_, rfl, by decide⟩
  · have : payloads false 0 0 (posted [.post (.buf ⟨[1, 2, 3], []⟩), .push 16, .sent, .work, .push 99, .readSize, .recv, .recv, .readStart [0, 0, 0, 0], .recv,
        .readComplete]) = [[1, 2, 3]] := by simp [posted, payloads, Full]
    rw [this]
    decide +kernel

/-- Buffers without data, with which a server tells that it is still there, close the input. -/
theorem C79_keep_alive_counterexample (c : Cli) (l : Data) (h1 : c.st = .recvHeader) (h2 : c.drv = .size)
    (h3 : c.swapping = false) (h4 : (Hdr.ofBytes l).readSize = 0) :
    (c.recv l).1.drv = .ended ∧ (c.recv l).1.st = .ready := by
  simp only [Cli.recv, h1, Cli.onHeader, h3, Bool.false_eq_true, if_false, h4]
  rw [if_neg (by omega), if_pos trivial]
  simp only [Cli.callBack, h2]
  exact ⟨by simp [takeSize, diSkip, diCallBack, diEnd, diDflt, diValid], trivial⟩

example : ∃ l : Data, l.length = 48 ∧ (Hdr.ofBytes l).readSize = 0 := ⟨(mkHdr 0 0).bytes, by decide +kernel⟩

/-- A client which got a wrong info record goes on as if it was right, when the transport was asking for data already. -/
theorem C79_wrong_info_counterexample (c : Cli) (l : Data) (h1 : c.st = .recvInfo) (h2 : word l 0 ≠ 1) (h3 : word (swap l) 0 ≠ 1) :
    (c.recv l).1.st = if c.pending then .recvHeader else .error := by
  simp only [Cli.recv, h1, Cli.onInfo, h2, ne_eq, not_false_eq_true, decide_true, if_true, h3, if_false, Bool.true_or, false_and]
  rcases Bool.eq_false_or_eq_true c.pending with h | h <;> simp [h, Cli.submit]

example : word [7, 0, 0, 0, 0, 0, 0, 0, 0, 0, 0, 0, 0, 0, 0, 0] 0 ≠ 1 ∧
    word (swap [7, 0, 0, 0, 0, 0, 0, 0, 0, 0, 0, 0, 0, 0, 0, 0]) 0 ≠ 1 := by decide +kernel

/-- A client of a stream server which does not ask gets nothing. -/
theorem C79_not_asking_counterexample (iter : Bool) (sub junk : Nat) (hj : junk < 4294967296) (ops : List Op)
    (hf : ∀ i ∈ posted ops, Fit iter i) (hc : ∀ op ∈ ops, Calm op) :
    ((Net.start true iter sub junk false).run ops).cli.out = [] ∧
      ((Net.start true iter sub junk false).run ops).srv.queue = posted ops := by
  have key : ∀ (ops : List Op) (s : Net) (all : List Item), Quiet ⟨true, iter, sub, junk⟩ s all → (∀ i ∈ posted ops, Fit iter i) →
      (∀ op ∈ ops, Calm op) → s.cli.stream = false →
      (s.srv.st = .init ∨ s.srv.st = .waitReq ∨ s.srv.st = .waitReqBack) → s.srv.queue = all →
      (s.run ops).srv.queue = all ++ posted ops := by
    intro ops
    induction ops with
    | nil => intro s all _ _ _ _ _ h; simpa [posted, Net.run] using h
    | cons op ops ih =>
      intro s all h hf hc hk hst hq
      have hp : posted (op :: ops) = posted [op] ++ posted ops := posted_append [op] ops
      have hcal := hc op (List.mem_cons_self ..)
      have h1 := quiet_step h op (fun i hi => hf i (by rw [hp]; exact List.mem_append_left _ hi)) hcal
      rw [hp, ← List.append_assoc]
      refine ih _ _ h1 (fun i hi => hf i (by rw [hp]; exact List.mem_append_right _ hi)) (fun o ho => hc o (List.mem_cons_of_mem _ ho))
        (by rw [stream_const h op hcal]; exact hk) ?_ ?_
      · obtain ⟨hi, fl, y, lk, tk⟩ := h
        have hu := tk.quiet hk
        have hstr := hi.stream
        cases op with
        | work =>
          simp only [Net.step]
          split
          · unfold Srv.work
            split
            · exact hst
            · exact hst
            · rcases hst with hst | hst | hst <;> simp only [Srv.check, hst] <;> simp [Srv.shut]
              rename_i hd _ _ _ _
              have := (lk.live tk.live).1.drv
              simp [hd, hst] at this
          · exact hst
        | sent =>
          simp only [Net.step]
          split
          · rename_i hp
            have := (lk.live tk.live).1.shape
            rcases hst with hst | hst | hst
            · simp [Srv.sent, hst, hstr]
            · simp [hst, hp.1] at this
            · simp [hst, hp.1] at this
          · exact hst
        | req => simp only [Net.step, hu]; split <;> exact hst
        | signal =>
          simp only [Net.step]
          split
          · exact hst
          · have : s.srv.signal.st = s.srv.st := by unfold Srv.signal; split <;> simp [Srv.shut]
            rw [this]; exact hst
        | srvFail | cliFail | cliEnd | cliCleanup => exact absurd hcal (by simp [Calm])
        | post | timer | push | readSize | recv | readStart | readComplete =>
          simp only [Net.step]
          repeat' split
          all_goals exact hst
      · obtain ⟨hi, fl, y, lk, tk⟩ := h
        have hu := tk.quiet hk
        cases op with
        | post i => simp [Net.step, posted, hq]
        | work =>
          simp only [Net.step, posted, List.append_nil]
          split
          · rename_i hd
            have hdr := (lk.live tk.live).1.drv
            unfold Srv.work
            split
            · exact hq
            · rename_i rest hh
              exact absurd (by rw [hh]; exact List.mem_cons_self ..) tk.eof
            · rcases hst with hst | hst | hst <;> simp only [Srv.check, hst]
              · exact hq
              · exact hq
              · simp [hd, hst] at hdr
          · exact hq
        | sent =>
          simp only [Net.step, posted, List.append_nil]
          split
          · rename_i hp
            rw [(sent_ok (lk.live tk.live).1 tk.live hp.1).2.2.2.1]
            exact hq
          · exact hq
        | req => simp only [Net.step, hu, posted, List.append_nil]; split <;> exact hq
        | signal =>
          simp only [Net.step, posted, List.append_nil]
          split
          · exact hq
          · have : s.srv.signal.queue = s.srv.queue := by unfold Srv.signal; split <;> simp [Srv.shut]
            rw [this]; exact hq
        | srvFail | cliFail | cliEnd | cliCleanup => exact absurd hcal (by simp [Calm])
        | timer | push | readSize | recv | readStart | readComplete =>
          simp only [Net.step, posted, List.append_nil]
          repeat' split
          all_goals exact hq
  have hq := quiet_start ⟨true, iter, sub, junk⟩ false hj
  have h1 := key ops _ _ hq hf hc rfl (Or.inl rfl) rfl
  rw [List.nil_append] at h1
  refine ⟨?_, h1⟩
  obtain ⟨-, fl, y, lk, tk⟩ := quiet_run hq ops hf hc
  obtain ⟨-, -, taken, e1, -, -, e4⟩ := lk.live tk.live
  rw [List.nil_append] at e1
  have : taken = [] := by
    have e2 : posted ops = taken ++ ((Net.start true iter sub junk false).run ops).srv.queue := e1
    rw [h1] at e2
    simpa using e2
  subst this
  exact (List.append_eq_nil_iff.1 e4.symm).1

end Verif.MbsNet
