import Verif.MbsNetLemmas

/-!
# Connection between MBS server and client: invariant
-/

namespace Verif.MbsNet

open Verif.Bytes Spec

/-- A payload which the client accepts. -/
def Fits (p : Data) : Prop := p ≠ [] ∧ p.length % 2 = 0 ∧ p.length ≤ 4194304

/-- State of the client, bytes still to come and payloads still to be delivered. -/
def CRel (c : Cli) (str : Data) (junk : Nat) (fl : List Data) : Prop :=
  c.swapping = false ∧ c.spanning = false ∧ c.span = [] ∧
  match c.st with
  | .recvInfo => c.want = some 16 ∧ str = infoBytes ++ frames junk fl ∧
      ((c.drv = .idle ∧ c.pending = false) ∨ (c.drv = .size ∧ c.pending = true))
  | .ready => c.want = none ∧ str = frames junk fl ∧ c.drv = .idle ∧ c.maxBytes = 4194304
  | .recvHeader => c.want = some 48 ∧ str = frames junk fl ∧ c.drv = .size ∧ c.maxBytes = 4194304
  | .waitBuffer => c.want = none ∧ c.maxBytes = 4194304 ∧ (c.drv = .buf c.hdr.readSize ∨ c.drv = .ended) ∧
      ∃ p fl', fl = p :: fl' ∧ c.hdr.readSize = p.length ∧ c.hdr.usedSize = p.length ∧ str = p ++ frames junk fl'
  | .recvBuffer => c.maxBytes = 4194304 ∧ c.drv = .data ∧
      ∃ p fl', fl = p :: fl' ∧ c.want = some p.length ∧ c.mem.length = p.length ∧ c.hdr.usedSize = p.length ∧
        str = p ++ frames junk fl'
  | .complBuffer => c.want = none ∧ c.maxBytes = 4194304 ∧ c.drv = .compl ∧
      ∃ p fl', fl = p :: fl' ∧ c.mem = p ∧ c.hdr.usedSize = p.length ∧ str = frames junk fl'
  | _ => c.want = none

theorem take_len_append {a b c : Data} {n : Nat} (h : a.length = n) : (a ++ (b ++ c)).take n = a := by
  rw [List.take_append_of_le_length (by omega), List.take_of_length_le (by omega)]

theorem split_take {d x a b : Data} {n : Nat} (h : d ++ x = a ++ b) (ha : a.length = n) (hn : n ≤ d.length) :
    d.take n = a ∧ d.drop n ++ x = b := by
  have h1 : (d ++ x).take n = (a ++ b).take n := by rw [h]
  have h2 : (d ++ x).drop n = (a ++ b).drop n := by rw [h]
  rw [List.take_append_of_le_length hn, List.take_append_of_le_length (by omega), List.take_of_length_le (l := a) (by omega)] at h1
  rw [List.drop_append_of_le_length hn, List.drop_append_of_le_length (by omega), List.drop_eq_nil_of_le (as := a) (by omega)] at h2
  exact ⟨h1, by simpa using h2⟩

theorem crel_recv {c : Cli} {d x : Data} {junk n : Nat} {fl : List Data} (hj : junk < 4294967296) (hf : ∀ p ∈ fl, Fits p)
    (h : CRel c (d ++ x) junk fl) (hw : c.want = some n) (hn : n ≤ d.length) :
    CRel (c.recv (d.take n)).1 (d.drop n ++ x) junk fl ∧ (c.recv (d.take n)).1.out = c.out := by
  obtain ⟨h1, h2, h3, h⟩ := h
  cases hst : c.st with
  | recvInfo =>
    simp only [hst] at h
    obtain ⟨h4, h5, h6⟩ := h
    rw [h4] at hw
    obtain rfl : 16 = n := by simpa using hw
    obtain ⟨h7, h8⟩ := split_take h5 info_length hn
    obtain ⟨w0, w1, w2, w3⟩ := info_words
    rw [h7, h8]
    simp only [Cli.recv, hst, Cli.onInfo, w0, w1, w2, w3, ne_eq, not_true_eq_false, decide_false, Bool.false_eq_true, if_false,
      if_true, Bool.false_or, false_and, and_false]
    rcases h6 with ⟨h6, h9⟩ | ⟨h6, h9⟩
    · simp [h9, CRel, h1, h2, h3, h6]
    · simp [h9, CRel, Cli.submit, h1, h2, h3, h6]
  | ready => simp only [hst] at h; rw [h.1] at hw; cases hw
  | recvHeader =>
    simp only [hst] at h
    obtain ⟨h4, h5, h6, h7⟩ := h
    rw [h4] at hw
    obtain rfl : 48 = n := by simpa using hw
    cases fl with
    | nil =>
      exfalso
      have := congrArg List.length h5
      simp at this
      have : d.length = 0 := by rw [this.1]; rfl
      omega
    | cons p fl' =>
      obtain ⟨hp0, hp1, hp2⟩ := hf p (List.mem_cons_self ..)
      rw [frames_cons] at h5
      obtain ⟨h8, h9⟩ := split_take h5 (Hdr.bytes_length _) hn
      have hp3 : 0 < p.length := List.length_pos_iff.2 hp0
      have hr := mkHdr_readSize (junk := junk) hp1 (by omega)
      have hu := mkHdr_usedSize (junk := junk) hp1 (by omega)
      rw [h8, h9]
      simp only [Cli.recv, hst, Cli.onHeader, h1, h2, Bool.false_eq_true, if_false,
        Hdr.ofBytes_bytes (mkHdr_small hj (show p.length < 4294967296 by omega)), h7]
      rw [hr, if_neg (by omega), if_neg (by omega)]
      have ht : takeSize p.length = .buf p.length := by
        unfold takeSize diCallBack diEnd diDflt diValid
        rw [if_neg (by omega), if_neg (by omega), if_neg (by omega), if_pos (by omega)]
      simp only [Cli.callBack, h6, ht]
      refine ⟨⟨rfl, rfl, h3, rfl, rfl, Or.inl ?_, p, fl', rfl, hr, hu, rfl⟩, trivial⟩
      dsimp only
      rw [hr]
  | waitBuffer => simp only [hst] at h; rw [h.1] at hw; cases hw
  | recvBuffer =>
    simp only [hst] at h
    obtain ⟨h4, h5, p, fl', rfl, h6, h7, h8, h9⟩ := h
    rw [h6] at hw
    obtain rfl : p.length = n := by simpa using hw
    obtain ⟨h10, h11⟩ := split_take h9 rfl hn
    have hp3 : 0 < p.length := List.length_pos_iff.2 (hf p (List.mem_cons_self ..)).1
    rw [h10, h11]
    simp only [Cli.recv, hst, Cli.onData, Cli.shift, h3, if_true, h8]
    rw [if_pos hp3]
    simp only [Cli.callBack, h5]
    refine ⟨⟨h1, h2, rfl, rfl, h4, rfl, p, fl', rfl, ?_, h8, rfl⟩, trivial⟩
    rw [List.take_zero, List.nil_append, Nat.zero_add, List.drop_eq_nil_of_le (by omega), List.append_nil]
  | complBuffer => simp only [hst] at h; rw [h.1] at hw; cases hw
  | closing => simp only [hst] at h; rw [h] at hw; cases hw
  | error => simp only [hst] at h; rw [h] at hw; cases hw
  | closed => simp only [hst] at h; rw [h] at hw; cases hw

theorem crel_readSize {c : Cli} {str : Data} {junk : Nat} {fl : List Data} (h : CRel c str junk fl) (hd : c.drv = .idle) :
    CRel c.readSize.1 str junk fl ∧ c.readSize.1.out = c.out := by
  obtain ⟨h1, h2, h3, h⟩ := h
  cases hst : c.st <;> simp only [hst] at h <;> simp only [Cli.readSize, hst, Cli.submit] <;>
    simp_all [CRel]

theorem crel_readStart {c : Cli} {str mem : Data} {junk n : Nat} {fl : List Data} (hf : ∀ p ∈ fl, Fits p)
    (h : CRel c str junk fl) (hd : c.drv = .buf n) :
    CRel (c.readStart n mem) str junk fl ∧ (c.readStart n mem).out = c.out := by
  obtain ⟨h1, h2, h3, h⟩ := h
  unfold Cli.readStart
  cases hst : c.st with
  | waitBuffer =>
    simp only [hst] at h
    obtain ⟨h4, h5, h6, p, fl', rfl, h7, h8, h9⟩ := h
    have hn : n = p.length := by
      rcases h6 with h6 | h6
      · rw [hd] at h6; rw [← h7]; injection h6
      · rw [hd] at h6; cases h6
    have hp3 : 0 < p.length := List.length_pos_iff.2 (hf p (List.mem_cons_self ..)).1
    split
    · refine ⟨⟨h1, h2, h3, ?_⟩, rfl⟩
      exact ⟨h4, h5, Or.inr rfl, p, fl', rfl, h7, h8, h9⟩
    · rename_i hm
      have hl : (if n > 0 then mem.take n else mem).length = p.length := by
        rw [if_pos (by omega), List.length_take]; omega
      have : ({ c with drv := .data, st := .waitBuffer } : Cli).start (if n > 0 then mem.take n else mem) =
          ({ c with drv := .data, st := .recvBuffer, want := some c.hdr.readSize, mem := if n > 0 then mem.take n else mem }, true) := by
        unfold Cli.start
        simp only [ne_eq, not_true_eq_false, if_false, h3, h4, Option.isSome_none, Bool.false_eq_true]
        rw [if_neg (by rw [hl, h7]; omega)]
      rw [this]
      refine ⟨⟨h1, h2, h3, h5, rfl, p, fl', rfl, ?_, hl, h8, h9⟩, rfl⟩
      show some c.hdr.readSize = _
      rw [h7]
  | recvInfo => simp only [hst] at h; rcases h.2.2 with h | h <;> (rw [hd] at h; cases h.1)
  | ready => simp only [hst] at h; have := h.2.2.1; rw [hd] at this; cases this
  | recvHeader => simp only [hst] at h; have := h.2.2.1; rw [hd] at this; cases this
  | recvBuffer => simp only [hst] at h; have := h.2.1; rw [hd] at this; cases this
  | complBuffer => simp only [hst] at h; have := h.2.2.1; rw [hd] at this; cases this
  | closing | error | closed =>
    simp only [hst] at h
    split
    · exact ⟨⟨h1, h2, h3, by simpa [hst] using h⟩, rfl⟩
    · simp only [Cli.start, ne_eq, reduceCtorEq, not_false_eq_true, if_true]
      exact ⟨⟨h1, h2, h3, by simpa [hst] using h⟩, trivial⟩

theorem crel_readComplete {c : Cli} {str : Data} {junk : Nat} {fl : List Data} (hf : ∀ p ∈ fl, Fits p)
    (h : CRel c str junk fl) (hd : c.drv = .compl) :
    ∃ fl', CRel c.readComplete str junk fl' ∧ c.readComplete.out ++ fl' = c.out ++ fl ∧ ∀ p ∈ fl', p ∈ fl := by
  obtain ⟨h1, h2, h3, h⟩ := h
  cases hst : c.st with
  | complBuffer =>
    simp only [hst] at h
    obtain ⟨h4, h5, h6, p, fl', rfl, h7, h8, h9⟩ := h
    obtain ⟨hp0, hp1, hp2⟩ := hf p (List.mem_cons_self ..)
    have hs : c.shift = 0 := by simp [Cli.shift, h3]
    have hj : c.joined = p := by
      unfold Cli.joined
      simp [h1, h3, h7]
    have : c.complete = ({ c with span := [], st := .ready }, .ok, p) := by
      unfold Cli.complete
      rw [if_neg (by simp [hst]), hj, hs, h8, Nat.zero_add, u32_of_lt (by omega)]
      dsimp only
      rw [if_neg (by omega), if_neg (by simp [h2]), List.take_length, if_neg hp0]
    refine ⟨fl', ?_, ?_, fun q hq => List.mem_cons_of_mem _ hq⟩
    · unfold Cli.readComplete
      rw [this]
      exact ⟨h1, h2, rfl, h4, h9, rfl, h5⟩
    · unfold Cli.readComplete
      rw [this]
      simp
  | recvInfo => simp only [hst] at h; rcases h.2.2 with h | h <;> (rw [hd] at h; cases h.1)
  | ready => simp only [hst] at h; have := h.2.2.1; rw [hd] at this; cases this
  | recvHeader => simp only [hst] at h; have := h.2.2.1; rw [hd] at this; cases this
  | waitBuffer => simp only [hst] at h; rcases h.2.2.1 with h | h <;> (rw [hd] at h; cases h)
  | recvBuffer => simp only [hst] at h; have := h.2.1; rw [hd] at this; cases this
  | closing | error | closed =>
    simp only [hst] at h
    refine ⟨fl, ?_⟩
    have : c.complete = (c, .error, []) := by
      unfold Cli.complete
      rw [if_pos (by simp [hst])]
    unfold Cli.readComplete
    rw [this]
    exact ⟨⟨h1, h2, h3, by simpa [hst] using h⟩, rfl, fun _ h => h⟩

theorem crel_fail {c : Cli} {str : Data} {junk : Nat} {fl : List Data} (err : Bool)
    (h : CRel c str junk fl) : CRel (c.fail err) str junk fl ∧ (c.fail err).out = c.out := by
  obtain ⟨h1, h2, h3, -⟩ := h
  refine ⟨⟨h1, h2, h3, ?_⟩, rfl⟩
  cases err <;> simp [Cli.fail]

theorem crel_cleanup {c : Cli} {str : Data} {junk : Nat} {fl : List Data}
    (h : CRel c str junk fl) : CRel c.cleanup.1 str junk fl ∧ c.cleanup.1.out = c.out := by
  obtain ⟨h1, h2, h3, -⟩ := h
  unfold Cli.cleanup
  split
  · exact ⟨⟨h1, h2, h3, rfl⟩, rfl⟩
  · rename_i h
    refine ⟨⟨h1, h2, h3, ?_⟩, rfl⟩
    cases hst : c.st <;> simp [hst] at h ⊢

theorem crel_end {c : Cli} {str : Data} {junk : Nat} {fl : List Data}
    (h : CRel c str junk fl) (he : c.st = .error ∨ c.st = .closed) : CRel { c with drv := .ended } str junk fl := by
  obtain ⟨h1, h2, h3, h⟩ := h
  refine ⟨h1, h2, h3, ?_⟩
  rcases he with he | he <;> simpa [he] using h

/-! ## Server -/

def Srv.Live (s : Srv) : Prop := s.drv ≠ .closed ∧ s.st ≠ .closing ∧ s.st ≠ .error

def OState.Sends (st : OState) : Prop := st = .sendEvents ∨ st = .sendLast ∨ st = .sendBuffer

/-- Shape of the state of a server. -/
structure SrvOk (s : Srv) : Prop where
  small : ∀ e ∈ s.left, (evData e).length ≤ 4194304
  bad : s.bad = false
  shape : match s.st with
    | .init | .initReq | .sendLast | .sendBuffer => s.pend.isSome ∧ s.left = []
    | .sendEvents => s.pend.isSome ∧ s.left ≠ []
    | .waitReq | .waitReqBack | .waitBuffer => s.pend = none ∧ s.left = []
    | _ => True
  drv : match s.drv with
    | .ready | .timeout => s.sigs = [] ∧ (s.st = .init ∨ s.st = .initReq ∨ s.st = .waitReq ∨ s.st = .waitBuffer)
    | .waitCb => (s.st = .waitReqBack ∧ s.sigs = []) ∨ (s.st = .waitBuffer ∧ s.sigs = [.ok])
    | .waitFinish => (s.st.Sends ∧ s.sigs = []) ∨ ((s.st = .waitReq ∨ s.st = .waitBuffer) ∧ s.sigs = [.ok])
    | .closed => True

/-- What stays as it is. -/
structure Same (s t : Srv) : Prop where
  stream : t.stream = s.stream
  iter : t.iter = s.iter
  sub : t.sub = s.sub
  junk : t.junk = s.junk

theorem sent_ok {s : Srv} (h : SrvOk s) (hl : s.Live) (hp : s.pend = some []) :
    SrvOk ({ s with pend := none }.sent) ∧ ({ s with pend := none }.sent).Live ∧ Same s ({ s with pend := none }.sent) ∧
      ({ s with pend := none }.sent).queue = s.queue ∧
      ({ s with pend := none }.sent).cnt + ({ s with pend := none }.sent).left.length = s.cnt + s.left.length ∧
      ({ s with pend := none }.sent).pend.getD [] ++
        mbsEvents s.sub ({ s with pend := none }.sent).cnt ({ s with pend := none }.sent).left = mbsEvents s.sub s.cnt s.left := by
  obtain ⟨h0, hb, h1, h2⟩ := h
  obtain ⟨l1, l2, l3⟩ := hl
  cases hst : s.st with
  | init =>
    have hd : s.drv = .ready ∨ s.drv = .timeout := by
      cases hd : s.drv <;> simp_all [OState.Sends]
    simp only [hst] at h1
    simp only [Srv.sent, Option.getD_none, List.nil_append]
    refine ⟨⟨h0, hb, ?_, ?_⟩, ⟨l1, ?_, ?_⟩, ⟨rfl, rfl, rfl, rfl⟩, by simp⟩
    · cases s.stream <;> simp [h1.2]
    · rcases hd with hd | hd <;> simp only [hd] at h2 ⊢ <;> cases s.stream <;> simp [h2.1]
    · cases s.stream <;> simp
    · cases s.stream <;> simp
  | initReq =>
    have hd : s.drv = .ready ∨ s.drv = .timeout := by
      cases hd : s.drv <;> simp_all [OState.Sends]
    simp only [hst] at h1
    simp only [Srv.sent, Option.getD_none, List.nil_append]
    refine ⟨⟨h0, hb, ?_, ?_⟩, ⟨l1, by simp, by simp⟩, ⟨rfl, rfl, rfl, rfl⟩, by simp⟩
    · simp [h1.2]
    · rcases hd with hd | hd <;> simp only [hd] at h2 ⊢ <;> simp [h2.1]
  | sendEvents =>
    have hd : s.drv = .waitFinish ∧ s.sigs = [] := by
      cases hd : s.drv <;> simp_all [OState.Sends]
    simp only [hst] at h1
    cases hle : s.left with
    | nil => exact absurd hle h1.2
    | cons e rest =>
      have he := h0 e (by rw [hle]; exact List.mem_cons_self ..)
      simp only [Srv.sent, hle, Option.getD_some]
      refine ⟨⟨fun e he => h0 e (by rw [hle]; exact List.mem_cons_of_mem _ he), hb, ?_, ?_⟩, ⟨l1, ?_, ?_⟩,
        ⟨rfl, rfl, rfl, rfl⟩, trivial, by simp; omega, ?_⟩
      · by_cases hr : rest = [] <;> simp [hr]
      · simp only [hd.1, hd.2]
        refine Or.inl ⟨?_, trivial⟩
        by_cases hr : rest = [] <;> simp [hr, OState.Sends]
      · by_cases hr : rest = [] <;> simp [hr]
      · by_cases hr : rest = [] <;> simp [hr]
      · rw [wrapped_eq _ _ _ he]; rfl
  | sendLast | sendBuffer =>
    have hd : s.drv = .waitFinish ∧ s.sigs = [] := by
      cases hd : s.drv <;> simp_all [OState.Sends]
    simp only [hst] at h1
    simp only [Srv.sent, Option.getD_none, List.nil_append]
    refine ⟨⟨h0, hb, ?_, ?_⟩, ⟨l1, ?_, ?_⟩, ⟨rfl, rfl, rfl, rfl⟩, by simp⟩
    · cases s.stream <;> cases s.extra <;> simp [h1.2]
    · simp only [hd.1, hd.2]
      cases s.stream <;> cases s.extra <;> simp
    · cases s.stream <;> cases s.extra <;> simp
    · cases s.stream <;> cases s.extra <;> simp
  | waitReq | waitReqBack | waitBuffer => simp only [hst] at h1; rw [hp] at h1; cases h1.1
  | closing => exact absurd hst l2
  | error => exact absurd hst l3

/-- Bytes which the server has still to send for what it has taken from its queue. -/
def Srv.rest (s : Srv) : Data := s.pend.getD [] ++ mbsEvents s.sub s.cnt s.left

/-- A step of a living server, which takes items from its queue and puts payloads on their way. -/
structure Goes (s t : Srv) (fl : List Data) (taken : List Item) : Prop where
  ok : SrvOk t
  live : t.Live
  same : Same s t
  queue : s.queue = taken ++ t.queue
  eof : Item.eof ∉ taken
  cnt : t.cnt + t.left.length = s.cnt + s.left.length + evCount s.iter taken
  rest : t.rest = s.rest ++ frames s.junk fl
  pay : payloads s.iter s.sub (s.cnt + s.left.length) taken = fl
  fits : ∀ p ∈ fl, Fits p

/-- The server dies. -/
structure Dies (s t : Srv) : Prop where
  dead : ¬ t.Live
  pend : t.pend = s.pend ∨ t.pend = none
  same : Same s t

theorem goes_quiet {s t : Srv} (h : SrvOk t) (hl : t.Live) (hs : Same s t) (hq : t.queue = s.queue)
    (hc : t.cnt + t.left.length = s.cnt + s.left.length) (hr : t.rest = s.rest) : Goes s t [] [] :=
  ⟨h, hl, hs, by simp [hq], by simp, by simpa [evCount] using hc, by simpa using hr, rfl, by simp⟩

theorem goes_sent {s : Srv} (h : SrvOk s) (hl : s.Live) (hp : s.pend = some []) :
    Goes s ({ s with pend := none }.sent) [] [] := by
  obtain ⟨h1, h2, h3, h4, h5, h6⟩ := sent_ok h hl hp
  refine goes_quiet h1 h2 h3 h4 h5 ?_
  unfold Srv.rest
  rw [h3.sub, h6, hp]
  rfl

theorem dies_fail {s : Srv} (err : Bool) (hl : s.Live) : Dies s (s.fail err) := by
  obtain ⟨l1, l2, l3⟩ := hl
  unfold Srv.fail
  cases hst : s.st <;> simp only [hst] at l2 l3 <;>
    first
      | (exact absurd rfl l2)
      | (exact absurd rfl l3)
      | (refine ⟨?_, Or.inl rfl, ⟨rfl, rfl, rfl, rfl⟩⟩; cases err <;> simp [Srv.Live])

theorem req_step {s : Srv} (h : SrvOk s) (hl : s.Live) (r : Req) :
    (Goes s (s.req r) [] [] ∧ r = .getevt ∧ s.st ≠ .initReq) ∨ (Dies s (s.req r) ∧ (r = .close ∨ s.st = .initReq)) := by
  cases r with
  | close => exact Or.inr ⟨by simpa [Srv.req] using dies_fail false hl, Or.inl rfl⟩
  | getevt =>
    obtain ⟨h0, hb, h1, h2⟩ := h
    obtain ⟨l1, l2, l3⟩ := hl
    cases hst : s.st with
    | initReq =>
      refine Or.inr ⟨?_, Or.inr rfl⟩
      simp only [Srv.req, hst, reduceCtorEq, if_false]
      exact ⟨by simp [Srv.Live], Or.inl rfl, ⟨rfl, rfl, rfl, rfl⟩⟩
    | closing => exact absurd hst l2
    | error => exact absurd hst l3
    | init | waitReq | waitReqBack | waitBuffer | sendEvents | sendLast | sendBuffer =>
      left
      refine ⟨?_, rfl, by simp⟩
      simp only [Srv.req, hst, reduceCtorEq, if_false]
      refine goes_quiet ⟨h0, hb, ?_, ?_⟩ ⟨l1, by simp, by simp⟩ ⟨rfl, rfl, rfl, rfl⟩ rfl rfl rfl
      · simpa [hst] using h1
      · cases hd : s.drv <;> simp_all [OState.Sends]

theorem signal_step {s : Srv} (h : SrvOk s) (hl : s.Live) : Goes s s.signal [] [] := by
  obtain ⟨h0, hb, h1, h2⟩ := h
  obtain ⟨l1, l2, l3⟩ := hl
  unfold Srv.signal
  split
  · exact goes_quiet ⟨h0, hb, h1, h2⟩ ⟨l1, l2, l3⟩ ⟨rfl, rfl, rfl, rfl⟩ rfl rfl rfl
  · rename_i rest hs
    refine goes_quiet ⟨h0, hb, h1, ?_⟩ ⟨?_, l2, l3⟩ ⟨rfl, rfl, rfl, rfl⟩ rfl rfl rfl
    · cases hd : s.drv <;> simp_all [OState.Sends] <;> grind
    · cases hd : s.drv <;> simp_all
  · rename_i x rest hs hx
    exfalso
    cases hd : s.drv <;> simp_all <;> grind

theorem evs_small {b : Buf} (h : (mbsEvents 0 0 b.evs).length ≤ 4194304) : ∀ e ∈ b.evs, (evData e).length ≤ 4194304 :=
  fun _ he => Nat.le_trans (mem_le_mbsEvents 0 0 he) h

theorem work_step {s : Srv} (h : SrvOk s) (hl : s.Live) (hd : s.drv = .ready) (hf : ∀ i ∈ s.queue, Fit s.iter i)
    (hj : s.junk < 4294967296) :
    (∃ fl taken, Goes s s.work fl taken) ∨ (Dies s s.work ∧ Item.eof ∈ s.queue) := by
  have h' := h
  obtain ⟨h0, hb, h1, h2⟩ := h
  have hl' := hl
  obtain ⟨l1, l2, l3⟩ := hl
  simp only [hd] at h2
  unfold Srv.work
  cases hq : s.queue with
  | nil => exact Or.inl ⟨[], [], goes_quiet h' hl' ⟨rfl, rfl, rfl, rfl⟩ rfl rfl rfl⟩
  | cons i rest =>
    cases i with
    | eof => exact Or.inr ⟨⟨by simp [Srv.Live, Srv.shut], Or.inr rfl, ⟨rfl, rfl, rfl, rfl⟩⟩, by simp⟩
    | buf b =>
      left
      have hfit := hf (.buf b) (by rw [hq]; exact List.mem_cons_self ..)
      obtain ⟨hsig, hst⟩ := h2
      dsimp only
      rcases hst with hst | hst | hst | hst
      · refine ⟨[], [], ?_⟩
        simp only [Srv.check, hst] at h1 ⊢
        exact goes_quiet ⟨h0, hb, by simpa [hst] using h1, by simp [hsig, hst]⟩ ⟨by simp, by simp [hst], by simp [hst]⟩
          ⟨rfl, rfl, rfl, rfl⟩ rfl rfl rfl
      · refine ⟨[], [], ?_⟩
        simp only [Srv.check, hst] at h1 ⊢
        exact goes_quiet ⟨h0, hb, by simpa [hst] using h1, by simp [hsig, hst]⟩ ⟨by simp, by simp [hst], by simp [hst]⟩
          ⟨rfl, rfl, rfl, rfl⟩ rfl rfl rfl
      · refine ⟨[], [], ?_⟩
        simp only [Srv.check, hst] at h1 ⊢
        exact goes_quiet ⟨h0, hb, by simpa [hst] using h1, by simp [hsig]⟩ ⟨by simp, by simp, by simp⟩
          ⟨rfl, rfl, rfl, rfl⟩ rfl rfl rfl
      · simp only [hst] at h1
        have hck : s.check = (s, .ok) := by simp [Srv.check, hst]
        rw [hck]
        dsimp only
        have hspec := sendSize_spec { s with queue := rest } b hfit
        obtain ⟨s1, s2, s3⟩ := hspec
        simp only at s1 s2 s3
        unfold Srv.write
        rw [if_neg (by simp [hst])]
        by_cases hfull : Full s.iter b
        · rcases Bool.eq_false_or_eq_true s.iter with hi | hi
          · have hs2 := s2 hfull hi
            rw [hs2]
            simp only [hi, if_true]
            simp only [Fit, hi, if_true] at hfit
            have hlen : (mbsEvents s.sub s.cnt b.evs).length = (mbsEvents 0 0 b.evs).length := by
              rw [mbsEvents_length, mbsEvents_length]
            have hne : b.evs ≠ [] := by
              obtain ⟨e, he, -⟩ := hfull.2 hi
              exact List.ne_nil_of_mem he
            refine ⟨[mbsEvents s.sub s.cnt b.evs], [.buf b], ⟨⟨evs_small hfit, hb, ⟨rfl, hne⟩, Or.inl ⟨Or.inl rfl, hsig⟩⟩,
              ⟨by simp, by simp, by simp⟩, ⟨rfl, hi.symm, rfl, rfl⟩, hq, by simp, ?_, ?_, ?_, ?_⟩⟩
            · rw [hi] at hfull; simp [evCount, hi, hfull, h1.2]
            · simp [Srv.rest, h1.1, h1.2, mbsEvents, frames, frame, hlen]
            · rw [hi] at hfull; simp [payloads, hi, hfull, h1.2]
            · intro p hp
              obtain rfl : p = _ := by simpa using hp
              refine ⟨?_, mbsEvents_even _ _ _, by omega⟩
              intro h0
              have h3 := mbsEvents_length s.sub s.cnt b.evs
              rw [h0] at h3
              cases hev : b.evs with
              | nil => exact hne hev
              | cons e l =>
                rw [hev] at h3
                simp only [List.length_nil, List.map_cons, List.sum_cons] at h3
                omega
          · have hs3 := s3 hfull hi
            rw [hs3]
            simp only [hi, Bool.false_eq_true, if_false]
            simp only [Fit, hi, Bool.false_eq_true, if_false] at hfit
            refine ⟨[b.raw], [.buf b], ⟨⟨h0, hb, ⟨rfl, h1.2⟩, Or.inl ⟨Or.inr (Or.inr rfl), hsig⟩⟩,
              ⟨by simp, by simp, by simp⟩, ⟨rfl, hi.symm, rfl, rfl⟩, hq, by simp, ?_, ?_, ?_, ?_⟩⟩
            · simp [evCount, hi]
            · simp [Srv.rest, h1.1, h1.2, mbsEvents, frames, frame]
            · rw [hi] at hfull; simp [payloads, hi, hfull]
            · intro p hp
              obtain rfl : p = _ := by simpa using hp
              exact ⟨hfull.1, hfit.1, hfit.2⟩
        · rw [s1 hfull]
          refine ⟨[], [.buf b], ⟨⟨h0, hb, by simpa [hst] using h1, by simp [hd, hsig, hst]⟩, ⟨l1, l2, l3⟩, ⟨rfl, rfl, rfl, rfl⟩,
            hq, by simp, ?_, ?_, ?_, by simp⟩⟩
          · simp [evCount, hfull]
          · simp [Srv.rest]
          · simp [payloads, hfull]

/-! ## Both together -/

/-- Parameters of the server. -/
structure Par where
  stream : Bool
  iter : Bool
  sub : Nat
  junk : Nat

theorem crel_more {c : Cli} {str : Data} {junk : Nat} {fl : List Data} (h : CRel c str junk fl) (fl2 : List Data) :
    CRel c (str ++ frames junk fl2) junk (fl ++ fl2) := by
  obtain ⟨h1, h2, h3, h⟩ := h
  refine ⟨h1, h2, h3, ?_⟩
  cases hst : c.st with
  | recvInfo => simp only [hst] at h ⊢; exact ⟨h.1, by rw [h.2.1, frames_append, List.append_assoc], h.2.2⟩
  | ready => simp only [hst] at h ⊢; exact ⟨h.1, by rw [h.2.1, frames_append], h.2.2⟩
  | recvHeader => simp only [hst] at h ⊢; exact ⟨h.1, by rw [h.2.1, frames_append], h.2.2⟩
  | waitBuffer =>
    simp only [hst] at h ⊢
    obtain ⟨h4, h5, h6, p, fl', rfl, h7, h8, h9⟩ := h
    exact ⟨h4, h5, h6, p, fl' ++ fl2, rfl, h7, h8, by rw [h9, frames_append, List.append_assoc]⟩
  | recvBuffer =>
    simp only [hst] at h ⊢
    obtain ⟨h4, h5, p, fl', rfl, h6, h7, h8, h9⟩ := h
    exact ⟨h4, h5, p, fl' ++ fl2, rfl, h6, h7, h8, by rw [h9, frames_append, List.append_assoc]⟩
  | complBuffer =>
    simp only [hst] at h ⊢
    obtain ⟨h4, h5, h6, p, fl', rfl, h7, h8, h9⟩ := h
    exact ⟨h4, h5, h6, p, fl' ++ fl2, rfl, h7, h8, by rw [h9, frames_append]⟩
  | closing | error | closed => simpa only [hst] using h

/-- What is on its way and what was taken of the queue. -/
structure Link (P : Par) (s : Net) (all : List Item) (fl : List Data) (y : Data) : Prop where
  cli : CRel s.cli (s.down ++ (s.srv.pend.getD [] ++ y)) P.junk fl
  fits : ∀ p ∈ fl, Fits p
  pre : s.cli.out ++ fl <+: payloads P.iter P.sub 0 all
  live : s.srv.Live → SrvOk s.srv ∧ y = mbsEvents P.sub s.srv.cnt s.srv.left ∧
    ∃ taken, all = taken ++ s.srv.queue ∧ Item.eof ∉ taken ∧ s.srv.cnt + s.srv.left.length = evCount P.iter taken ∧
      payloads P.iter P.sub 0 taken = s.cli.out ++ fl

structure Inv (P : Par) (s : Net) (all : List Item) : Prop where
  stream : s.srv.stream = P.stream
  iter : s.srv.iter = P.iter
  sub : s.srv.sub = P.sub
  junk : s.srv.junk = P.junk
  small : P.junk < 4294967296
  fit : ∀ i ∈ all, Fit P.iter i
  link : ∃ fl y, Link P s all fl y

theorem inv_start (P : Par) (asks : Bool) (hj : P.junk < 4294967296) : Inv P (Net.start P.stream P.iter P.sub P.junk asks) [] := by
  refine ⟨rfl, rfl, rfl, rfl, hj, by simp, [], [], ?_, by simp, by simp [payloads, Net.start], fun _ => ⟨?_, rfl, [], rfl, by simp, rfl, rfl⟩⟩
  · refine ⟨rfl, rfl, rfl, rfl, ?_, Or.inl ⟨rfl, rfl⟩⟩
    simp [Net.start, Srv.start]
  · exact ⟨by simp [Net.start, Srv.start], rfl, ⟨rfl, rfl⟩, ⟨rfl, Or.inl rfl⟩⟩

theorem link_client {P : Par} {s t : Net} {all : List Item} {fl fl' : List Data} {y : Data} (hl : Link P s all fl y)
    (hs : t.srv = s.srv) (c1 : CRel t.cli (t.down ++ (s.srv.pend.getD [] ++ y)) P.junk fl')
    (c2 : t.cli.out ++ fl' = s.cli.out ++ fl) (c3 : ∀ p ∈ fl', p ∈ fl) : Link P t all fl' y := by
  refine ⟨?_, fun p hp => hl.fits p (c3 p hp), by rw [c2]; exact hl.pre, ?_⟩
  · rw [hs]; exact c1
  · rw [hs, c2]; exact hl.live

/-- A step of the client. -/
theorem inv_client {P : Par} {s t : Net} {all : List Item} (h : Inv P s all) (hs : t.srv = s.srv)
    (hc : ∀ fl x, (∀ p ∈ fl, Fits p) → CRel s.cli (s.down ++ x) P.junk fl →
      ∃ fl', CRel t.cli (t.down ++ x) P.junk fl' ∧ t.cli.out ++ fl' = s.cli.out ++ fl ∧ ∀ p ∈ fl', p ∈ fl) : Inv P t all := by
  obtain ⟨h1, h2, h3, h4, h5, h6, fl, y, hl⟩ := h
  obtain ⟨fl', c1, c2, c3⟩ := hc fl _ hl.fits hl.cli
  refine ⟨by rw [hs, h1], by rw [hs, h2], by rw [hs, h3], by rw [hs, h4], h5, h6, fl', y, ?_, fun p hp => hl.fits p (c3 p hp),
    by rw [c2]; exact hl.pre, ?_⟩
  · rw [hs]; exact c1
  · rw [hs, c2]; exact hl.live

theorem link_goes {P : Par} {s t : Net} {all : List Item} {fl : List Data} {y : Data} (lk : Link P s all fl y)
    (h2 : s.srv.iter = P.iter) (h3 : s.srv.sub = P.sub) (h4 : s.srv.junk = P.junk) (hl : s.srv.Live) {fl2 : List Data}
    {tk : List Item} (hg : Goes s.srv t.srv fl2 tk) (hc : t.cli = s.cli) (hd : t.down = s.down) :
    Link P t all (fl ++ fl2) (mbsEvents P.sub t.srv.cnt t.srv.left) := by
  obtain ⟨g1, g2, taken, g3, g4, g5, g6⟩ := lk.live hl
  have hrest : s.srv.pend.getD [] ++ y = s.srv.rest := by rw [g2]; unfold Srv.rest; rw [h3]
  have hpay : payloads P.iter P.sub 0 (taken ++ tk) = s.cli.out ++ (fl ++ fl2) := by
    rw [payloads_append _ _ _ _ _ g4, g6, Nat.zero_add, ← g5, ← hg.pay, h2, h3, List.append_assoc]
  have hall : all = (taken ++ tk) ++ t.srv.queue := by rw [g3, hg.queue, List.append_assoc]
  have heof : Item.eof ∉ taken ++ tk := by
    rw [List.mem_append]; exact fun h => h.elim g4 hg.eof
  refine ⟨?_, ?_, ?_, fun _ => ⟨hg.ok, rfl, taken ++ tk, hall, heof, ?_, ?_⟩⟩
  · have : t.srv.pend.getD [] ++ mbsEvents P.sub t.srv.cnt t.srv.left = t.srv.rest := by
      unfold Srv.rest; rw [hg.same.sub, h3]
    rw [this, hg.rest, hc, hd, ← hrest, h4, ← List.append_assoc]
    exact crel_more lk.cli fl2
  · intro p hp
    rcases List.mem_append.1 hp with hp | hp
    · exact lk.fits p hp
    · exact hg.fits p hp
  · rw [hc, hall, payloads_append _ _ _ _ _ heof, hpay]
    exact List.prefix_append ..
  · rw [hg.cnt, g5, h2, evCount_append]
  · rw [hc, hpay]

/-- A step of a living server. -/
theorem inv_goes {P : Par} {s t : Net} {all : List Item} (h : Inv P s all) (hl : s.srv.Live) {fl2 : List Data} {tk : List Item}
    (hg : Goes s.srv t.srv fl2 tk) (hc : t.cli = s.cli) (hd : t.down = s.down) : Inv P t all := by
  obtain ⟨h1, h2, h3, h4, h5, h6, fl, y, lk⟩ := h
  exact ⟨by rw [hg.same.stream, h1], by rw [hg.same.iter, h2], by rw [hg.same.sub, h3], by rw [hg.same.junk, h4], h5, h6,
    _, _, link_goes lk h2 h3 h4 hl hg hc hd⟩

/-- The server dies. -/
theorem inv_dead {P : Par} {s t : Net} {all : List Item} (h : Inv P s all) (hl : ¬ t.srv.Live) (hs : Same s.srv t.srv)
    (hp : t.srv.pend = s.srv.pend ∨ t.srv.pend = none) (hc : t.cli = s.cli) (hd : t.down = s.down) : Inv P t all := by
  obtain ⟨h1, h2, h3, h4, h5, h6, fl, y, lk⟩ := h
  refine ⟨by rw [hs.stream, h1], by rw [hs.iter, h2], by rw [hs.sub, h3], by rw [hs.junk, h4], h5, h6, ?_⟩
  rcases hp with hp | hp
  · exact ⟨fl, y, by rw [hp, hc, hd]; exact lk.cli, lk.fits, by rw [hc]; exact lk.pre, fun h => absurd h hl⟩
  · refine ⟨fl, s.srv.pend.getD [] ++ y, ?_, lk.fits, by rw [hc]; exact lk.pre, fun h => absurd h hl⟩
    rw [hp, hc, hd]
    exact lk.cli

theorem same_refl (s : Srv) : Same s s := ⟨rfl, rfl, rfl, rfl⟩

theorem same_trans {a b c : Srv} (h : Same a b) (h' : Same b c) : Same a c :=
  ⟨h'.stream.trans h.stream, h'.iter.trans h.iter, h'.sub.trans h.sub, h'.junk.trans h.junk⟩

theorem same_shut (s : Srv) : Same s s.shut := ⟨rfl, rfl, rfl, rfl⟩

theorem fail_same (s : Srv) (err : Bool) : Same s (s.fail err) ∧ (s.fail err).pend = s.pend ∧ ¬ (s.fail err).Live := by
  unfold Srv.fail
  cases hst : s.st <;>
    first
      | exact ⟨⟨rfl, rfl, rfl, rfl⟩, rfl, by cases err <;> simp [Srv.Live, hst]⟩
      | exact ⟨⟨rfl, rfl, rfl, rfl⟩, rfl, by simp [Srv.Live, hst]⟩

theorem sent_dead {s : Srv} (h : ¬ s.Live) (hd : s.drv ≠ .closed) : s.sent = s := by
  unfold Srv.Live at h
  have : s.st = .closing ∨ s.st = .error := by
    cases hst : s.st <;> simp_all
  unfold Srv.sent
  rcases this with h | h <;> simp [h]

theorem req_dead {s : Srv} (r : Req) (h : ¬ s.Live) (hd : s.drv ≠ .closed) :
    Same s (s.req r) ∧ (s.req r).pend = s.pend ∧ ¬ (s.req r).Live := by
  have : s.st = .closing ∨ s.st = .error := by
    unfold Srv.Live at h
    cases hst : s.st <;> simp_all
  unfold Srv.req
  split
  · exact fail_same s false
  · rcases this with h | h <;> simp only [h] <;> exact ⟨⟨rfl, rfl, rfl, rfl⟩, trivial, by simp [Srv.Live]⟩

theorem work_dead {s : Srv} (h : ¬ s.Live) (hd : s.drv ≠ .closed) :
    Same s s.work ∧ (s.work.pend = s.pend ∨ s.work.pend = none) ∧ ¬ s.work.Live := by
  have hst : s.st = .closing ∨ s.st = .error := by
    unfold Srv.Live at h
    cases hst : s.st <;> simp_all
  unfold Srv.work
  split
  · exact ⟨same_refl s, Or.inl rfl, h⟩
  · exact ⟨⟨rfl, rfl, rfl, rfl⟩, Or.inr rfl, by simp [Srv.Live, Srv.shut]⟩
  · rcases hst with hst | hst
    · have : s.check = ({ s with st := .error }, .error) := by simp [Srv.check, hst]
      rw [this]
      exact ⟨⟨rfl, rfl, rfl, rfl⟩, Or.inr rfl, by simp [Srv.Live, Srv.shut]⟩
    · have : s.check = (s, .error) := by simp [Srv.check, hst]
      rw [this]
      exact ⟨⟨rfl, rfl, rfl, rfl⟩, Or.inr rfl, by simp [Srv.Live, Srv.shut]⟩

theorem signal_dead {s : Srv} (h : ¬ s.Live) (hd : s.drv ≠ .closed) :
    Same s s.signal ∧ (s.signal.pend = s.pend ∨ s.signal.pend = none) ∧ ¬ s.signal.Live := by
  have hst : s.st = .closing ∨ s.st = .error := by
    unfold Srv.Live at h
    cases hst : s.st <;> simp_all
  unfold Srv.signal
  split
  · exact ⟨same_refl s, Or.inl rfl, h⟩
  · exact ⟨⟨rfl, rfl, rfl, rfl⟩, Or.inl rfl, by rcases hst with h | h <;> simp [Srv.Live, h]⟩
  · exact ⟨⟨rfl, rfl, rfl, rfl⟩, Or.inr rfl, by simp [Srv.Live, Srv.shut]⟩

theorem queue_fit {P : Par} {s : Net} {all : List Item} (h : Inv P s all) (hl : s.srv.Live) :
    ∀ i ∈ s.srv.queue, Fit s.srv.iter i := by
  obtain ⟨fl, y, lk⟩ := h.link
  obtain ⟨-, -, taken, g3, -⟩ := lk.live hl
  intro i hi
  rw [h.iter]
  exact h.fit i (by rw [g3]; exact List.mem_append_right _ hi)

theorem srvOk_push {s : Srv} {l : Data} (n : Nat) (h : SrvOk s) (hp : s.pend = some l) : SrvOk { s with pend := some (l.drop n) } := by
  obtain ⟨h0, hb, h1, h2⟩ := h
  refine ⟨h0, hb, ?_, h2⟩
  cases hst : s.st <;> simp_all

theorem inv_step {P : Par} {s : Net} {all : List Item} (h : Inv P s all) (op : Op) (hf : ∀ i ∈ posted [op], Fit P.iter i) :
    Inv P (s.step op) (all ++ posted [op]) := by
  cases op with
  | post i =>
    obtain ⟨h1, h2, h3, h4, h5, h6, fl, y, lk⟩ := h
    refine ⟨h1, h2, h3, h4, h5, ?_, fl, y, lk.cli, lk.fits, ?_, ?_⟩
    · intro j hj
      rcases List.mem_append.1 hj with hj | hj
      · exact h6 j hj
      · exact hf j hj
    · obtain ⟨d, hd⟩ := payloads_mono P.iter P.sub 0 all i
      simp only [posted, hd]
      exact lk.pre.trans (List.prefix_append ..)
    · intro hl
      obtain ⟨⟨k0, kb, k1, k2⟩, g2, taken, g3, g4, g5, g6⟩ := lk.live hl
      exact ⟨⟨k0, kb, k1, k2⟩, g2, taken, by simp [Net.step, posted, g3], g4, g5, g6⟩
  | work =>
    simp only [posted, List.append_nil, Net.step]
    split
    · rename_i hd
      by_cases hl : s.srv.Live
      · obtain ⟨fl, y, lk⟩ := h.link
        rcases work_step (lk.live hl).1 hl hd (queue_fit h hl) (by rw [h.junk]; exact h.small) with ⟨fl2, tk, hg⟩ | ⟨hg, -⟩
        · exact inv_goes h hl hg rfl rfl
        · exact inv_dead h hg.dead hg.same hg.pend rfl rfl
      · obtain ⟨a, b, c⟩ := work_dead hl (by rw [hd]; simp)
        exact inv_dead h c a b rfl rfl
    · exact h
  | timer =>
    simp only [posted, List.append_nil, Net.step]
    split
    · rename_i hd
      by_cases hl : s.srv.Live
      · obtain ⟨fl, y, lk⟩ := h.link
        obtain ⟨k0, kb, k1, k2⟩ := (lk.live hl).1
        simp only [hd] at k2
        exact inv_goes h hl (goes_quiet ⟨k0, kb, k1, k2⟩ ⟨by simp, hl.2⟩ ⟨rfl, rfl, rfl, rfl⟩ rfl rfl rfl) rfl rfl
      · refine inv_dead h ?_ ⟨rfl, rfl, rfl, rfl⟩ (Or.inl rfl) rfl rfl
        rintro ⟨-, a, b⟩
        exact hl ⟨by rw [hd]; simp, a, b⟩
    · exact h
  | signal =>
    simp only [posted, List.append_nil, Net.step]
    split
    · exact h
    · rename_i hd
      by_cases hl : s.srv.Live
      · obtain ⟨fl, y, lk⟩ := h.link
        exact inv_goes h hl (signal_step (lk.live hl).1 hl) rfl rfl
      · obtain ⟨a, b, c⟩ := signal_dead hl hd
        exact inv_dead h c a b rfl rfl
  | push n =>
    simp only [posted, List.append_nil, Net.step]
    cases hp : s.srv.pend with
    | none => exact h
    | some l =>
      obtain ⟨h1, h2, h3, h4, h5, h6, fl, y, lk⟩ := h
      refine ⟨h1, h2, h3, h4, h5, h6, fl, y, ?_, lk.fits, lk.pre, ?_⟩
      · have := lk.cli
        rw [hp, Option.getD_some] at this
        show CRel s.cli ((s.down ++ l.take n) ++ (l.drop n ++ y)) P.junk fl
        rw [List.append_assoc, ← List.append_assoc (l.take n), List.take_append_drop]
        exact this
      · intro hl
        obtain ⟨k, g⟩ := lk.live hl
        exact ⟨srvOk_push n k hp, g⟩
  | sent =>
    simp only [posted, List.append_nil, Net.step]
    split
    · rename_i hp
      by_cases hl : s.srv.Live
      · obtain ⟨fl, y, lk⟩ := h.link
        exact inv_goes h hl (goes_sent (lk.live hl).1 hl hp.1) rfl rfl
      · have : ({ s.srv with pend := none } : Srv).sent = { s.srv with pend := none } :=
          sent_dead (s := { s.srv with pend := none }) hl hp.2
        rw [this]
        exact inv_dead h hl ⟨rfl, rfl, rfl, rfl⟩ (Or.inr rfl) rfl rfl
    · exact h
  | req =>
    simp only [posted, List.append_nil, Net.step]
    split
    · exact h
    · rename_i hd
      split
      · exact h
      · rename_i r rest hu
        by_cases hl : s.srv.Live
        · obtain ⟨fl, y, lk⟩ := h.link
          rcases req_step (lk.live hl).1 hl r with ⟨hg, -⟩ | ⟨hg, -⟩
          · exact inv_goes (t := { s with up := rest, srv := s.srv.req r }) h hl hg rfl rfl
          · exact inv_dead h hg.dead hg.same hg.pend rfl rfl
        · obtain ⟨a, b, c⟩ := req_dead r hl hd
          exact inv_dead h c a (Or.inl b) rfl rfl
  | readSize =>
    simp only [posted, List.append_nil, Net.step]
    split
    · rename_i hd
      refine inv_client h rfl fun fl x _ hc => ?_
      obtain ⟨a, b⟩ := crel_readSize hc hd
      exact ⟨fl, a, by rw [b], fun _ h => h⟩
    · exact h
  | recv =>
    simp only [posted, List.append_nil, Net.step]
    split
    · rename_i n hw
      split
      · rename_i hn
        refine inv_client h rfl fun fl x hf hc => ?_
        obtain ⟨a, b⟩ := crel_recv h.small hf hc hw hn
        exact ⟨fl, a, by rw [b], fun _ h => h⟩
      · exact h
    · exact h
  | readStart mem =>
    simp only [posted, List.append_nil, Net.step]
    split
    · rename_i n hd
      refine inv_client h rfl fun fl x hf hc => ?_
      obtain ⟨a, b⟩ := crel_readStart (mem := mem) hf hc hd
      exact ⟨fl, a, by rw [b], fun _ h => h⟩
    · exact h
  | readComplete =>
    simp only [posted, List.append_nil, Net.step]
    split
    · rename_i hd
      exact inv_client h rfl fun fl x hf hc => crel_readComplete hf hc hd
    · exact h
  | srvFail err =>
    simp only [posted, List.append_nil, Net.step]
    split
    · exact h
    · obtain ⟨a, b, c⟩ := fail_same { s.srv with pend := none } err
      exact inv_dead h c (same_trans (b := { s.srv with pend := none }) ⟨rfl, rfl, rfl, rfl⟩ a) (Or.inr b) rfl rfl
  | cliFail err =>
    simp only [posted, List.append_nil, Net.step]
    split
    · exact h
    · refine inv_client h rfl fun fl x _ hc => ?_
      obtain ⟨a, b⟩ := crel_fail err hc
      exact ⟨fl, a, by rw [b], fun _ h => h⟩
  | cliEnd =>
    simp only [posted, List.append_nil, Net.step]
    split
    · rename_i he
      exact inv_client h rfl fun fl x _ hc => ⟨fl, crel_end hc he, rfl, fun _ h => h⟩
    · exact h
  | cliCleanup =>
    simp only [posted, List.append_nil, Net.step]
    split
    · exact h
    · refine inv_client h rfl fun fl x _ hc => ?_
      obtain ⟨a, b⟩ := crel_cleanup hc
      exact ⟨fl, a, by rw [b], fun _ h => h⟩

theorem inv_run {P : Par} {s : Net} {all : List Item} (h : Inv P s all) (ops : List Op)
    (hf : ∀ i ∈ posted ops, Fit P.iter i) : Inv P (s.run ops) (all ++ posted ops) := by
  induction ops generalizing s all with
  | nil => simpa [posted, Net.run] using h
  | cons op ops ih =>
    have hp : posted (op :: ops) = posted [op] ++ posted ops := posted_append [op] ops
    rw [hp, ← List.append_assoc]
    exact ih (inv_step h op fun i hi => hf i (by rw [hp]; exact List.mem_append_left _ hi))
      fun i hi => hf i (by rw [hp]; exact List.mem_append_right _ hi)

end Verif.MbsNet
