import Verif.MbsNetInv

/-! Connections without errors: the requests are balanced with the buffers, and everything posted arrives at last. -/

namespace Verif.MbsNet

open Verif.Bytes Spec

/-! ## Client -/

def Cli.Alive (c : Cli) : Prop := c.st ≠ .closing ∧ c.st ≠ .error ∧ c.st ≠ .closed ∧ c.drv ≠ .ended

theorem crel_drv {c : Cli} {str : Data} {junk : Nat} {fl : List Data} (h : CRel c str junk fl) (ha : c.Alive) :
    c.drv ≠ .thrown ∧ c.drv ≠ .hangs := by
  obtain ⟨-, -, -, h⟩ := h
  obtain ⟨a1, a2, a3, -⟩ := ha
  cases hst : c.st <;> simp only [hst] at h
  · rcases h.2.2 with h | h <;> simp [h.1]
  · simp [h.2.2.1]
  · simp [h.2.2.1]
  · rcases h.2.2.1 with h | h <;> simp [h]
  · simp [h.2.1]
  · simp [h.2.2.1]
  · exact absurd hst a1
  · exact absurd hst a2
  · exact absurd hst a3

/-- The client waits for a buffer or is receiving one. -/
def Cli.busy (c : Cli) : Nat :=
  match c.st with
  | .recvInfo | .ready => 0
  | _ => 1

def Cli.rank (c : Cli) : Nat :=
  match c.st with
  | .recvInfo => if c.drv = .idle then 3 else 2
  | .ready => 2
  | .complBuffer => 3
  | .recvBuffer => 4
  | .waitBuffer => 5
  | _ => 0

/-- A step of the client which sends requests. -/
structure Moves (c c' : Cli) (r : List Req) : Prop where
  kind : c'.stream = c.stream
  alive : c'.Alive
  reqs : (r = [] ∧ c'.busy = c.busy) ∨ (c.busy = 0 ∧ c'.busy = 1 ∧ r = if c.stream then [.getevt] else [])

theorem recv_moves {c : Cli} {d x : Data} {junk n : Nat} {fl : List Data} (hj : junk < 4294967296) (hf : ∀ p ∈ fl, Fits p)
    (ha : c.Alive) (h : CRel c (d ++ x) junk fl) (hw : c.want = some n) (hn : n ≤ d.length) :
    Moves c (c.recv (d.take n)).1 (c.recv (d.take n)).2 ∧
      (c.recv (d.take n)).1.rank + (c.recv (d.take n)).2.length < c.rank + 2 * n := by
  obtain ⟨h1, h2, h3, h⟩ := h
  obtain ⟨a1, a2, a3, a4⟩ := ha
  cases hst : c.st with
  | recvInfo =>
    simp only [hst] at h
    obtain ⟨h4, h5, h6⟩ := h
    rw [h4] at hw
    obtain rfl : 16 = n := by simpa using hw
    obtain ⟨h7, h8⟩ := split_take h5 info_length hn
    obtain ⟨w0, w1, w2, w3⟩ := info_words
    rw [h7]
    simp only [Cli.recv, hst, Cli.onInfo, w0, w1, w2, w3, ne_eq, not_true_eq_false, decide_false, Bool.false_eq_true, if_false,
      if_true, Bool.false_or, false_and, and_false]
    rcases h6 with ⟨h6, h9⟩ | ⟨h6, h9⟩
    · simp only [h9, Bool.false_eq_true, if_false]
      exact ⟨⟨rfl, ⟨by simp, by simp, by simp, by simp [h6]⟩, Or.inl ⟨rfl, by simp [Cli.busy, hst]⟩⟩, by simp [Cli.rank, hst]⟩
    · simp only [h9, if_true, Cli.submit]
      refine ⟨⟨rfl, ⟨by simp, by simp, by simp, by simp [h6]⟩, Or.inr ⟨by simp [Cli.busy, hst], by simp [Cli.busy], rfl⟩⟩, ?_⟩
      cases c.stream <;> simp [Cli.rank, hst]
  | ready => simp only [hst] at h; rw [h.1] at hw; cases hw
  | recvHeader =>
    simp only [hst] at h
    obtain ⟨h4, h5, h6, h7⟩ := h
    rw [h4] at hw
    obtain rfl : 48 = n := by simpa using hw
    cases fl with
    | nil =>
      exfalso
      have := congrArg List.length h5
      simp at this
      have : d.length = 0 := by rw [this.1]; rfl
      omega
    | cons p fl' =>
      obtain ⟨hp0, hp1, hp2⟩ := hf p (List.mem_cons_self ..)
      rw [frames_cons] at h5
      obtain ⟨h8, h9⟩ := split_take h5 (Hdr.bytes_length _) hn
      have hp3 : 0 < p.length := List.length_pos_iff.2 hp0
      have hr := mkHdr_readSize (junk := junk) hp1 (by omega)
      rw [h8]
      simp only [Cli.recv, hst, Cli.onHeader, h1, h2, Bool.false_eq_true, if_false,
        Hdr.ofBytes_bytes (mkHdr_small hj (show p.length < 4294967296 by omega)), h7]
      rw [hr, if_neg (by omega), if_neg (by omega)]
      have ht : takeSize p.length = .buf p.length := by
        unfold takeSize diCallBack diEnd diDflt diValid
        rw [if_neg (by omega), if_neg (by omega), if_neg (by omega), if_pos (by omega)]
      simp only [Cli.callBack, h6, ht]
      exact ⟨⟨rfl, ⟨by simp, by simp, by simp, by simp⟩, Or.inl ⟨rfl, by simp [Cli.busy, hst]⟩⟩, by simp [Cli.rank, hst]⟩
  | waitBuffer => simp only [hst] at h; rw [h.1] at hw; cases hw
  | recvBuffer =>
    simp only [hst] at h
    obtain ⟨h4, h5, p, fl', rfl, h6, h7, h8, h9⟩ := h
    rw [h6] at hw
    obtain rfl : p.length = n := by simpa using hw
    have hp3 : 0 < p.length := List.length_pos_iff.2 (hf p (List.mem_cons_self ..)).1
    simp only [Cli.recv, hst, Cli.onData, Cli.shift, h3, if_true, h8]
    rw [if_pos hp3]
    simp only [Cli.callBack, h5]
    exact ⟨⟨rfl, ⟨by simp, by simp, by simp, by simp⟩, Or.inl ⟨rfl, by simp [Cli.busy, hst]⟩⟩, by simp [Cli.rank, hst]; omega⟩
  | complBuffer => simp only [hst] at h; rw [h.1] at hw; cases hw
  | closing => exact absurd hst a1
  | error => exact absurd hst a2
  | closed => exact absurd hst a3

theorem readSize_moves {c : Cli} {str : Data} {junk : Nat} {fl : List Data} (ha : c.Alive) (h : CRel c str junk fl)
    (hd : c.drv = .idle) :
    Moves c c.readSize.1 c.readSize.2 ∧ c.readSize.1.rank + c.readSize.2.length < c.rank := by
  obtain ⟨h1, h2, h3, h⟩ := h
  obtain ⟨a1, a2, a3, a4⟩ := ha
  cases hst : c.st with
  | recvInfo =>
    simp only [Cli.readSize, hst]
    exact ⟨⟨rfl, ⟨by simp [hst], by simp [hst], by simp [hst], by simp⟩, Or.inl ⟨rfl, by simp [Cli.busy, hst]⟩⟩,
      by simp [Cli.rank, hst, hd]⟩
  | ready =>
    simp only [Cli.readSize, hst, Cli.submit]
    refine ⟨⟨rfl, ⟨by simp, by simp, by simp, by simp⟩, Or.inr ⟨by simp [Cli.busy, hst], by simp [Cli.busy], rfl⟩⟩, ?_⟩
    cases c.stream <;> simp [Cli.rank, hst]
  | recvHeader => simp only [hst] at h; have := h.2.2.1; rw [hd] at this; cases this
  | waitBuffer => simp only [hst] at h; rcases h.2.2.1 with h | h <;> (rw [hd] at h; cases h)
  | recvBuffer => simp only [hst] at h; have := h.2.1; rw [hd] at this; cases this
  | complBuffer => simp only [hst] at h; have := h.2.2.1; rw [hd] at this; cases this
  | closing => exact absurd hst a1
  | error => exact absurd hst a2
  | closed => exact absurd hst a3

theorem readStart_moves {c : Cli} {str mem : Data} {junk n : Nat} {fl : List Data} (hf : ∀ p ∈ fl, Fits p) (ha : c.Alive)
    (h : CRel c str junk fl) (hd : c.drv = .buf n) (hm : 4194304 ≤ mem.length) :
    Moves c (c.readStart n mem) [] ∧ (c.readStart n mem).rank < c.rank := by
  obtain ⟨h1, h2, h3, h⟩ := h
  obtain ⟨a1, a2, a3, a4⟩ := ha
  unfold Cli.readStart
  cases hst : c.st with
  | waitBuffer =>
    simp only [hst] at h
    obtain ⟨h4, h5, h6, p, fl', rfl, h7, h8, h9⟩ := h
    have hn : n = p.length := by
      rcases h6 with h6 | h6
      · rw [hd] at h6; rw [← h7]; injection h6
      · rw [hd] at h6; cases h6
    obtain ⟨hp0, hp1, hp2⟩ := hf p (List.mem_cons_self ..)
    have hp3 : 0 < p.length := List.length_pos_iff.2 hp0
    rw [if_neg (by omega)]
    have hl : (if n > 0 then mem.take n else mem).length = p.length := by
      rw [if_pos (by omega), List.length_take]; omega
    have : ({ c with drv := .data, st := .waitBuffer } : Cli).start (if n > 0 then mem.take n else mem) =
        ({ c with drv := .data, st := .recvBuffer, want := some c.hdr.readSize, mem := if n > 0 then mem.take n else mem }, true) := by
      unfold Cli.start
      simp only [ne_eq, not_true_eq_false, if_false, h3, h4, Option.isSome_none, Bool.false_eq_true]
      rw [if_neg (by rw [hl, h7]; omega)]
    rw [this]
    exact ⟨⟨rfl, ⟨by simp, by simp, by simp, by simp⟩, Or.inl ⟨rfl, by simp [Cli.busy, hst]⟩⟩, by simp [Cli.rank, hst]⟩
  | recvInfo => simp only [hst] at h; rcases h.2.2 with h | h <;> (rw [hd] at h; cases h.1)
  | ready => simp only [hst] at h; have := h.2.2.1; rw [hd] at this; cases this
  | recvHeader => simp only [hst] at h; have := h.2.2.1; rw [hd] at this; cases this
  | recvBuffer => simp only [hst] at h; have := h.2.1; rw [hd] at this; cases this
  | complBuffer => simp only [hst] at h; have := h.2.2.1; rw [hd] at this; cases this
  | closing => exact absurd hst a1
  | error => exact absurd hst a2
  | closed => exact absurd hst a3

theorem readComplete_moves {c : Cli} {str : Data} {junk : Nat} {fl : List Data} (hf : ∀ p ∈ fl, Fits p) (ha : c.Alive)
    (h : CRel c str junk fl) (hd : c.drv = .compl) :
    ∃ p fl', fl = p :: fl' ∧ CRel c.readComplete str junk fl' ∧ c.readComplete.out = c.out ++ [p] ∧
      c.readComplete.stream = c.stream ∧ c.readComplete.Alive ∧ c.busy = 1 ∧ c.readComplete.busy = 0 ∧
      c.readComplete.rank < c.rank := by
  obtain ⟨h1, h2, h3, h⟩ := h
  obtain ⟨a1, a2, a3, a4⟩ := ha
  cases hst : c.st with
  | complBuffer =>
    simp only [hst] at h
    obtain ⟨h4, h5, h6, p, fl', rfl, h7, h8, h9⟩ := h
    obtain ⟨hp0, hp1, hp2⟩ := hf p (List.mem_cons_self ..)
    have hs : c.shift = 0 := by simp [Cli.shift, h3]
    have hj : c.joined = p := by
      unfold Cli.joined
      simp [h1, h3, h7]
    have : c.complete = ({ c with span := [], st := .ready }, .ok, p) := by
      unfold Cli.complete
      rw [if_neg (by simp [hst]), hj, hs, h8, Nat.zero_add, u32_of_lt (by omega)]
      dsimp only
      rw [if_neg (by omega), if_neg (by simp [h2]), List.take_length, if_neg hp0]
    refine ⟨p, fl', rfl, ?_⟩
    unfold Cli.readComplete
    rw [this]
    exact ⟨⟨h1, h2, rfl, h4, h9, rfl, h5⟩, rfl, rfl, ⟨by simp, by simp, by simp, by simp⟩, by simp [Cli.busy, hst], by simp [Cli.busy],
      by simp [Cli.rank, hst]⟩
  | recvInfo => simp only [hst] at h; rcases h.2.2 with h | h <;> (rw [hd] at h; cases h.1)
  | ready => simp only [hst] at h; have := h.2.2.1; rw [hd] at this; cases this
  | recvHeader => simp only [hst] at h; have := h.2.2.1; rw [hd] at this; cases this
  | waitBuffer => simp only [hst] at h; rcases h.2.2.1 with h | h <;> (rw [hd] at h; cases h)
  | recvBuffer => simp only [hst] at h; have := h.2.1; rw [hd] at this; cases this
  | closing => exact absurd hst a1
  | error => exact absurd hst a2
  | closed => exact absurd hst a3

/-! ## Server -/

def weight (iter : Bool) : Item → Nat
  | .eof => 1
  | .buf b =>
    if Full iter b then 3 * (48 + if iter then (mbsEvents 0 0 b.evs).length else b.raw.length) + b.evs.length + 10 else 1

def Srv.rank (s : Srv) : Nat :=
  match s.st with
  | .init | .initReq => if s.drv = .timeout then 8 else 9
  | .waitReq => if s.drv = .ready then 4 else 5
  | .waitReqBack => 3
  | .waitBuffer => if s.drv = .ready then 1 else 2
  | .sendEvents | .sendLast | .sendBuffer => 7
  | _ => 0

def Srv.mu (s : Srv) : Nat := (s.queue.map (weight s.iter)).sum + 3 * s.rest.length + s.left.length + s.rank

/-- `work` seen from outside. -/
structure Ctl (s t : Srv) (fl : List Data) : Prop where
  extra : t.extra = s.extra
  kind : (fl = [] ∧ (t.st = s.st ∨ (s.st = .waitReq ∧ t.st = .waitReqBack))) ∨
    (fl.length = 1 ∧ s.st = .waitBuffer ∧ t.st.Sends)
  less : s.queue ≠ [] → t.mu < s.mu

theorem work_ctl {s : Srv} (h : SrvOk s) (hd : s.drv = .ready) (hf : ∀ i ∈ s.queue, Fit s.iter i) (he : s.queue.head? ≠ some .eof)
    {fl : List Data} {taken : List Item} (hg : Goes s s.work fl taken) : Ctl s s.work fl := by
  have hpay := hg.pay
  have hgq := hg.queue
  clear hg
  obtain ⟨h0, hb, h1, h2⟩ := h
  simp only [hd] at h2
  obtain ⟨hsig, hst⟩ := h2
  unfold Srv.work at hgq ⊢
  cases hq : s.queue with
  | nil =>
    simp only [hq] at hgq
    obtain rfl : taken = [] := (List.append_eq_nil_iff.1 hgq.symm).1
    exact ⟨rfl, Or.inl ⟨hpay.symm, Or.inl rfl⟩, fun h => absurd hq h⟩
  | cons i rest =>
    cases i with
    | eof => exact absurd (by rw [hq]; rfl) he
    | buf b =>
      have hfit := hf (.buf b) (by rw [hq]; exact List.mem_cons_self ..)
      simp only [hq] at hgq
      have hnil : Item.buf b :: rest = taken ++ Item.buf b :: rest → fl = [] := by
        intro h2
        obtain rfl : taken = [] := by simpa using h2
        exact hpay.symm
      rcases hst with hst | hst | hst | hst
      · simp only [Srv.check, hst] at hgq ⊢
        refine ⟨rfl, Or.inl ⟨hnil (by simpa [hq] using hgq), Or.inl (by simp [hst])⟩, fun _ => ?_⟩
        simp [Srv.mu, Srv.rest, Srv.rank, hst, hd, hq]
      · simp only [Srv.check, hst] at hgq ⊢
        refine ⟨rfl, Or.inl ⟨hnil (by simpa [hq] using hgq), Or.inl (by simp [hst])⟩, fun _ => ?_⟩
        simp [Srv.mu, Srv.rest, Srv.rank, hst, hd, hq]
      · simp only [Srv.check, hst] at hgq ⊢
        refine ⟨rfl, Or.inl ⟨hnil (by simpa [hq] using hgq), Or.inr ⟨hst, rfl⟩⟩, fun _ => ?_⟩
        simp [Srv.mu, Srv.rest, Srv.rank, hst, hd, hq]
      · simp only [hst] at h1
        have hck : s.check = (s, .ok) := by simp [Srv.check, hst]
        rw [hck] at hgq ⊢
        dsimp only at hgq ⊢
        obtain ⟨s1, s2, s3⟩ := sendSize_spec { s with queue := rest } b hfit
        simp only at s1 s2 s3
        unfold Srv.write at hgq ⊢
        rw [if_neg (by simp [hst])] at hgq ⊢
        by_cases hfull : Full s.iter b
        · rcases Bool.eq_false_or_eq_true s.iter with hi | hi
          · have hs2 := s2 hfull hi
            rw [hs2] at hgq ⊢
            simp only [hi, if_true] at hgq ⊢
            obtain rfl : taken = [.buf b] := List.append_cancel_right (show taken ++ rest = [.buf b] ++ rest from hgq.symm)
            rw [hi] at hfull
            refine ⟨rfl, Or.inr ⟨by rw [← hpay]; simp [payloads, hi, hfull], hst, Or.inl rfl⟩, fun _ => ?_⟩
            simp only [Srv.mu, Srv.rest, Srv.rank, hst, hd, hq, hi, h1.1, h1.2, Option.getD_some, Option.getD_none,
              List.map_cons, List.sum_cons, weight, if_pos hfull, if_true, mbsEvents, List.length_append, Hdr.bytes_length,
              mbsEvents_length, List.length_nil]
            omega
          · have hs3 := s3 hfull hi
            rw [hs3] at hgq ⊢
            simp only [hi, Bool.false_eq_true, if_false] at hgq ⊢
            obtain rfl : taken = [.buf b] := List.append_cancel_right (show taken ++ rest = [.buf b] ++ rest from hgq.symm)
            rw [hi] at hfull
            refine ⟨rfl, Or.inr ⟨by rw [← hpay]; simp [payloads, hi, hfull], hst, Or.inr (Or.inr rfl)⟩, fun _ => ?_⟩
            simp only [Srv.mu, Srv.rest, Srv.rank, hst, hd, hq, hi, h1.1, h1.2, Option.getD_some, Option.getD_none,
              List.map_cons, List.sum_cons, weight, if_pos hfull, if_true, mbsEvents, List.length_append, Hdr.bytes_length,
              List.length_nil, Bool.false_eq_true, if_false]
            omega
        · rw [s1 hfull] at hgq ⊢
          dsimp only at hgq ⊢
          obtain rfl : taken = [.buf b] := List.append_cancel_right (show taken ++ rest = [.buf b] ++ rest from hgq.symm)
          refine ⟨rfl, Or.inl ⟨by rw [← hpay]; simp [payloads, hfull], Or.inl rfl⟩, fun _ => ?_⟩
          simp only [Srv.mu, Srv.rest, Srv.rank, hst, hd, hq, List.map_cons, List.sum_cons, weight, if_neg hfull]
          omega

theorem head_not {l : List Item} (h : Item.eof ∉ l) : l.head? ≠ some .eof := by
  cases l with
  | nil => simp
  | cons a l => intro he; obtain rfl : a = .eof := by simpa using he
                exact h (List.mem_cons_self ..)

theorem sent_less {s : Srv} (h : SrvOk s) (hl : s.Live) (hp : s.pend = some []) : ({ s with pend := none } : Srv).sent.mu < s.mu := by
  obtain ⟨-, -, e1, e2, e3, e4⟩ := sent_ok h hl hp
  have e5 : ({ s with pend := none } : Srv).sent.rest.length = s.rest.length := by
    unfold Srv.rest
    rw [e1.sub, e4, hp]; rfl
  have e6 : ({ s with pend := none } : Srv).sent.left.length + ({ s with pend := none } : Srv).sent.rank < s.left.length + s.rank := by
    clear e1 e2 e3 e4 e5
    obtain ⟨-, -, hsh, hdrv⟩ := h
    obtain ⟨l1, l2, l3⟩ := hl
    obtain ⟨stream, iter, sub, junk, st, pend, left, cnt, extra, drv, sigs, queue, bad⟩ := s
    dsimp only at *
    unfold Srv.sent Srv.rank
    dsimp only
    cases st with
    | init => cases drv <;> cases stream <;> simp_all [OState.Sends]
    | initReq => cases drv <;> simp_all [OState.Sends]
    | sendEvents =>
      cases left with
      | nil => simp_all
      | cons e rest => by_cases hr : rest = [] <;> simp_all
    | sendLast | sendBuffer =>
      have hd : drv = .waitFinish := by
        cases drv <;> simp_all
      cases stream <;> cases extra <;> simp_all
    | waitReq | waitReqBack | waitBuffer => simp [hp] at hsh
    | closing => exact absurd rfl l2
    | error => exact absurd rfl l3
  unfold Srv.mu
  rw [e1.iter, e2, e5]
  omega

theorem timer_less {s : Srv} (hd : s.drv = .timeout) (hs : s.st = .waitReq ∨ s.st = .waitBuffer) :
    ({ s with drv := .ready } : Srv).mu < s.mu := by
  unfold Srv.mu Srv.rank Srv.rest
  rcases hs with h | h <;> simp [h, hd]

/-! ## Both together -/

/-- Requests which the server has not answered. -/
def Net.credit (s : Net) : Nat :=
  s.up.length + (if s.srv.st = .initReq ∨ s.srv.st = .waitBuffer then 1 else 0) + (if s.srv.extra then 1 else 0)

structure Tok (P : Par) (s : Net) (fl : List Data) : Prop where
  live : s.srv.Live
  eof : Item.eof ∉ s.srv.queue
  alive : s.cli.Alive
  ups : ∀ r ∈ s.up, r = .getevt
  quiet : s.cli.stream = false → s.up = []
  ext : s.srv.extra = true → s.srv.st.Sends
  ini : s.srv.st = .init ∨ s.srv.st = .initReq → fl = []
  wr : s.srv.st = .waitReq ∨ s.srv.st = .waitReqBack → P.stream = true
  bal : s.cli.stream = true → P.stream = true ∨ s.srv.st = .init ∨ s.srv.st = .initReq → s.credit + fl.length = s.cli.busy

structure Quiet (P : Par) (s : Net) (all : List Item) : Prop where
  inv : Inv P s all
  tok : ∃ fl y, Link P s all fl y ∧ Tok P s fl

theorem busy_le (c : Cli) : c.busy ≤ 1 := by unfold Cli.busy; split <;> omega

theorem tok_client {P : Par} {s t : Net} {fl : List Data} {r : List Req} (h : Tok P s fl) (hs : t.srv = s.srv)
    (hu : t.up = s.up ++ r) (hm : Moves s.cli t.cli r) : Tok P t fl := by
  obtain ⟨h1, h2, h3, h4, h5, h6, h7, h8, h9⟩ := h
  obtain ⟨m1, m2, m3⟩ := hm
  refine ⟨hs ▸ h1, hs ▸ h2, m2, ?_, ?_, hs ▸ h6, hs ▸ h7, hs ▸ h8, ?_⟩
  · intro q hq
    rw [hu] at hq
    rcases List.mem_append.1 hq with hq | hq
    · exact h4 q hq
    · rcases m3 with ⟨m3, -⟩ | ⟨-, -, m3⟩
      · rw [m3] at hq; cases hq
      · rw [m3] at hq
        split at hq <;> simp at hq
        exact hq
  · intro hk
    rw [m1] at hk
    rw [hu, h5 hk]
    rcases m3 with ⟨m3, -⟩ | ⟨-, -, m3⟩ <;> simp [m3, hk]
  · intro hk hp
    rw [m1] at hk
    rw [hs] at hp
    have := h9 hk hp
    unfold Net.credit at this ⊢
    rw [hs, hu, List.length_append]
    rcases m3 with ⟨m3, m4⟩ | ⟨m4, m5, m3⟩
    · simp [m3, m4]; omega
    · simp [m3, hk, m5]; omega

theorem tok_server {P : Par} {s t : Net} {fl fl2 : List Data} {tk : List Item} (h : Tok P s fl)
    (hc : t.cli = s.cli) (hg : Goes s.srv t.srv fl2 tk) (hu : ∀ r ∈ t.up, r ∈ s.up) (hx : t.srv.extra = true → t.srv.st.Sends)
    (hi : t.srv.st = .init ∨ t.srv.st = .initReq → (s.srv.st = .init ∨ s.srv.st = .initReq) ∧ fl2 = [])
    (hw : t.srv.st = .waitReq ∨ t.srv.st = .waitReqBack → P.stream = true)
    (hb : s.cli.stream = true → P.stream = true ∨ t.srv.st = .init ∨ t.srv.st = .initReq → s.credit + fl.length = s.cli.busy →
      t.credit + fl2.length = s.credit) : Tok P t (fl ++ fl2) := by
  obtain ⟨h1, h2, h3, h4, h5, h6, h7, h8, h9⟩ := h
  refine ⟨hg.live, ?_, hc ▸ h3, fun r hr => h4 r (hu r hr), ?_, hx, ?_, hw, ?_⟩
  · rw [hg.queue] at h2
    exact fun h => h2 (List.mem_append_right _ h)
  · intro hk
    rw [hc] at hk
    rw [h5 hk] at hu
    exact List.eq_nil_iff_forall_not_mem.2 fun r hr => by have := hu r hr; cases this
  · intro hst
    obtain ⟨a, b⟩ := hi hst
    rw [h7 a, b]; rfl
  · intro hk hp
    rw [hc] at hk ⊢
    have hp' : P.stream = true ∨ s.srv.st = .init ∨ s.srv.st = .initReq := by
      rcases hp with hp | hp
      · exact Or.inl hp
      · exact Or.inr (hi hp).1
    have := h9 hk hp'
    have := hb hk hp this
    rw [List.length_append]
    omega

theorem quiet_step {P : Par} {s : Net} {all : List Item} (h : Quiet P s all) (op : Op) (hf : ∀ i ∈ posted [op], Fit P.iter i)
    (hc : Calm op) : Quiet P (s.step op) (all ++ posted [op]) := by
  refine ⟨inv_step h.inv op hf, ?_⟩
  obtain ⟨hi, fl, y, lk, tk⟩ := h
  have hok := (lk.live tk.live).1
  cases op with
  | post i =>
    obtain ⟨h1, h2, h3, h4, h5, h6, h7, h8, h9⟩ := tk
    refine ⟨fl, y, ⟨lk.cli, lk.fits, ?_, ?_⟩, ⟨h1, ?_, h3, h4, h5, h6, h7, h8, h9⟩⟩
    · obtain ⟨d, hd⟩ := payloads_mono P.iter P.sub 0 all i
      simp only [posted, hd]
      exact lk.pre.trans (List.prefix_append ..)
    · intro hl
      obtain ⟨⟨k0, kb, k1, k2⟩, g2, taken, g3, g4, g5, g6⟩ := lk.live hl
      exact ⟨⟨k0, kb, k1, k2⟩, g2, taken, by simp [Net.step, posted, g3], g4, g5, g6⟩
    · intro hm
      rcases List.mem_append.1 hm with hm | hm
      · exact h2 hm
      · obtain rfl : Item.eof = i := by simpa using hm
        exact hc
  | work =>
    simp only [posted, List.append_nil, Net.step]
    split
    · rename_i hd
      have hq := queue_fit hi tk.live
      rcases work_step hok tk.live hd hq (by rw [hi.junk]; exact hi.small) with ⟨fl2, tkn, hg⟩ | ⟨-, he⟩
      · have ctl := work_ctl hok hd hq (head_not tk.eof) hg
        refine ⟨fl ++ fl2, _, link_goes (t := { s with srv := s.srv.work }) lk hi.iter hi.sub hi.junk tk.live hg rfl rfl, ?_⟩
        obtain ⟨c1, c2, -⟩ := ctl
        have hex : s.srv.extra = false := by
          rcases Bool.eq_false_or_eq_true s.srv.extra with he | he
          · have := tk.ext he
            have h2 := hok.drv
            simp only [hd] at h2
            rcases this with e | e | e <;> simp [e] at h2
          · exact he
        refine tok_server (t := { s with srv := s.srv.work }) tk rfl hg (fun _ h => h) ?_ ?_ ?_ ?_
        · intro he; dsimp only at he; rw [c1, hex] at he; cases he
        · dsimp only
          intro hst
          rcases c2 with ⟨c2, c3 | ⟨c3, c4⟩⟩ | ⟨c2, c3, c4⟩
          · rw [c3] at hst; exact ⟨hst, c2⟩
          · rw [c4] at hst; simp at hst
          · rcases c4 with c4 | c4 | c4 <;> rw [c4] at hst <;> simp at hst
        · dsimp only
          intro hst
          rcases c2 with ⟨c2, c3 | ⟨c3, c4⟩⟩ | ⟨c2, c3, c4⟩
          · rw [c3] at hst; exact tk.wr hst
          · exact tk.wr (Or.inl c3)
          · rcases c4 with c4 | c4 | c4 <;> rw [c4] at hst <;> simp at hst
        · dsimp only
          intro _ _ _
          unfold Net.credit
          dsimp only
          rw [c1, hex]
          rcases c2 with ⟨c2, c3 | ⟨c3, c4⟩⟩ | ⟨c2, c3, c4⟩
          · simp [c2, c3]
          · simp [c2, c3, c4]
          · rcases c4 with c4 | c4 | c4 <;> simp [c2, c3, c4]
      · exact absurd he tk.eof
    · exact ⟨fl, y, lk, tk⟩
  | timer =>
    simp only [posted, List.append_nil, Net.step]
    split
    · rename_i hd
      obtain ⟨k0, kb, k1, k2⟩ := hok
      simp only [hd] at k2
      have hg : Goes s.srv { s.srv with drv := .ready } [] [] :=
        goes_quiet ⟨k0, kb, k1, k2⟩ ⟨by simp, tk.live.2⟩ ⟨rfl, rfl, rfl, rfl⟩ rfl rfl rfl
      refine ⟨fl ++ [], _, link_goes (t := { s with srv := { s.srv with drv := .ready } }) lk hi.iter hi.sub hi.junk tk.live hg rfl rfl, ?_⟩
      exact tok_server (t := { s with srv := { s.srv with drv := .ready } }) tk rfl hg (fun _ h => h) tk.ext (fun h => ⟨h, rfl⟩)
        tk.wr (fun _ _ _ => rfl)
    · exact ⟨fl, y, lk, tk⟩
  | signal =>
    simp only [posted, List.append_nil, Net.step]
    split
    · exact ⟨fl, y, lk, tk⟩
    · have hg := signal_step hok tk.live
      have he : s.srv.signal.st = s.srv.st ∧ s.srv.signal.extra = s.srv.extra := by
        unfold Srv.signal; split <;> simp [Srv.shut]
      refine ⟨fl ++ [], _, link_goes (t := { s with srv := s.srv.signal }) lk hi.iter hi.sub hi.junk tk.live hg rfl rfl, ?_⟩
      refine tok_server (t := { s with srv := s.srv.signal }) tk rfl hg (fun _ h => h) ?_ ?_ ?_ ?_
      · dsimp only; rw [he.1, he.2]; exact tk.ext
      · dsimp only; rw [he.1]; exact fun h => ⟨h, rfl⟩
      · dsimp only; rw [he.1]; exact tk.wr
      · intro _ _ _; unfold Net.credit; dsimp only; rw [he.1, he.2]; rfl
  | push n =>
    simp only [posted, List.append_nil, Net.step]
    cases hp : s.srv.pend with
    | none => exact ⟨fl, y, lk, tk⟩
    | some l =>
      obtain ⟨h1, h2, h3, h4, h5, h6, h7, h8, h9⟩ := tk
      refine ⟨fl, y, ⟨?_, lk.fits, lk.pre, ?_⟩, ⟨h1, h2, h3, h4, h5, h6, h7, h8, h9⟩⟩
      · have := lk.cli
        rw [hp, Option.getD_some] at this
        show CRel s.cli ((s.down ++ l.take n) ++ (l.drop n ++ y)) P.junk fl
        rw [List.append_assoc, ← List.append_assoc (l.take n), List.take_append_drop]
        exact this
      · intro hl
        obtain ⟨k, g⟩ := lk.live hl
        exact ⟨srvOk_push n k hp, g⟩
  | sent =>
    simp only [posted, List.append_nil, Net.step]
    split
    · rename_i hp
      have hg := goes_sent hok tk.live hp.1
      refine ⟨fl ++ [], _, link_goes (t := { s with srv := ({ s.srv with pend := none } : Srv).sent }) lk hi.iter hi.sub hi.junk tk.live hg rfl rfl, ?_⟩
      have hsh := hok.shape
      have hstr := hi.stream
      have hext := tk.ext
      refine tok_server (t := { s with srv := ({ s.srv with pend := none } : Srv).sent }) tk rfl hg (fun _ h => h) ?_ ?_ ?_ ?_
      all_goals
        dsimp only [Net.credit]
        unfold Srv.sent
        dsimp only
        cases hst : s.srv.st with
        | init =>
          have : s.srv.extra = false := by
            cases he : s.srv.extra with
            | false => rfl
            | true => have := hext he; simp [OState.Sends, hst] at this
          rcases Bool.eq_false_or_eq_true s.srv.stream with hb | hb <;> simp_all
        | initReq => first | (simp_all [OState.Sends]; done) | (intros; simp_all)
        | sendEvents =>
          cases hle : s.srv.left with
          | nil => simp_all
          | cons e rest => by_cases hr : rest = [] <;> simp_all [OState.Sends]
        | sendLast | sendBuffer =>
          rcases Bool.eq_false_or_eq_true s.srv.stream with hb | hb <;>
            rcases Bool.eq_false_or_eq_true s.srv.extra with hx | hx <;> simp_all
        | waitReq | waitReqBack | waitBuffer => simp [hst, hp.1] at hsh
        | closing => exact absurd hst tk.live.2.1
        | error => exact absurd hst tk.live.2.2
    · exact ⟨fl, y, lk, tk⟩
  | req =>
    simp only [posted, List.append_nil, Net.step]
    split
    · exact ⟨fl, y, lk, tk⟩
    · split
      · exact ⟨fl, y, lk, tk⟩
      · rename_i r rest hu
        have hr : r = .getevt := tk.ups r (by rw [hu]; exact List.mem_cons_self ..)
        have hcs : s.cli.stream = true := by
          rcases Bool.eq_false_or_eq_true s.cli.stream with h | h
          · exact h
          · have := tk.quiet h; rw [hu] at this; cases this
        have hle := busy_le s.cli
        have hst : s.srv.st ≠ .initReq := by
          intro h
          have := tk.bal hcs (Or.inr (Or.inr h))
          simp only [Net.credit, h, hu, List.length_cons, true_or, if_true] at this
          omega
        rcases req_step hok tk.live r with ⟨hg, -, -⟩ | ⟨-, h | h⟩
        · refine ⟨fl ++ [], _, link_goes (t := { s with up := rest, srv := s.srv.req r }) lk hi.iter hi.sub hi.junk tk.live hg rfl rfl, ?_⟩
          have hext := tk.ext
          refine tok_server (t := { s with up := rest, srv := s.srv.req r }) tk rfl hg
            (fun q hq => by rw [hu]; exact List.mem_cons_of_mem _ hq) ?_ ?_ ?_ ?_
          · dsimp only
            subst hr
            cases h : s.srv.st <;> simp_all [Srv.req, OState.Sends]
          · dsimp only
            subst hr
            cases h : s.srv.st <;> simp_all [Srv.req]
          · dsimp only
            subst hr
            have := tk.wr
            cases h : s.srv.st <;> simp_all [Srv.req]
          · intro _ _ hb
            subst hr
            rcases Bool.eq_false_or_eq_true s.srv.extra with hx | hx
            · have hs := hext hx
              simp only [Net.credit, hu, hx, List.length_cons, if_true] at hb
              omega
            · have l2 := tk.live.2.1
              have l3 := tk.live.2.2
              cases h : s.srv.st <;> simp_all [Srv.req, Net.credit]
              all_goals omega
        · rw [hr] at h; cases h
        · exact absurd h hst
  | readSize =>
    simp only [posted, List.append_nil, Net.step]
    split
    · rename_i hd
      obtain ⟨a, b⟩ := crel_readSize lk.cli hd
      obtain ⟨m, -⟩ := readSize_moves tk.alive lk.cli hd
      exact ⟨fl, y, link_client (t := { s with cli := s.cli.readSize.1, up := s.up ++ s.cli.readSize.2 }) lk rfl a (by rw [b]) (fun _ h => h),
        tok_client (t := { s with cli := s.cli.readSize.1, up := s.up ++ s.cli.readSize.2 }) tk rfl rfl m⟩
    · exact ⟨fl, y, lk, tk⟩
  | recv =>
    simp only [posted, List.append_nil, Net.step]
    split
    · rename_i n hw
      split
      · rename_i hn
        obtain ⟨a, b⟩ := crel_recv hi.small lk.fits lk.cli hw hn
        obtain ⟨m, -⟩ := recv_moves hi.small lk.fits tk.alive lk.cli hw hn
        exact ⟨fl, y, link_client (t := { s with down := s.down.drop n, cli := (s.cli.recv (s.down.take n)).1, up := s.up ++ (s.cli.recv (s.down.take n)).2 })
          lk rfl a (by rw [b]) (fun _ h => h), tok_client (t := { s with down := s.down.drop n, cli := (s.cli.recv (s.down.take n)).1, up := s.up ++ (s.cli.recv (s.down.take n)).2 }) tk rfl rfl m⟩
      · exact ⟨fl, y, lk, tk⟩
    · exact ⟨fl, y, lk, tk⟩
  | readStart mem =>
    simp only [posted, List.append_nil, Net.step]
    split
    · rename_i n hd
      obtain ⟨a, b⟩ := crel_readStart (mem := mem) lk.fits lk.cli hd
      obtain ⟨m, -⟩ := readStart_moves lk.fits tk.alive lk.cli hd hc
      exact ⟨fl, y, link_client (t := { s with cli := s.cli.readStart n mem }) lk rfl a (by rw [b]) (fun _ h => h),
        tok_client (t := { s with cli := s.cli.readStart n mem }) tk rfl (by simp) m⟩
    · exact ⟨fl, y, lk, tk⟩
  | readComplete =>
    simp only [posted, List.append_nil, Net.step]
    split
    · rename_i hd
      obtain ⟨p, fl', rfl, a, b, c, d, e1, e2, -⟩ := readComplete_moves lk.fits tk.alive lk.cli hd
      refine ⟨fl', y, link_client (t := { s with cli := s.cli.readComplete }) lk rfl a (by rw [b]; simp) (fun _ h => List.mem_cons_of_mem _ h), ?_⟩
      obtain ⟨h1, h2, h3, h4, h5, h6, h7, h8, h9⟩ := tk
      refine ⟨h1, h2, d, h4, ?_, h6, ?_, h8, ?_⟩
      · dsimp only; rw [c]; exact h5
      · intro h; have := h7 h; cases this
      · dsimp only; rw [c]
        intro hk hp
        have := h9 hk hp
        simp only [List.length_cons] at this
        unfold Net.credit at this ⊢
        dsimp only
        omega
    · exact ⟨fl, y, lk, tk⟩
  | srvFail | cliFail | cliEnd | cliCleanup => exact absurd hc (by simp [Calm])

theorem quiet_run {P : Par} {s : Net} {all : List Item} (h : Quiet P s all) (ops : List Op)
    (hf : ∀ i ∈ posted ops, Fit P.iter i) (hc : ∀ op ∈ ops, Calm op) : Quiet P (s.run ops) (all ++ posted ops) := by
  induction ops generalizing s all with
  | nil => simpa [posted, Net.run] using h
  | cons op ops ih =>
    have hp : posted (op :: ops) = posted [op] ++ posted ops := posted_append [op] ops
    rw [hp, ← List.append_assoc]
    exact ih (quiet_step h op (fun i hi => hf i (by rw [hp]; exact List.mem_append_left _ hi)) (hc op (List.mem_cons_self ..)))
      (fun i hi => hf i (by rw [hp]; exact List.mem_append_right _ hi)) fun o ho => hc o (List.mem_cons_of_mem _ ho)

theorem quiet_start (P : Par) (asks : Bool) (hj : P.junk < 4294967296) :
    Quiet P (Net.start P.stream P.iter P.sub P.junk asks) [] := by
  refine ⟨inv_start P asks hj, [], [], ⟨?_, by simp, by simp [payloads, Net.start], fun _ => ⟨?_, rfl, [], rfl, by simp, rfl, rfl⟩⟩, ?_⟩
  · refine ⟨rfl, rfl, rfl, rfl, ?_, Or.inl ⟨rfl, rfl⟩⟩
    simp [Net.start, Srv.start]
  · exact ⟨by simp [Net.start, Srv.start], rfl, ⟨rfl, rfl⟩, ⟨rfl, Or.inl rfl⟩⟩
  · refine ⟨by simp [Net.start, Srv.start, Srv.Live], by simp [Net.start, Srv.start], by simp [Net.start, Cli.Alive],
      by simp [Net.start], fun _ => rfl, by simp [Net.start, Srv.start], fun _ => rfl, by simp [Net.start, Srv.start],
      fun _ _ => by simp [Net.start, Srv.start, Net.credit, Cli.busy]⟩

def Net.mu (s : Net) : Nat := s.srv.mu + 2 * s.down.length + s.up.length + s.cli.rank

theorem Net.posted_nil {op : Op} (h : Inner op) : posted [op] = [] := by
  cases op <;> first | rfl | exact absurd h (by simp [Inner])

theorem inner_calm {op : Op} (h : Inner op) : Calm op := by
  cases op <;> first | exact h | exact absurd h (by simp [Inner])

/-- While something is to be delivered, some operation brings it further. -/
theorem progress {P : Par} {s : Net} {all : List Item} {fl : List Data} {y : Data} (hi : Inv P s all) (lk : Link P s all fl y)
    (tk : Tok P s fl) (hp : P.stream = true → s.cli.stream = true) (hn : s.srv.queue ≠ [] ∨ fl ≠ []) :
    ∃ op, Inner op ∧ (s.step op).mu < s.mu := by
  have hok := (lk.live tk.live).1
  obtain ⟨-, hy, -⟩ := lk.live tk.live
  have hsh := hok.shape
  have hdrv := hok.drv
  obtain ⟨l1, l2, l3⟩ := tk.live
  have hcr := lk.cli
  cases hpe : s.srv.pend with
  | some l =>
    cases l with
    | cons a l =>
      refine ⟨.push (l.length + 1), trivial, ?_⟩
      simp only [Net.step, hpe, Net.mu, Srv.mu, Srv.rest, Srv.rank, Option.getD_some, List.length_append, List.length_cons,
        List.length_take, List.length_drop]
      omega
    | nil =>
      refine ⟨.sent, trivial, ?_⟩
      have hs := sent_less hok tk.live hpe
      simp only [Net.step, hpe, Net.mu, true_and]
      rw [if_pos l1]
      dsimp only
      omega
  | none =>
    have hnoy : y = [] := by
      rw [hy]
      have : s.srv.left = [] := by cases hst : s.srv.st <;> simp_all
      rw [this]; rfl
    rw [hpe, hnoy] at hcr
    simp only [Option.getD_none, List.append_nil] at hcr
    have hwst : s.srv.st = .waitReq ∨ s.srv.st = .waitReqBack ∨ s.srv.st = .waitBuffer := by
      cases hst : s.srv.st <;> simp_all
    have hrecv : ∀ n, s.cli.want = some n → n ≤ s.down.length → ∃ op, Inner op ∧ (s.step op).mu < s.mu := by
      intro n hw hle
      obtain ⟨-, m⟩ := recv_moves (x := []) hi.small lk.fits tk.alive (by simpa using hcr) hw hle
      refine ⟨.recv, trivial, ?_⟩
      simp only [Net.step, hw, if_pos hle, Net.mu, List.length_append, List.length_drop]
      omega
    cases hsg : s.srv.sigs with
    | cons x sg =>
      refine ⟨.signal, trivial, ?_⟩
      have hx : x = .ok ∧ (s.srv.drv = .waitCb ∨ s.srv.drv = .waitFinish) ∧ (s.srv.st = .waitReq ∨ s.srv.st = .waitBuffer) := by
        cases hd : s.srv.drv <;> simp_all [OState.Sends] <;> grind
      obtain ⟨rfl, hx, hx2⟩ := hx
      simp only [Net.step, if_neg l1, Net.mu, Srv.signal, hsg, if_pos hx]
      have : ({ s.srv with sigs := sg, drv := .ready } : Srv).rank < s.srv.rank := by
        unfold Srv.rank
        dsimp only
        rcases hx2 with h | h <;> rcases hx with h' | h' <;> simp [h, h']
      simp only [Srv.mu, Srv.rest] at *
      omega
    | nil =>
      cases hd : s.srv.drv with
      | closed => exact absurd hd l1
      | timeout =>
        refine ⟨.timer, trivial, ?_⟩
        have hs : s.srv.st = .waitReq ∨ s.srv.st = .waitBuffer := by
          simp only [hd] at hdrv
          rcases hwst with h | h | h <;> simp_all
        have := timer_less hd hs
        simp only [Net.step, hd, if_true, Net.mu]
        omega
      | waitFinish =>
        exfalso
        simp only [hd, hsg, and_true, reduceCtorEq, and_false, or_false, OState.Sends] at hdrv
        rcases hwst with h | h | h <;> simp [h] at hdrv
      | ready | waitCb =>
        cases hcst : s.cli.st with
        | closing => exact absurd hcst tk.alive.1
        | error => exact absurd hcst tk.alive.2.1
        | closed => exact absurd hcst tk.alive.2.2.1
        | recvInfo =>
          obtain ⟨-, -, -, h⟩ := hcr
          simp only [hcst] at h
          refine hrecv 16 h.1 ?_
          rw [h.2.1, List.length_append, info_length]; omega
        | ready =>
          have h := hcr.2.2.2
          simp only [hcst] at h
          refine ⟨.readSize, trivial, ?_⟩
          obtain ⟨-, m⟩ := readSize_moves tk.alive hcr h.2.2.1
          simp only [Net.step, h.2.2.1, if_true, Net.mu, List.length_append]
          omega
        | waitBuffer =>
          have h := hcr.2.2.2
          simp only [hcst] at h
          have hdr : s.cli.drv = .buf s.cli.hdr.readSize := by
            rcases h.2.2.1 with h | h
            · exact h
            · exact absurd h tk.alive.2.2.2
          obtain ⟨mem, hmem⟩ : ∃ mem : Data, 4194304 ≤ mem.length := ⟨List.replicate 4194304 0, by rw [List.length_replicate]; exact Nat.le_refl _⟩
          refine ⟨.readStart mem, hmem, ?_⟩
          obtain ⟨-, m⟩ := readStart_moves (mem := mem) lk.fits tk.alive hcr hdr hmem
          simp only [Net.step, hdr, Net.mu]
          omega
        | recvBuffer =>
          have h := hcr.2.2.2
          simp only [hcst] at h
          obtain ⟨-, -, p, fl', -, hw, -, -, hstr⟩ := h
          refine hrecv p.length hw ?_
          rw [hstr, List.length_append]; omega
        | complBuffer =>
          have h := hcr.2.2.2
          simp only [hcst] at h
          refine ⟨.readComplete, trivial, ?_⟩
          obtain ⟨p, fl', -, -, -, -, -, -, -, m⟩ := readComplete_moves lk.fits tk.alive hcr h.2.2.1
          simp only [Net.step, h.2.2.1, if_true, Net.mu]
          omega
        | recvHeader =>
          have h := hcr.2.2.2
          simp only [hcst] at h
          cases fl with
          | cons p fl' =>
            refine hrecv 48 h.1 ?_
            rw [h.2.1, frames_cons, List.length_append, Hdr.bytes_length]; omega
          | nil =>
            have hq : s.srv.queue ≠ [] := hn.resolve_right (by simp)
            cases hu : s.up with
            | cons r rest =>
              refine ⟨.req, trivial, ?_⟩
              have hr : r = .getevt := tk.ups r (by rw [hu]; exact List.mem_cons_self ..)
              subst hr
              simp only [Net.step, if_neg l1, hu, Net.mu, List.length_cons]
              have : (s.srv.req .getevt).mu ≤ s.srv.mu := by
                rcases hwst with h | h | h <;> simp only [Srv.req, h, Srv.mu, Srv.rest, Srv.rank, reduceCtorEq, if_false] <;>
                  (repeat' split) <;> omega
              omega
            | nil =>
              first
                | (refine ⟨.work, trivial, ?_⟩
                   rcases work_step hok tk.live hd (queue_fit hi tk.live) (by rw [hi.junk]; exact hi.small) with ⟨fl2, tkn, hg⟩ | ⟨-, he⟩
                   · have := (work_ctl hok hd (queue_fit hi tk.live) (head_not tk.eof) hg).less hq
                     simp only [Net.step, hd, if_true, Net.mu]
                     omega
                   · exact absurd he tk.eof)
                | (exfalso
                   simp only [hd, hsg] at hdrv
                   have hw : s.srv.st = .waitReqBack := by simpa using hdrv
                   have hs := tk.wr (Or.inr hw)
                   have hb := tk.bal (hp hs) (Or.inl hs)
                   have hx : s.srv.extra = false := by
                     rcases Bool.eq_false_or_eq_true s.srv.extra with he | he
                     · have := tk.ext he
                       simp [OState.Sends, hw] at this
                     · exact he
                   simp [Net.credit, hu, hw, hx, Cli.busy, hcst] at hb)

theorem stream_const {P : Par} {s : Net} {all : List Item} (h : Quiet P s all) (op : Op) (hc : Calm op) :
    (s.step op).cli.stream = s.cli.stream := by
  obtain ⟨hi, fl, y, lk, tk⟩ := h
  cases op with
  | readSize =>
    simp only [Net.step]
    split
    · rename_i hd
      exact (readSize_moves tk.alive lk.cli hd).1.kind
    · rfl
  | recv =>
    simp only [Net.step]
    split
    · rename_i n hw
      split
      · rename_i hn
        exact (recv_moves hi.small lk.fits tk.alive lk.cli hw hn).1.kind
      · rfl
    · rfl
  | readStart mem =>
    simp only [Net.step]
    split
    · rename_i n hd
      exact (readStart_moves lk.fits tk.alive lk.cli hd hc).1.kind
    · rfl
  | readComplete =>
    simp only [Net.step]
    split
    · rename_i hd
      obtain ⟨p, fl', -, -, -, c, -⟩ := readComplete_moves lk.fits tk.alive lk.cli hd
      exact c
    · rfl
  | srvFail | cliFail | cliEnd | cliCleanup => exact absurd hc (by simp [Calm])
  | post | work | timer | signal | push | sent | req =>
    simp only [Net.step]
    repeat' split
    all_goals rfl

theorem stream_run {P : Par} (ops : List Op) {s : Net} {all : List Item} (h : Quiet P s all)
    (hf : ∀ i ∈ posted ops, Fit P.iter i) (hc : ∀ op ∈ ops, Calm op) : (s.run ops).cli.stream = s.cli.stream := by
  induction ops generalizing s all with
  | nil => rfl
  | cons op ops ih =>
    have hp : posted (op :: ops) = posted [op] ++ posted ops := posted_append [op] ops
    have h1 := quiet_step h op (fun i hi => hf i (by rw [hp]; exact List.mem_append_left _ hi)) (hc op (List.mem_cons_self ..))
    exact (ih h1 (fun i hi => hf i (by rw [hp]; exact List.mem_append_right _ hi)) (fun o ho => hc o (List.mem_cons_of_mem _ ho))).trans
      (stream_const h op (hc op (List.mem_cons_self ..)))

/-! ## Server alone -/

structure SAlone (P : Par) (total : Nat) (s : Net) (all : List Item) : Prop where
  stream : s.srv.stream = true
  iter : s.srv.iter = P.iter
  sub : s.srv.sub = P.sub
  junk : s.srv.junk < 4294967296
  fit : ∀ i ∈ all, Fit P.iter i
  le : s.up.length ≤ total
  live : s.srv.Live → SrvOk s.srv ∧ (s.srv.extra = true → s.srv.st.Sends) ∧
    ∃ taken, all = taken ++ s.srv.queue ∧ Item.eof ∉ taken ∧ s.srv.cnt + s.srv.left.length = evCount P.iter taken ∧
      (payloads P.iter P.sub 0 taken).length + s.credit ≤ total

theorem alone_dead {P : Par} {total : Nat} {s t : Net} {all : List Item} (h : SAlone P total s all) (hs : Same s.srv t.srv)
    (hu : t.up.length ≤ s.up.length) (hl : ¬ t.srv.Live) : SAlone P total t all := by
  obtain ⟨h1, h2, h3, h4, h5, h6, h7⟩ := h
  exact ⟨by rw [hs.stream, h1], by rw [hs.iter, h2], by rw [hs.sub, h3], by rw [hs.junk]; exact h4, h5, by omega, fun h => absurd h hl⟩

theorem alone_goes {P : Par} {total : Nat} {s t : Net} {all : List Item} (h : SAlone P total s all) (hl : s.srv.Live)
    {fl : List Data} {tk : List Item} (hg : Goes s.srv t.srv fl tk) (hu : t.up.length ≤ s.up.length)
    (hx : t.srv.extra = true → t.srv.st.Sends) (hb : t.credit + fl.length ≤ s.credit) : SAlone P total t all := by
  obtain ⟨h1, h2, h3, h4, h5, h6, h7⟩ := h
  obtain ⟨-, -, taken, e1, e2, e3, e4⟩ := h7 hl
  refine ⟨by rw [hg.same.stream, h1], by rw [hg.same.iter, h2], by rw [hg.same.sub, h3], by rw [hg.same.junk]; exact h4, h5, by omega,
    fun _ => ⟨hg.ok, hx, taken ++ tk, by rw [e1, hg.queue, List.append_assoc], ?_, ?_, ?_⟩⟩
  · rw [List.mem_append]; exact fun h => h.elim e2 hg.eof
  · rw [hg.cnt, e3, h2, evCount_append]
  · rw [payloads_append _ _ _ _ _ e2, Nat.zero_add, ← e3, ← h2, ← h3, hg.pay, List.length_append, h2, h3]
    omega

theorem alone_step {P : Par} {total : Nat} {s : Net} {all : List Item} (h : SAlone P total s all) (op : Op) (ho : ServerOp op)
    (hf : ∀ i ∈ posted [op], Fit P.iter i) : SAlone P total (s.step op) (all ++ posted [op]) := by
  cases op with
  | post i =>
    obtain ⟨h1, h2, h3, h4, h5, h6, h7⟩ := h
    refine ⟨h1, h2, h3, h4, ?_, h6, ?_⟩
    · intro j hj
      rcases List.mem_append.1 hj with hj | hj
      · exact h5 j hj
      · exact hf j hj
    · intro hl
      obtain ⟨⟨k0, kb, k1, k2⟩, hx, taken, e1, e2, e3, e4⟩ := h7 hl
      exact ⟨⟨k0, kb, k1, k2⟩, hx, taken, by simp [Net.step, posted, e1], e2, e3, e4⟩
  | work =>
    simp only [posted, List.append_nil, Net.step]
    split
    · rename_i hd
      by_cases hl : s.srv.Live
      · obtain ⟨hok, hext, taken, e1, -⟩ := h.live hl
        have hq : ∀ i ∈ s.srv.queue, Fit s.srv.iter i := by
          intro i hi
          rw [h.iter]
          exact h.fit i (by rw [e1]; exact List.mem_append_right _ hi)
        have hex : s.srv.extra = false := by
          rcases Bool.eq_false_or_eq_true s.srv.extra with he | he
          · have := hext he
            have h2 := hok.drv
            simp only [hd] at h2
            rcases this with e | e | e <;> simp [e] at h2
          · exact he
        rcases work_step hok hl hd hq h.junk with ⟨fl2, tkn, hg⟩ | ⟨hg, -⟩
        · have hhd : s.srv.queue.head? ≠ some .eof := by
            intro hhd
            obtain ⟨l, hq'⟩ : ∃ l, s.srv.queue = .eof :: l := by
              cases hq' : s.srv.queue with
              | nil => rw [hq'] at hhd; cases hhd
              | cons a l => rw [hq'] at hhd; exact ⟨l, by simpa using hhd⟩
            have := hg.live.1
            simp [Srv.work, hq', Srv.shut] at this
          obtain ⟨c1, c2, -⟩ := work_ctl hok hd hq hhd hg
          refine alone_goes (t := { s with srv := s.srv.work }) h hl hg (Nat.le_refl _) ?_ ?_
          · intro he; dsimp only at he; rw [c1, hex] at he; cases he
          · unfold Net.credit
            dsimp only
            rw [c1, hex]
            rcases c2 with ⟨c2, c3 | ⟨c3, c4⟩⟩ | ⟨c2, c3, c4⟩
            · simp [c2, c3]
            · simp [c2, c3, c4]
            · rcases c4 with c4 | c4 | c4 <;> simp [c2, c3, c4]
        · exact alone_dead h hg.same (Nat.le_refl _) hg.dead
      · obtain ⟨a, b, c⟩ := work_dead hl (by rw [hd]; simp)
        exact alone_dead h a (Nat.le_refl _) c
    · exact h
  | timer =>
    simp only [posted, List.append_nil, Net.step]
    split
    · rename_i hd
      by_cases hl : s.srv.Live
      · obtain ⟨⟨k0, kb, k1, k2⟩, hext, -⟩ := h.live hl
        simp only [hd] at k2
        exact alone_goes (t := { s with srv := { s.srv with drv := .ready } }) h hl (fl := []) (tk := [])
          (goes_quiet ⟨k0, kb, k1, k2⟩ ⟨by simp, hl.2⟩ ⟨rfl, rfl, rfl, rfl⟩ rfl rfl rfl) (Nat.le_refl _) hext (Nat.le_refl _)
      · refine alone_dead h ⟨rfl, rfl, rfl, rfl⟩ (Nat.le_refl _) ?_
        rintro ⟨-, a, b⟩
        exact hl ⟨by rw [hd]; simp, a, b⟩
    · exact h
  | signal =>
    simp only [posted, List.append_nil, Net.step]
    split
    · exact h
    · rename_i hd
      by_cases hl : s.srv.Live
      · obtain ⟨hok, hext, -⟩ := h.live hl
        have he : s.srv.signal.st = s.srv.st ∧ s.srv.signal.extra = s.srv.extra := by
          unfold Srv.signal; split <;> simp [Srv.shut]
        refine alone_goes (t := { s with srv := s.srv.signal }) h hl (signal_step hok hl) (Nat.le_refl _) ?_ ?_
        · dsimp only; rw [he.1, he.2]; exact hext
        · unfold Net.credit; dsimp only; rw [he.1, he.2]; exact Nat.le_refl _
      · obtain ⟨a, b, c⟩ := signal_dead hl hd
        exact alone_dead h a (Nat.le_refl _) c
  | push n =>
    simp only [posted, List.append_nil, Net.step]
    cases hp : s.srv.pend with
    | none => exact h
    | some l =>
      obtain ⟨h1, h2, h3, h4, h5, h6, h7⟩ := h
      refine ⟨h1, h2, h3, h4, h5, h6, fun hl => ?_⟩
      obtain ⟨hok, g⟩ := h7 hl
      exact ⟨srvOk_push n hok hp, g⟩
  | sent =>
    simp only [posted, List.append_nil, Net.step]
    split
    · rename_i hp
      by_cases hl : s.srv.Live
      · obtain ⟨hok, hext, -⟩ := h.live hl
        have hsh := hok.shape
        have hstr := h.stream
        refine alone_goes (t := { s with srv := ({ s.srv with pend := none } : Srv).sent }) h hl (goes_sent hok hl hp.1) (Nat.le_refl _) ?_ ?_
        all_goals
          dsimp only [Net.credit]
          unfold Srv.sent
          dsimp only
          cases hst : s.srv.st with
          | init => simp_all [OState.Sends]
          | initReq => simp_all [OState.Sends]
          | sendEvents =>
            cases hle : s.srv.left with
            | nil => simp_all
            | cons e rest => by_cases hr : rest = [] <;> simp_all [OState.Sends]
          | sendLast | sendBuffer =>
            rcases Bool.eq_false_or_eq_true s.srv.extra with hx | hx <;> simp_all
          | waitReq | waitReqBack | waitBuffer => simp [hst, hp.1] at hsh
          | closing => exact absurd hst hl.2.1
          | error => exact absurd hst hl.2.2
      · have : ({ s.srv with pend := none } : Srv).sent = { s.srv with pend := none } :=
          sent_dead (s := { s.srv with pend := none }) hl hp.2
        rw [this]
        exact alone_dead h ⟨rfl, rfl, rfl, rfl⟩ (Nat.le_refl _) hl
    · exact h
  | req =>
    simp only [posted, List.append_nil, Net.step]
    split
    · exact h
    · rename_i hd
      split
      · exact h
      · rename_i r rest hu
        by_cases hl : s.srv.Live
        · obtain ⟨hok, hext, -⟩ := h.live hl
          rcases req_step hok hl r with ⟨hg, hr, hst⟩ | ⟨hg, -⟩
          · subst hr
            refine alone_goes (t := { s with up := rest, srv := s.srv.req .getevt }) h hl hg (by simp [hu]) ?_ ?_
            · dsimp only
              cases h : s.srv.st <;> simp_all [Srv.req, OState.Sends]
            · simp only [Net.credit, hu, List.length_cons, List.length_nil]
              have l2 := hl.2.1
              have l3 := hl.2.2
              cases h : s.srv.st <;> simp_all [Srv.req] <;> (repeat' split) <;> omega
          · exact alone_dead h hg.same (by simp [hu]) hg.dead
        · obtain ⟨a, b, c⟩ := req_dead r hl hd
          exact alone_dead h a (by simp [hu]) c
  | srvFail err =>
    simp only [posted, List.append_nil, Net.step]
    split
    · exact h
    · obtain ⟨a, b, c⟩ := fail_same { s.srv with pend := none } err
      exact alone_dead h (same_trans (b := { s.srv with pend := none }) ⟨rfl, rfl, rfl, rfl⟩ a) (Nat.le_refl _) c
  | readSize | recv | readStart | readComplete | cliFail | cliEnd | cliCleanup => exact absurd ho (by simp [ServerOp])

theorem alone_run {P : Par} {total : Nat} {s : Net} {all : List Item} (h : SAlone P total s all) (ops : List Op)
    (ho : ∀ op ∈ ops, ServerOp op) (hf : ∀ i ∈ posted ops, Fit P.iter i) : SAlone P total (s.run ops) (all ++ posted ops) := by
  induction ops generalizing s all with
  | nil => simpa [posted, Net.run] using h
  | cons op ops ih =>
    have hp : posted (op :: ops) = posted [op] ++ posted ops := posted_append [op] ops
    rw [hp, ← List.append_assoc]
    exact ih (alone_step h op (ho op (List.mem_cons_self ..)) (fun i hi => hf i (by rw [hp]; exact List.mem_append_left _ hi)))
      (fun o h => ho o (List.mem_cons_of_mem _ h)) fun i hi => hf i (by rw [hp]; exact List.mem_append_right _ hi)

/-! ## Delivery -/

theorem deliver {P : Par} (n : Nat) : ∀ {s : Net} {all : List Item}, s.mu ≤ n → Quiet P s all →
    (P.stream = true → s.cli.stream = true) →
    ∃ ops, (∀ op ∈ ops, Inner op) ∧ (s.run ops).cli.out = payloads P.iter P.sub 0 all ∧ (s.run ops).srv.queue = [] := by
  induction n with
  | zero =>
    intro s all hm h hs
    by_cases hn : ∃ fl y, Link P s all fl y ∧ Tok P s fl ∧ (s.srv.queue ≠ [] ∨ fl ≠ [])
    · obtain ⟨fl, y, lk, tk, hn⟩ := hn
      obtain ⟨op, -, h2⟩ := progress h.inv lk tk hs hn
      omega
    · obtain ⟨hi, fl, y, lk, tk⟩ := h
      refine ⟨[], by simp, ?_⟩
      have hq : s.srv.queue = [] := Classical.byContradiction fun h => hn ⟨fl, y, lk, tk, Or.inl h⟩
      have hf : fl = [] := Classical.byContradiction fun h => hn ⟨fl, y, lk, tk, Or.inr h⟩
      obtain ⟨-, -, taken, e1, -, -, e2⟩ := lk.live tk.live
      rw [hq, List.append_nil] at e1
      rw [e1, e2, hf, List.append_nil]
      exact ⟨rfl, hq⟩
  | succ n ih =>
    intro s all hm h hs
    by_cases hn : ∃ fl y, Link P s all fl y ∧ Tok P s fl ∧ (s.srv.queue ≠ [] ∨ fl ≠ [])
    · obtain ⟨fl, y, lk, tk, hn⟩ := hn
      obtain ⟨op, h1, h2⟩ := progress h.inv lk tk hs hn
      have hp := Net.posted_nil h1
      have := quiet_step h op (by rw [hp]; simp) (inner_calm h1)
      rw [hp, List.append_nil] at this
      obtain ⟨ops, a, b⟩ := ih (by omega) this (by rw [stream_const h op (inner_calm h1)]; exact hs)
      refine ⟨op :: ops, ?_, b⟩
      intro o ho
      rcases List.mem_cons.1 ho with rfl | ho
      · exact h1
      · exact a o ho
    · obtain ⟨hi, fl, y, lk, tk⟩ := h
      refine ⟨[], by simp, ?_⟩
      have hq : s.srv.queue = [] := Classical.byContradiction fun h => hn ⟨fl, y, lk, tk, Or.inl h⟩
      have hf : fl = [] := Classical.byContradiction fun h => hn ⟨fl, y, lk, tk, Or.inr h⟩
      obtain ⟨-, -, taken, e1, -, -, e2⟩ := lk.live tk.live
      rw [hq, List.append_nil] at e1
      rw [e1, e2, hf, List.append_nil]
      exact ⟨rfl, hq⟩

end Verif.MbsNet
