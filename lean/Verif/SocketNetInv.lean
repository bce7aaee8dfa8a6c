import Verif.SocketNetLemmas

namespace Verif.SocketNet
open Verif.Bytes

/-- A receive buffer for messages of size up to `N`. -/
def BufOk (N : Nat) (b : List Nat) : Prop := b ≠ [] ∧ (∀ n ∈ b, 0 < n) ∧ N ≤ b.sum

/-- State of the receiver, which got the bytes `cons`: messages `a` are delivered, messages `rest` not yet. -/
structure RInv (N : Nat) (s : Rcv) (cons : List Byte) (a rest : List (Msg × List Byte)) : Prop where
  open_ : s.closed = false
  q : ∀ b ∈ s.queue, BufOk N b
  cur : s.status ≠ 0 → BufOk N s.cur
  done : s.done = a.map (fun p => payload p.1)
  st : (s.status = 0 ∧ s.iov = [] ∧ s.queue = [] ∧ cons = encodes a) ∨
       (s.status = 1 ∧ s.acc.length < 48 ∧ s.iov = [48 - s.acc.length] ∧ cons = encodes a ++ s.acc) ∨
       (s.status = 2 ∧ ∃ typ segs j r, rest = (.buf typ segs, j) :: r ∧ s.hdr = hd (.buf typ segs, j) ∧
          cons = encodes a ++ (hd (.buf typ segs, j) ++ s.acc) ∧ s.iov.sum + s.acc.length = segs.flatten.length ∧
          0 < s.iov.sum ∧ ∀ x ∈ s.iov, 0 < x)

def nact (s : Rcv) : Nat := s.queue.length + (if s.status = 0 then 0 else 1)

theorem RInv.more {N : Nat} {s : Rcv} {c : List Byte} {a rest : List (Msg × List Byte)} (h : RInv N s c a rest)
    (p : Msg × List Byte) : RInv N s c a (rest ++ [p]) := by
  refine ⟨h.open_, h.q, h.cur, h.done, ?_⟩
  rcases h.st with h1 | h1 | ⟨h1, typ, segs, j, r, h2, h3⟩
  · exact .inl h1
  · exact .inr (.inl h1)
  · exact .inr (.inr ⟨h1, typ, segs, j, r ++ [p], by rw [h2]; rfl, h3⟩)

theorem recvNext_spec {N : Nat} {s : Rcv} {a rest : List (Msg × List Byte)} (ho : s.closed = false)
    (hq : ∀ b ∈ s.queue, BufOk N b) (hd : s.done = a.map (fun p => payload p.1)) :
    RInv N (recvNext s) (encodes a) a rest ∧ nact (recvNext s) = s.queue.length := by
  unfold recvNext
  cases h : s.queue with
  | nil => exact ⟨⟨ho, by simp, by simp, hd, .inl ⟨rfl, rfl, rfl, rfl⟩⟩, rfl⟩
  | cons b q =>
    refine ⟨⟨ho, ?_, ?_, hd, .inr (.inl ⟨rfl, by simp, by simp, by simp⟩)⟩, ?_⟩
    · intro x hx; exact hq x (by rw [h]; exact List.mem_cons_of_mem _ hx)
    · intro _; exact hq b (by rw [h]; exact List.mem_cons_self)
    · simp [nact]

theorem post_spec {N : Nat} {s : Rcv} {c : List Byte} {a rest : List (Msg × List Byte)} (h : RInv N s c a rest)
    {b : List Nat} (hb : BufOk N b) : RInv N (post s b) c a rest ∧ nact (post s b) = nact s + 1 := by
  have hq : ∀ x ∈ s.queue ++ [b], BufOk N x := by
    intro x hx
    rcases List.mem_append.1 hx with hx | hx
    · exact h.q x hx
    · rw [List.mem_singleton] at hx; rw [hx]; exact hb
  unfold post
  dsimp only
  by_cases h0 : s.status = 0
  · rw [if_pos h0]
    rcases h.st with ⟨_, _, h3, h4⟩ | h1 | h1
    · have := recvNext_spec (N := N) (s := { s with queue := s.queue ++ [b] }) (a := a) (rest := rest) h.open_ hq h.done
      rw [h4]
      refine ⟨this.1, ?_⟩
      rw [this.2]
      simp [nact, h3, h0]
    · omega
    · omega
  · rw [if_neg h0]
    refine ⟨⟨h.open_, hq, h.cur, h.done, ?_⟩, ?_⟩
    · rcases h.st with h1 | h1 | h1
      · exact absurd h1.1 h0
      · exact .inr (.inl h1)
      · exact .inr (.inr h1)
    · simp [nact]; omega

theorem processRecv_queue (s : Rcv) (h d : List Byte) : (processRecv s h d).queue = s.queue := by
  unfold processRecv
  split
  · rfl
  · split <;> rfl

/-- Header complete. -/
theorem header_done {N : Nat} {s : Rcv} {a rest : List (Msg × List Byte)} {fut : List Byte}
    (ho : s.closed = false) (hq : ∀ b ∈ s.queue, BufOk N b) (hcur : BufOk N s.cur)
    (hdone : s.done = a.map (fun p => payload p.1)) (hst : s.status = 1) (hacc : s.acc.length = 48)
    (hok : ∀ p ∈ rest, Ok p ∧ need p.1 ≤ N) (hfut : s.acc ++ fut = encodes rest) :
    ∃ a' rest', a' ++ rest' = a ++ rest ∧ RInv N (recvCompleted s) (encodes a ++ s.acc) a' rest' ∧
      a'.length + nact (recvCompleted s) = a.length + s.queue.length + 1 := by
  cases rest with
  | nil =>
    have := congrArg List.length hfut
    simp [encodes, hacc] at this
  | cons p r =>
    have hp := (hok p List.mem_cons_self).1
    have hneed := (hok p List.mem_cons_self).2
    rw [encodes_cons, encode_eq hp, List.append_assoc] at hfut
    have hh : s.acc = hd p := (List.append_inj hfut (by rw [hacc, hd_length hp])).1
    obtain ⟨m, j⟩ := p
    unfold recvCompleted
    rw [if_neg (by omega), if_pos hst]
    dsimp only
    rw [hh]
    cases m with
    | null => exact (not_null hp).elim
    | ack n =>
      obtain ⟨h1, h2⟩ := hd_ack hp
      rw [if_pos h1]
      have hpr : processRecv { s with hdr := hd (.ack n, j) } (hd (.ack n, j)) [] =
          { s with hdr := hd (.ack n, j), done := s.done ++ [.ack n] } := by
        unfold processRecv
        rw [if_neg (by rw [hd_chk hp]; decide), if_pos h1, h2]
      rw [hh] at hpr
      rw [hpr]
      have := recvNext_spec (N := N) (s := { s with acc := hd (.ack n, j), hdr := hd (.ack n, j), done := s.done ++ [.ack n] })
        (a := a ++ [(.ack n, j)]) (rest := r) ho hq (by simp [hdone, payload])
      rw [encodes_append, encodes_cons, encode_eq hp] at this
      simp only [dat, encodes, List.map_nil, List.flatten_nil, List.append_nil] at this
      refine ⟨a ++ [(.ack n, j)], r, by simp, ?_, ?_⟩
      · rw [← hh] at this ⊢
        exact this.1
      · rw [← hh] at this ⊢
        rw [this.2]
        simp
        omega
    | buf typ segs =>
      obtain ⟨h1, h2, h3⟩ := hd_buf hp
      have hl := hp.large
      simp only [Large] at hl
      simp only [need] at hneed
      rw [if_neg (by rw [h1]; decide), if_neg (by rw [h2]; have := hcur.2.2; omega), if_neg hcur.1, h2]
      have hc := clip_spec (n := segs.flatten.length) hcur.2.1 (by have := hcur.2.2; omega)
      refine ⟨a, (.buf typ segs, j) :: r, rfl, ⟨ho, hq, fun _ => hcur, hdone, .inr (.inr ?_)⟩, ?_⟩
      · refine ⟨rfl, typ, segs, j, r, rfl, rfl, by simp, ?_, ?_, hc.2⟩
        · show (clip s.cur segs.flatten.length).sum + 0 = _
          rw [hc.1]; rfl
        · show 0 < (clip s.cur segs.flatten.length).sum
          rw [hc.1]; omega
      · simp [nact]
        omega

/-- Data complete. -/
theorem data_done {N : Nat} {s : Rcv} {a r : List (Msg × List Byte)} {fut : List Byte} {typ : Nat}
    {segs : List (List Byte)} {j : List Byte}
    (ho : s.closed = false) (hq : ∀ b ∈ s.queue, BufOk N b)
    (hdone : s.done = a.map (fun p => payload p.1)) (hst : s.status = 2)
    (hp : Ok (.buf typ segs, j)) (hhdr : s.hdr = hd (.buf typ segs, j))
    (hacc : s.acc.length = segs.flatten.length)
    (hfut : (hd (.buf typ segs, j) ++ s.acc) ++ fut = encodes ((.buf typ segs, j) :: r)) :
    RInv N (recvCompleted s) (encodes a ++ (hd (.buf typ segs, j) ++ s.acc)) (a ++ [(.buf typ segs, j)]) r ∧
      nact (recvCompleted s) = s.queue.length := by
  rw [encodes_cons, encode_eq hp, List.append_assoc, List.append_assoc] at hfut
  have h1 : s.acc ++ fut = dat (.buf typ segs) ++ encodes r := List.append_cancel_left hfut
  have hd' : s.acc = segs.flatten := (List.append_inj h1 (by rw [hacc]; rfl)).1
  obtain ⟨e1, e2, e3⟩ := hd_buf hp
  have hl := hp.large
  simp only [Large] at hl
  unfold recvCompleted
  rw [if_pos hst]
  have hpr : processRecv s s.hdr s.acc = { s with done := s.done ++ [.buf typ segs.flatten] } := by
    unfold processRecv
    rw [hhdr, if_neg (by rw [hd_chk hp]; decide), if_neg (by rw [e1]; decide), e2, e3]
    dsimp only
    rw [if_neg (by simp only [Bool.and_eq_true, decide_eq_true_eq]; omega), hd']
  rw [hpr]
  have := recvNext_spec (N := N) (s := { s with done := s.done ++ [.buf typ segs.flatten] })
    (a := a ++ [(.buf typ segs, j)]) (rest := r) ho hq (by simp [hdone, payload])
  have he : encodes (a ++ [(.buf typ segs, j)]) = encodes a ++ (hd (.buf typ segs, j) ++ s.acc) := by
    rw [encodes_append, encodes_cons, encode_eq hp, hd']
    simp [dat, encodes]
  rw [he] at this
  exact this

theorem read_spec {N : Nat} {s : Rcv} {c net fut : List Byte} {a rest : List (Msg × List Byte)} (h : RInv N s c a rest)
    (hok : ∀ p ∈ rest, Ok p ∧ need p.1 ≤ N) (hall : c ++ (net ++ fut) = encodes (a ++ rest)) (msg : Bool) (r : Nat) :
    ∃ c' a' rest', a' ++ rest' = a ++ rest ∧ RInv N (read msg s net r).1 c' a' rest' ∧
      c' ++ (read msg s net r).2 = c ++ net ∧ a'.length + nact (read msg s net r).1 = a.length + nact s ∧
      (s.iov ≠ [] → net ≠ [] → (read msg s net r).2.length < net.length) := by
  unfold read
  cases hi : s.iov with
  | nil => exact ⟨c, a, rest, rfl, h, rfl, rfl, by simp⟩
  | cons seg l =>
    dsimp only
    have hpos : ∀ x ∈ seg :: l, 0 < x := by
      rcases h.st with ⟨_, h2, _⟩ | ⟨_, h2, h3, _⟩ | ⟨_, _, _, _, _, _, _, _, _, _, h8⟩
      · rw [h2] at hi; cases hi
      · rw [← hi, h3]; intro x hx; rw [List.mem_singleton] at hx; omega
      · rw [← hi]; exact h8
    have hs0 : 0 < seg := hpos seg List.mem_cons_self
    have hroom : 0 < (if msg = true then (seg :: l).sum else seg) ∧
        (if msg = true then (seg :: l).sum else seg) ≤ (seg :: l).sum := by
      have : (seg :: l).sum = seg + l.sum := by simp
      split <;> omega
    generalize (if msg = true then (seg :: l).sum else seg) = room at hroom ⊢
    have hn : min (max 1 r) (min room net.length) ≤ (seg :: l).sum ∧
        min (max 1 r) (min room net.length) ≤ net.length ∧
        (net ≠ [] → 0 < min (max 1 r) (min room net.length)) := by
      refine ⟨by omega, by omega, fun hne => ?_⟩
      have := List.length_pos_iff.2 hne
      omega
    generalize min (max 1 r) (min room net.length) = n at hn ⊢
    by_cases hz : n = 0
    · rw [if_pos hz]
      refine ⟨c, a, rest, rfl, h, rfl, rfl, fun _ hne => ?_⟩
      have := hn.2.2 hne
      omega
    · rw [if_neg hz]
      have hadv := advanceLen_spec hpos hn.1
      generalize hrest : advanceLen n (seg :: l) = rem at hadv ⊢
      have hcn : c ++ net.take n ++ net.drop n = c ++ net := by
        rw [List.append_assoc, List.take_append_drop]
      have htl : (net.take n).length = n := by rw [List.length_take]; omega
      have hlen : seg :: l ≠ [] → net ≠ [] → (net.drop n).length < net.length := by
        intro _ hne
        have := List.length_pos_iff.2 hne
        rw [List.length_drop]; omega
      have hsplit : net.take n ++ (net.drop n ++ fut) = net ++ fut := by
        rw [← List.append_assoc, List.take_append_drop]
      rw [encodes_append] at hall
      dsimp only
      rcases h.st with ⟨_, h2, _⟩ | ⟨h1, h2, h3, h4⟩ | ⟨h1, typ, segs, j, r', h2, h3, h4, h5, h6, h8⟩
      · rw [h2] at hi; cases hi
      · -- header
        have hsl : (seg :: l).sum = 48 - s.acc.length := by rw [← hi, h3]; simp
        have hkey : s.acc ++ net.take n ++ (net.drop n ++ fut) = encodes rest := by
          rw [List.append_assoc, hsplit]
          rw [h4, List.append_assoc] at hall
          exact List.append_cancel_left hall
        by_cases hr : rem = []
        · rw [if_pos hr]
          have hac : (s.acc ++ net.take n).length = 48 := by
            rw [List.length_append, htl]
            have := hadv.1
            rw [hr] at this
            simp only [List.sum_nil] at this
            omega
          obtain ⟨a', rest', e1, e2, e3⟩ := header_done (N := N)
            (s := { s with iov := rem, acc := s.acc ++ net.take n }) (a := a) (rest := rest) h.open_ h.q
            (h.cur (by omega)) h.done h1 hac hok hkey
          refine ⟨_, a', rest', e1, e2, ?_, ?_, hlen⟩
          · dsimp only
            rw [← hcn, h4]; simp
          · rw [e3]
            simp [nact, h1]
            omega
        · rw [if_neg hr]
          have hrem : rem = [48 - (s.acc.length + n)] ∧ s.acc.length + n < 48 := by
            have h9 : seg :: l = [48 - s.acc.length] := by rw [← hi, h3]
            rw [h9] at hrest
            have hs' := hadv.1
            cases n with
            | zero => omega
            | succ n =>
              rw [advanceLen] at hrest
              · split at hrest
                · have : rem = [] := by rw [← hrest]; cases (n + 1 - (48 - s.acc.length)) <;> rfl
                  exact absurd this hr
                · rw [← hrest]
                  refine ⟨by congr 1; omega, by omega⟩
              · omega
          refine ⟨c ++ net.take n, a, rest, rfl, ⟨h.open_, h.q, fun _ => h.cur (by omega), h.done, .inr (.inl ?_)⟩,
            hcn, rfl, hlen⟩
          refine ⟨h1, ?_, ?_, ?_⟩
          · show (s.acc ++ net.take n).length < 48
            rw [List.length_append, htl]; exact hrem.2
          · show rem = [48 - (s.acc ++ net.take n).length]
            rw [List.length_append, htl]; exact hrem.1
          · show _ = encodes a ++ (s.acc ++ net.take n)
            rw [h4, List.append_assoc]
      · -- data
        have hsl : (seg :: l).sum = s.iov.sum := by rw [hi]
        by_cases hr : rem = []
        · rw [if_pos hr]
          have hp : Ok (.buf typ segs, j) := (hok _ (by rw [h2]; exact List.mem_cons_self)).1
          have hac : (s.acc ++ net.take n).length = segs.flatten.length := by
            rw [List.length_append, htl]
            have := hadv.1
            rw [hr] at this
            simp only [List.sum_nil] at this
            omega
          have hkey : (hd (.buf typ segs, j) ++ (s.acc ++ net.take n)) ++ (net.drop n ++ fut) =
              encodes ((.buf typ segs, j) :: r') := by
            rw [h4, List.append_assoc] at hall
            have := List.append_cancel_left hall
            rw [← h2, ← this, ← hsplit]
            simp only [List.append_assoc]
          have := data_done (N := N) (s := { s with iov := rem, acc := s.acc ++ net.take n }) (a := a) (r := r')
            h.open_ h.q h.done h1 hp h3 hac hkey
          refine ⟨_, _, _, ?_, this.1, ?_, ?_, hlen⟩
          · rw [h2]; simp
          · dsimp only
            rw [← hcn, h4]; simp
          · rw [this.2]
            simp [nact, h1]
            omega
        · rw [if_neg hr]
          refine ⟨c ++ net.take n, a, rest, rfl, ⟨h.open_, h.q, fun _ => h.cur (by omega), h.done, .inr (.inr ?_)⟩,
            hcn, rfl, hlen⟩
          refine ⟨h1, typ, segs, j, r', h2, h3, ?_, ?_, ?_, hadv.2⟩
          · show _ = encodes a ++ (hd (.buf typ segs, j) ++ (s.acc ++ net.take n))
            rw [h4]; simp
          · show rem.sum + (s.acc ++ net.take n).length = _
            rw [List.length_append, htl]
            have := hadv.1
            omega
          · show 0 < rem.sum
            rcases Nat.eq_zero_or_pos rem.sum with h0 | h0
            · exact absurd (sum_zero_nil hadv.2 h0) hr
            · exact h0

/-- Invariant of the connection. -/
structure Inv (N : Nat) (s : Sys) (c : List Byte) (a rest : List (Msg × List Byte)) : Prop where
  sub : s.sub = a ++ rest
  ok : ∀ p ∈ s.sub, Ok p ∧ need p.1 ≤ N
  snd : SInv s.snd
  rcv : RInv N s.rcv c a rest
  bytes : c ++ (s.net ++ unsent s.snd) = encodes s.sub
  count : s.posted.length = a.length + nact s.rcv

theorem step_inv {N : Nat} {s : Sys} {c : List Byte} {a rest : List (Msg × List Byte)} (h : Inv N s c a rest) (o : Op)
    (ho : OpsOk N [o]) : ∃ c' a' rest', Inv N (step s o) c' a' rest' := by
  have ho := ho o (List.mem_singleton.2 rfl)
  cases o with
  | submit m j =>
    obtain ⟨h1, h2, h3⟩ := ho
    have hp : Ok (m, j) := ⟨h1, h2⟩
    unfold step
    dsimp only
    rw [if_neg (by rw [h.snd.open_]; decide)]
    have := submit_spec h.snd hp
    refine ⟨c, a, rest ++ [(m, j)], ⟨by simp [h.sub], ?_, this.1, h.rcv.more _, ?_, h.count⟩⟩
    · intro p hm
      rcases List.mem_append.1 hm with hm | hm
      · exact h.ok p hm
      · rw [List.mem_singleton] at hm; rw [hm]; exact ⟨hp, h3⟩
    · dsimp only
      rw [this.2, encodes_append, ← h.bytes]
      simp [encodes]
  | post b =>
    unfold step
    dsimp only
    rw [if_neg (by rw [h.rcv.open_]; decide)]
    have := post_spec h.rcv (show BufOk N b from ho)
    exact ⟨c, a, rest, ⟨h.sub, h.ok, h.snd, this.1, h.bytes, by simp [this.2, h.count]; omega⟩⟩
  | write msg r =>
    unfold step
    dsimp only
    rw [if_neg (by rw [h.snd.open_]; decide)]
    have := write_spec h.snd msg r
    refine ⟨c, a, rest, ⟨h.sub, h.ok, this.1, h.rcv, ?_, h.count⟩⟩
    show c ++ ((s.net ++ (write msg s.snd r).2) ++ unsent (write msg s.snd r).1) = _
    rw [List.append_assoc, this.2.1]
    exact h.bytes
  | read msg r =>
    unfold step
    dsimp only
    rw [if_neg (by rw [h.rcv.open_]; decide)]
    obtain ⟨c', a', rest', e1, e2, e3, e4, _⟩ := read_spec h.rcv (fun p hp => h.ok p (by rw [h.sub]; simp [hp]))
      (fut := unsent s.snd) (net := s.net) (by rw [← h.sub]; exact h.bytes) msg r
    refine ⟨c', a', rest', ⟨by rw [e1]; exact h.sub, h.ok, h.snd, e2, ?_, ?_⟩⟩
    · show c' ++ ((read msg s.rcv s.net r).2 ++ unsent s.snd) = encodes s.sub
      rw [← List.append_assoc, e3, List.append_assoc]
      exact h.bytes
    · show s.posted.length = a'.length + nact (read msg s.rcv s.net r).1
      rw [e4]; exact h.count

theorem OpsOk.split {N : Nat} {o : Op} {l : List Op} (h : OpsOk N (o :: l)) : OpsOk N [o] ∧ OpsOk N l :=
  ⟨fun x hx => h x (by rw [List.mem_singleton] at hx; rw [hx]; exact List.mem_cons_self),
   fun x hx => h x (List.mem_cons_of_mem _ hx)⟩

theorem run_inv {N : Nat} {ops : List Op} {s : Sys} {c : List Byte} {a rest : List (Msg × List Byte)} (h : Inv N s c a rest)
    (ho : OpsOk N ops) : ∃ c' a' rest', Inv N (run ops s) c' a' rest' := by
  induction ops generalizing s c a rest with
  | nil => exact ⟨c, a, rest, h⟩
  | cons o l ih =>
    obtain ⟨_, _, _, h'⟩ := step_inv h o ho.split.1
    exact ih h' ho.split.2

theorem init_inv (N : Nat) : Inv N Sys.init [] [] [] := by
  refine ⟨rfl, by simp [Sys.init], ⟨rfl, by simp [Sys.init], by simp [Sys.init], by simp [Sys.init], by simp [Sys.init]⟩,
    ⟨rfl, by simp [Sys.init], by simp [Sys.init], rfl, .inl ⟨rfl, rfl, rfl, rfl⟩⟩, rfl, rfl⟩

end Verif.SocketNet
