import Verif.Spec.Udp
import Verif.HadRead

/-! # Lemmas about the UDP receiver -/

namespace Verif.Udp

open Verif.Bytes Verif.Pointer Verif.HadTu Verif.HadIter

/-- Invariant of the receiver: which buffers belong to whom. -/
structure Inv (c : Cfg) (st : St) : Prop where
  nodup : st.pool.Nodup
  fresh : ∀ b ∈ st.pool, b < st.fresh
  ready : st.ready ≤ st.pool.length
  assigned : st.assigned = st.tgt.isSome
  tgt : ∀ b off, st.tgt = some (b, off) → st.pool[st.ready]? = some b ∧ off ≤ (st.mem b).length
  scratch : st.scratch.length = c.mtu

theorem put_same (f : Nat → α) (k : Nat) (v : α) : put f k v k = v := if_pos rfl

theorem put_other (f : Nat → α) {k j : Nat} (v : α) (h : j ≠ k) : put f k v j = f j := if_neg h

/-- Contents of the waiting buffers. -/
def waiting (st : St) : List Byte := ((st.pool.take st.ready).map fun b => (st.mem b).take (st.total b)).flatten

/-- Content of the buffer being filled. -/
def filling (st : St) : List Byte := match st.tgt with | none => [] | some t => (st.mem t.1).take t.2

theorem output_eq (st : St) : output st = st.sent.flatten ++ waiting st ++ filling st := rfl

/-- The counters and the rest of the network queue are the same. -/
def Same (st st' : St) : Prop :=
  st'.net = st.net ∧ st'.recvPacket = st.recvPacket ∧ st'.recvBytes = st.recvBytes ∧ st'.discPacket = st.discPacket ∧
  st'.discBytes = st.discBytes ∧ st'.lostPacket = st.lostPacket ∧ st'.running = st.running

theorem Same.refl (st : St) : Same st st := ⟨rfl, rfl, rfl, rfl, rfl, rfl, rfl⟩

theorem Same.trans {a b d : St} (h : Same a b) (h' : Same b d) : Same a d := by
  obtain ⟨h1, h2, h3, h4, h5, h6, h7⟩ := h
  obtain ⟨g1, g2, g3, g4, g5, g6, g7⟩ := h'
  exact ⟨g1.trans h1, g2.trans h2, g3.trans h3, g4.trans h4, g5.trans h5, g6.trans h6, g7.trans h7⟩

theorem processSend_spec {c : Cfg} {st : St} (h : Inv c st) :
    Inv c (processSend st).1 ∧ output (processSend st).1 = output st ∧ Same st (processSend st).1 ∧ (processSend st).1.tgt = st.tgt ∧
    (processSend st).1.mem = st.mem := by
  unfold processSend
  by_cases hr : st.ready > 0
  · rw [if_pos hr]
    cases hp : st.pool with
    | nil =>
      have := h.ready
      rw [hp] at this
      simp only [List.length_nil] at this
      omega
    | cons b rest =>
      have hnd := h.nodup
      rw [hp] at hnd
      have hrd := h.ready
      rw [hp, List.length_cons] at hrd
      obtain ⟨k, hk⟩ : ∃ k, st.ready = k + 1 := ⟨st.ready - 1, by omega⟩
      refine ⟨⟨(List.nodup_cons.1 hnd).2, ?_, ?_, h.assigned, ?_, h.scratch⟩, ?_, Same.refl st, rfl, rfl⟩
      · intro x hx
        exact h.fresh x (by rw [hp]; exact List.mem_cons_of_mem _ hx)
      · show st.ready - 1 ≤ rest.length
        omega
      · intro b' off hb
        have := h.tgt b' off hb
        rw [hp, hk, List.getElem?_cons_succ] at this
        refine ⟨?_, this.2⟩
        show rest[st.ready - 1]? = some b'
        rw [hk, Nat.add_sub_cancel]
        exact this.1
      · rw [output_eq, output_eq]
        unfold waiting
        rw [hp, hk]
        show (st.sent ++ [(st.mem b).take (st.total b)]).flatten ++ ((rest.take (k + 1 - 1)).map _).flatten ++ filling st = _
        rw [Nat.add_sub_cancel, List.take_succ_cons, List.map_cons, List.flatten_cons, List.flatten_append, List.flatten_cons,
          List.flatten_nil, List.append_nil]
        simp only [List.append_assoc]
  · rw [if_neg hr]
    exact ⟨h, rfl, Same.refl st, rfl, rfl⟩

theorem sendLoop_spec {c : Cfg} : ∀ (n : Nat) {st : St}, Inv c st →
    Inv c (sendLoop n st) ∧ output (sendLoop n st) = output st ∧ Same st (sendLoop n st) ∧ (sendLoop n st).tgt = st.tgt ∧
    (sendLoop n st).mem = st.mem := by
  intro n
  induction n with
  | zero => intro st h; exact ⟨h, rfl, Same.refl st, rfl, rfl⟩
  | succ n ih =>
    intro st h
    unfold sendLoop
    by_cases hr : st.room = 0
    · rw [if_pos hr]
      exact ⟨h, rfl, Same.refl st, rfl, rfl⟩
    · rw [if_neg hr]
      dsimp only
      obtain ⟨h1, h2, h3, h4, h5⟩ := processSend_spec h
      split
      · obtain ⟨g1, g2, g3, g4, g5⟩ := ih h1
        exact ⟨g1, g2.trans h2, h3.trans g3, g4.trans h4, g5.trans h5⟩
      · exact ⟨h1, h2, h3, h4, h5⟩

theorem getElem?_take_succ {α : Type} {l : List α} {n : Nat} {a : α} (h : l[n]? = some a) : l.take (n + 1) = l.take n ++ [a] := by
  rw [List.take_succ, h]
  rfl

theorem getElem?_not_mem_take {l : List Nat} (hn : l.Nodup) {n : Nat} {a : Nat} (h : l[n]? = some a) : a ∉ l.take n := by
  intro hm
  obtain ⟨i, hi, he⟩ := List.getElem_of_mem hm
  rw [List.length_take] at hi
  rw [List.getElem_take] at he
  obtain ⟨hlt, he2⟩ := List.getElem?_eq_some_iff.1 h
  exact List.pairwise_iff_getElem.1 hn i n (by omega) hlt (by omega) (he.trans he2.symm)

/-- Closing the buffer and passing it on. -/
theorem close_spec {c : Cfg} {st : St} (h : Inv c st) {b off : Nat} (ht : st.tgt = some (b, off)) (hoff : off ≠ 0) (hraw : rawsize st (b, off) ≠ 0) :
    (closeBuffer st).2 = true ∧ Inv c (bufferReady (closeBuffer st).1) ∧ output (bufferReady (closeBuffer st).1) = output st ∧
    Same st (bufferReady (closeBuffer st).1) ∧ (bufferReady (closeBuffer st).1).tgt = none := by
  have hno : noTgt st = false := by
    unfold noTgt
    rw [ht]
    exact decide_eq_false hraw
  have e : closeBuffer st = ({ st with total := put st.total b off, tgt := none, sendCnt := st.sendCnt + 1, produced := st.produced + 1 }, true) := by
    unfold closeBuffer
    rw [ht]
    dsimp only
    rw [hno, if_neg (by decide), if_neg hoff]
  rw [e]
  dsimp only
  obtain ⟨hp, hle⟩ := h.tgt b off ht
  have hlt : st.ready < st.pool.length := (List.getElem?_eq_some_iff.1 hp).1
  unfold bufferReady
  dsimp only
  have hi : Inv c { st with total := put st.total b off, tgt := none, sendCnt := st.sendCnt + 1, produced := st.produced + 1, assigned := false, ready := st.ready + 1 } :=
    ⟨h.nodup, h.fresh, hlt, rfl, fun b off hb => (by cases hb), h.scratch⟩
  obtain ⟨g1, g2, g3, g4, g5⟩ := sendLoop_spec (st.room + 1) hi
  refine ⟨rfl, g1, g2.trans ?_, ⟨g3.1, g3.2⟩, g4⟩
  rw [output_eq, output_eq, List.append_assoc, List.append_assoc]
  congr 1
  show ((st.pool.take (st.ready + 1)).map fun x => (st.mem x).take (put st.total b off x)).flatten ++ [] = ((st.pool.take st.ready).map fun x => (st.mem x).take (st.total x)).flatten ++ filling st
  have hnm := getElem?_not_mem_take h.nodup hp
  rw [List.append_nil, getElem?_take_succ hp, List.map_append, List.flatten_append]
  have e1 : (st.pool.take st.ready).map (fun x => (st.mem x).take (put st.total b off x)) = (st.pool.take st.ready).map (fun x => (st.mem x).take (st.total x)) := by
    apply List.map_congr_left
    intro x hx
    rw [put_other]
    intro hxb
    exact hnm (hxb ▸ hx)
  rw [e1]
  congr 1
  show [(st.mem b).take (put st.total b off b)].flatten = filling st
  rw [put_same]
  unfold filling
  rw [ht]
  exact List.append_nil _

theorem closeBuffer_false {st : St} (h : (closeBuffer st).2 = false) : (closeBuffer st).1 = st := by
  unfold closeBuffer at h ⊢
  split
  · rfl
  · split
    · rfl
    · split
      · rfl
      · rename_i b off ht h1 h2
        rw [ht] at h
        dsimp only at h
        rw [if_neg h1, if_neg h2] at h
        cases h

theorem closeBuffer_true {st : St} (h : (closeBuffer st).2 = true) : ∃ b off, st.tgt = some (b, off) ∧ off ≠ 0 ∧ rawsize st (b, off) ≠ 0 := by
  unfold closeBuffer at h
  split at h
  · cases h
  · rename_i b off ht
    split at h
    · cases h
    · rename_i h1
      split at h
      · cases h
      · rename_i h2
        refine ⟨b, off, ht, h2, ?_⟩
        intro h3
        apply h1
        unfold noTgt
        rw [ht]
        exact decide_eq_true h3

theorem assignNew_spec {c : Cfg} {st : St} (h : Inv c st) :
    Inv c (assignNew c st).1 ∧ output (assignNew c st).1 = output st ∧ Same st (assignNew c st).1 ∧
    ((assignNew c st).2 = true → ∃ b, (assignNew c st).1.tgt = some (b, 0) ∧ c.mtu ≤ rawsize (assignNew c st).1 (b, 0)) := by
  unfold assignNew
  split
  · exact ⟨h, rfl, Same.refl st, fun h => (by cases h)⟩
  · rename_i h1
    simp only [Bool.or_eq_true, decide_eq_true_eq, not_or, Bool.not_eq_true, Nat.not_le] at h1
    have ha := h.assigned
    rw [h1.1] at ha
    have ht : st.tgt = none := by
      cases hx : st.tgt with
      | none => rfl
      | some t => rw [hx] at ha; cases ha
    split
    · exact ⟨h, rfl, Same.refl st, fun h => (by cases h)⟩
    · split
      · exact ⟨⟨h.nodup, h.fresh, h.ready, h.assigned, h.tgt, h.scratch⟩, rfl, Same.refl st, fun h => (by cases h)⟩
      · rename_i b hb
        have ho : output { st with tgt := some (b, 0), assigned := true } = output st := by
          rw [output_eq, output_eq]
          congr 1
          unfold filling
          rw [ht]
          rfl
        have hi : Inv c { st with tgt := some (b, 0), assigned := true } :=
          ⟨h.nodup, h.fresh, h.ready, rfl, fun b' off hb' => (by cases hb'; exact ⟨hb, Nat.zero_le _⟩), h.scratch⟩
        dsimp only
        split
        · exact ⟨⟨hi.nodup, hi.fresh, hi.ready, hi.assigned, hi.tgt, hi.scratch⟩, ho, Same.refl st, fun h => (by cases h)⟩
        · rename_i h3
          exact ⟨hi, ho, Same.refl st, fun _ => ⟨b, rfl, Nat.le_of_not_lt h3⟩⟩

theorem sizeAt_append {got rest : List Byte} (h : 8 ≤ got.length) : sizeAt (got ++ rest) 0 = sizeAt got 0 := by
  unfold sizeAt
  rw [List.getElem?_append_left (by omega), List.drop_zero, List.drop_zero, List.take_append_of_le_length (by omega)]

theorem toInt_eq {n k : Nat} (hn : n < 2 ^ 31) (hk : k < 2 ^ 32) : (n : Int) = (BitVec.ofNat 32 k).toInt ↔ n = k := by
  rw [BitVec.toInt_eq_toNat_cond, BitVec.toNat_ofNat, Nat.mod_eq_of_lt hk]
  split <;> omega

theorem padded_mod8 (n : Nat) : padded n % 8 = 0 := by
  unfold padded
  split <;> omega

theorem check_spec {got rest : List Byte} (hpos : got ≠ []) (hlen : got.length < 2 ^ 31) (h8 : 8 ≤ (got ++ rest).length) (hs : Sane got) :
    (Intact got ∧ check (got ++ rest) got.length = some (.good (up8 (sizeAt got 0)))) ∨
    (¬ Intact got ∧ (check (got ++ rest) got.length = some .badSize ∨ check (got ++ rest) got.length = some .badTrailer)) := by
  have hp : 0 < got.length := List.length_pos_iff.2 hpos
  unfold check
  rw [start_P, getPadded_P _ (by omega)]
  dsimp only
  by_cases hl : 8 ≤ got.length
  · have hs' := hs hl
    rw [sizeAt_append hl, up8_padded (by omega)]
    by_cases he : got.length = up8 (sizeAt got 0) + 32
    · rw [if_neg (fun hne => hne ((toInt_eq hlen hs').2 he)), if_pos (by rw [List.length_append]; omega)]
      have e1 : ((got ++ rest).drop (up8 (sizeAt got 0))).take 32 = got.drop (up8 (sizeAt got 0)) := by
        rw [List.drop_append_of_le_length (by omega), List.take_append_of_le_length (by rw [List.length_drop]; omega),
          List.take_of_length_le (by rw [List.length_drop]; omega)]
      have e2 : (got ++ rest).take 32 = got.take 32 := List.take_append_of_le_length (by omega)
      rw [e1, e2]
      by_cases h32 : got.drop (up8 (sizeAt got 0)) = got.take 32
      · rw [if_pos h32]
        exact Or.inl ⟨⟨he, h32⟩, rfl⟩
      · rw [if_neg h32]
        exact Or.inr ⟨fun hi => h32 hi.2, Or.inr rfl⟩
    · rw [if_pos (fun hc => he ((toInt_eq hlen hs').1 hc))]
      exact Or.inr ⟨fun hi => he hi.1, Or.inl rfl⟩
  · refine Or.inr ⟨fun hi => ?_, Or.inl ?_⟩
    · have := hi.1
      omega
    · rw [if_pos]
      intro hc
      have h0 := padded_mod8 (sizeAt (got ++ rest) 0)
      generalize padded (sizeAt (got ++ rest) 0) = p at hc h0
      rw [BitVec.toInt_eq_toNat_cond, BitVec.toNat_ofNat] at hc
      have : (p + 32) % 2 ^ 32 % 8 = 0 := by omega
      split at hc <;> omega

theorem receive_mtu {c : Cfg} {st : St} (h : Inv c st) {got : List Byte} (hg : got.length ≤ c.mtu) :
    ∃ rest, receive true st got = some ({ st with scratch := got ++ rest }, got ++ rest) ∧ (got ++ rest).length = c.mtu ∧
      Inv c { st with scratch := got ++ rest } := by
  have hs := h.scratch
  have hl : (got ++ st.scratch.drop got.length).length = c.mtu := by
    rw [List.length_append, List.length_drop]
    omega
  refine ⟨st.scratch.drop got.length, ?_, hl, ⟨h.nodup, h.fresh, h.ready, h.assigned, h.tgt, hl⟩⟩
  unfold receive
  rw [if_pos rfl, if_pos (by omega)]

theorem receive_buf {c : Cfg} {st : St} (h : Inv c st) {got : List Byte} (hg : got.length ≤ c.mtu) {b off : Nat} (ht : st.tgt = some (b, off))
    (hraw : c.mtu ≤ rawsize st (b, off)) :
    ∃ rest, receive false st got = some ({ st with mem := put st.mem b ((st.mem b).take off ++ (got ++ rest)) }, got ++ rest) ∧
      c.mtu ≤ (got ++ rest).length ∧ Inv c { st with mem := put st.mem b ((st.mem b).take off ++ (got ++ rest)) } ∧
      output { st with mem := put st.mem b ((st.mem b).take off ++ (got ++ rest)) } = output st := by
  obtain ⟨hp, hle⟩ := h.tgt b off ht
  have hraw' : c.mtu ≤ (st.mem b).length - off := hraw
  have e0 : (st.mem b).take off ++ got ++ (st.mem b).drop (off + got.length) = (st.mem b).take off ++ (got ++ (st.mem b).drop (off + got.length)) :=
    List.append_assoc _ _ _
  have htl : ((st.mem b).take off).length = off := by rw [List.length_take]; omega
  have hl : (got ++ (st.mem b).drop (off + got.length)).length = (st.mem b).length - off := by
    rw [List.length_append, List.length_drop]
    omega
  by_cases hz : off + got.length ≤ (st.mem b).length
  · refine ⟨(st.mem b).drop (off + got.length), ?_, ?_, ?_, ?_⟩
    · unfold receive
      rw [if_neg (by decide), ht]
      dsimp only
      rw [if_pos hz, e0]
      congr 2
      exact List.drop_left' htl
    · rw [hl]
      exact hraw'
    · refine ⟨h.nodup, h.fresh, h.ready, h.assigned, ?_, h.scratch⟩
      intro b' off' hb'
      rw [show ({ st with mem := put st.mem b ((st.mem b).take off ++ (got ++ (st.mem b).drop (off + got.length))) } : St).tgt = st.tgt from rfl, ht] at hb'
      cases hb'
      have hll : ((st.mem b).take off ++ (got ++ (st.mem b).drop (off + got.length))).length = (st.mem b).length := by
        rw [List.length_append, hl, htl]
        omega
      show st.pool[st.ready]? = some b ∧ off ≤ (put st.mem b _ b).length
      rw [put_same, hll]
      exact ⟨hp, hle⟩
    · have hnm := getElem?_not_mem_take h.nodup hp
      rw [output_eq, output_eq]
      congr 1
      · congr 1
        unfold waiting
        dsimp only
        congr 1
        apply List.map_congr_left
        intro x hx
        rw [put_other]
        intro hxb
        exact hnm (hxb ▸ hx)
      · unfold filling
        rw [show ({ st with mem := put st.mem b ((st.mem b).take off ++ (got ++ (st.mem b).drop (off + got.length))) } : St).tgt = st.tgt from rfl, ht]
        show (put st.mem b _ b).take off = (st.mem b).take off
        rw [put_same, List.take_left' htl]
  · omega

/-- Accepting a packet with `p` bytes. -/
theorem accept_spec {c : Cfg} (hc : c.Ok) {st : St} (h : Inv c st) {b off p res : Nat} (ht : st.tgt = some (b, off)) (hfit : off + p + 32 ≤ (st.mem b).length)
    (hraw : c.mtu ≤ rawsize st (b, off)) :
    Inv c (accept c st b off p res).1 ∧ output (accept c st b off p res).1 = output st ++ ((st.mem b).drop off).take p ∧
    (accept c st b off p res).1.net = st.net ∧ (accept c st b off p res).1.recvPacket = st.recvPacket + 1 ∧
    (accept c st b off p res).1.recvBytes = st.recvBytes + res ∧ (accept c st b off p res).1.discPacket = st.discPacket ∧
    (accept c st b off p res).1.discBytes = st.discBytes ∧ (accept c st b off p res).1.lostPacket = st.lostPacket ∧
    ((accept c st b off p res).2 = true → ∃ b' off', (accept c st b off p res).1.tgt = some (b', off') ∧ c.mtu ≤ rawsize (accept c st b off p res).1 (b', off')) := by
  obtain ⟨hp, hle⟩ := h.tgt b off ht
  have hraw' : c.mtu ≤ (st.mem b).length - off := hraw
  have ho : output { st with recvPacket := st.recvPacket + 1, recvBytes := st.recvBytes + res, tgt := some (b, off + p) } =
      output st ++ ((st.mem b).drop off).take p := by
    rw [output_eq, output_eq, List.append_assoc _ (filling st)]
    congr 1
    unfold filling
    rw [ht]
    exact List.take_add
  unfold accept
  dsimp only
  have hi : Inv c { st with recvPacket := st.recvPacket + 1, recvBytes := st.recvBytes + res, tgt := some (b, off + p) } := by
    refine ⟨h.nodup, h.fresh, h.ready, ?_, ?_, h.scratch⟩
    · show st.assigned = true
      rw [h.assigned, ht]
      rfl
    · intro b' off' hb'
      cases hb'
      exact ⟨hp, by show off + p ≤ (st.mem b).length; omega⟩
  by_cases hcl : (decide (rawsize { st with recvPacket := st.recvPacket + 1, recvBytes := st.recvBytes + res, tgt := some (b, off + p) } (b, off + p) < c.mtu) ||
      c.reduce (off + p) (st.mem b).length) = true
  · rw [if_pos hcl]
    have hnz : off + p ≠ 0 := by
      intro hz
      rw [hz, hc.reduce, Bool.or_false, decide_eq_true_eq] at hcl
      have : (st.mem b).length - 0 < c.mtu := hcl
      omega
    obtain ⟨_, g1, g2, g3, g4⟩ := close_spec hi (b := b) (off := off + p) rfl hnz (by show (st.mem b).length - (off + p) ≠ 0; omega)
    obtain ⟨k1, k2, k3, k4⟩ := assignNew_spec g1
    have hs := g3.trans k3
    refine ⟨k1, k2.trans (g2.trans ho), hs.1, hs.2.1, hs.2.2.1, hs.2.2.2.1, hs.2.2.2.2.1, hs.2.2.2.2.2.1, ?_⟩
    intro ht
    obtain ⟨b', hb1, hb2⟩ := k4 ht
    exact ⟨b', 0, hb1, hb2⟩
  · rw [if_neg hcl]
    refine ⟨hi, ho, rfl, rfl, rfl, rfl, rfl, rfl, fun _ => ⟨b, off + p, rfl, ?_⟩⟩
    simp only [Bool.or_eq_true, decide_eq_true_eq, not_or] at hcl
    exact Nat.le_of_not_lt hcl.1

theorem having_append (m : Mark) (A B : List (Mark × List Byte)) : having m (A ++ B) = having m A ++ having m B := by
  unfold having
  rw [List.filter_append, List.map_append]

theorem having_one (m m' : Mark) (d : List Byte) : having m [(m', d)] = if m' = m then [d] else [] := by
  unfold having
  by_cases h : m' = m
  · rw [if_pos h, List.filter_cons_of_pos (by exact decide_eq_true h)]
    rfl
  · rw [if_neg h, List.filter_cons_of_neg (by simpa using h)]
    rfl

theorem size_append (a b : List (List Byte)) : size (a ++ b) = size a + size b := by
  unfold size
  rw [List.map_append, List.sum_append]

/-- One more datagram in the ledger. -/
theorem Ledger.add {st st' : St} {A : List (Mark × List Byte)} (h : Ledger st A) (m : Mark) (d : List Byte)
    (hm : (m = .accepted → Intact d) ∧ (m = .damaged → ¬ Intact d) ∧ (m = .skipped → Intact d) ∧ (m = .unseen → d = []))
    (h1 : st'.recvPacket = st.recvPacket + if m = .accepted then 1 else 0)
    (h2 : st'.recvBytes = st.recvBytes + if m = .accepted then d.length else 0)
    (h3 : st'.discPacket = st.discPacket + if m = .damaged ∨ m = .skipped then 1 else 0)
    (h4 : st'.discBytes = st.discBytes + if m = .damaged ∨ m = .skipped then d.length else 0)
    (h5 : st'.lostPacket = st.lostPacket + if m = .lost then 1 else 0)
    (h6 : Udp.output st' = Udp.output st ++ if m = .accepted then payload d else []) : Ledger st' (A ++ [(m, d)]) := by
  obtain ⟨l1, l2, l3, l4, l5, l6, l7, l8, l9, l10⟩ := h
  obtain ⟨m1, m2, m3, m4⟩ := hm
  have key : ∀ k, having k (A ++ [(m, d)]) = having k A ++ if m = k then [d] else [] := by
    intro k
    rw [having_append, having_one]
  have hd : size [d] = d.length := by simp [size]
  have h0 : size [] = 0 := rfl
  have mem : ∀ {k : Mark} {P : List Byte → Prop}, (∀ x ∈ having k A, P x) → (m = k → P d) → ∀ x ∈ having k (A ++ [(m, d)]), P x := by
    intro k P hA hk x hx
    rw [key, List.mem_append] at hx
    rcases hx with hx | hx
    · exact hA x hx
    · by_cases hmk : m = k
      · rw [if_pos hmk, List.mem_singleton] at hx
        rw [hx]
        exact hk hmk
      · rw [if_neg hmk] at hx
        cases hx
  refine ⟨mem l1 m1, mem l2 m2, mem l3 m3, mem l4 m4, ?_, ?_, ?_, ?_, ?_, ?_⟩
  · rw [h1, l5, key, List.length_append]
    cases m <;> simp
  · rw [h2, l6, key, size_append]
    cases m <;> simp [hd, h0]
  · rw [h3, l7, key, key, List.length_append, List.length_append]
    cases m <;> simp <;> omega
  · rw [h4, l8, key, key, size_append, size_append]
    cases m <;> simp [hd, h0] <;> omega
  · rw [h5, l9, key, List.length_append]
    cases m <;> simp
  · rw [h6, l10, key]
    cases m <;> simp

/-- What the receiver does with the network: nothing bad, and a ledger of the datagrams it takes. -/
def Does (c : Cfg) (st st' : St) (noskip : Prop) : Prop :=
  Inv c st' ∧ ∃ B : List (Mark × List Byte), st.net.map (·.take c.mtu) = B.map Prod.snd ++ st'.net.map (·.take c.mtu) ∧
    (∃ k, st'.net = st.net.drop k) ∧ (∀ A, Ledger st A → Ledger st' (A ++ B)) ∧ (noskip → having .skipped B = [])

theorem Ledger.same {st st' : St} {A : List (Mark × List Byte)} (h : Ledger st A) (hs : Same st st') (ho : Udp.output st' = Udp.output st) : Ledger st' A := by
  obtain ⟨l1, l2, l3, l4, l5, l6, l7, l8, l9, l10⟩ := h
  obtain ⟨h1, h2, h3, h4, h5, h6, h7⟩ := hs
  exact ⟨l1, l2, l3, l4, h2.trans l5, h3.trans l6, h4.trans l7, h5.trans l8, h6.trans l9, ho.trans l10⟩

theorem Does.none {c : Cfg} {st st' : St} {ns : Prop} (h : Inv c st') (hs : Same st st') (ho : Udp.output st' = Udp.output st) : Does c st st' ns :=
  ⟨h, [], by rw [hs.1]; rfl, ⟨0, by rw [hs.1]; rfl⟩, fun A hA => by rw [List.append_nil]; exact hA.same hs ho, fun _ => rfl⟩

theorem Does.before {c : Cfg} {st st1 st' : St} {ns : Prop} (hs : Same st st1) (ho : Udp.output st1 = Udp.output st) (h : Does c st1 st' ns) : Does c st st' ns := by
  obtain ⟨h1, B, h2, ⟨k, hk⟩, h3, h4⟩ := h
  exact ⟨h1, B, by rw [← hs.1]; exact h2, ⟨k, by rw [← hs.1]; exact hk⟩, fun A hA => h3 A (hA.same hs ho), h4⟩

theorem Does.cons {c : Cfg} {st st1 st' : St} {ns : Prop} {d : List Byte} {net : List (List Byte)} (m : Mark) (hn : st.net = d :: net) (h1 : st1.net = net)
    (hl : ∀ A, Ledger st A → Ledger st1 (A ++ [(m, d.take c.mtu)])) (hs : ns → m ≠ .skipped) (h : Does c st1 st' ns) : Does c st st' ns := by
  obtain ⟨hi, B, h2, ⟨k, hk⟩, h3, h4⟩ := h
  refine ⟨hi, (m, d.take c.mtu) :: B, ?_, ⟨k + 1, ?_⟩, ?_, ?_⟩
  · rw [hn, List.map_cons, List.map_cons, List.cons_append, ← h2, h1]
  · rw [hn, List.drop_succ_cons, ← h1]
    exact hk
  · intro A hA
    have := h3 _ (hl A hA)
    rw [List.append_assoc] at this
    exact this
  · intro hx
    have e : having .skipped ((m, d.take c.mtu) :: B) = having .skipped [(m, d.take c.mtu)] ++ having .skipped B := having_append _ [_] B
    rw [e, h4 hx, having_one, if_neg (hs hx)]
    rfl

theorem Does.last {c : Cfg} {st st1 : St} {ns : Prop} {d : List Byte} {net : List (List Byte)} (m : Mark) (hn : st.net = d :: net) (h1 : st1.net = net)
    (hl : ∀ A, Ledger st A → Ledger st1 (A ++ [(m, d.take c.mtu)])) (hs : ns → m ≠ .skipped) (hi : Inv c st1) : Does c st st1 ns :=
  Does.cons m hn h1 hl hs (Does.none hi (Same.refl _) rfl)

/-- Changing parts the invariant does not speak about. -/
theorem Inv.other {c : Cfg} {st st' : St} (h : Inv c st) (h1 : st'.pool = st.pool) (h2 : st'.fresh = st.fresh) (h3 : st'.ready = st.ready)
    (h4 : st'.assigned = st.assigned) (h5 : st'.tgt = st.tgt) (h6 : st'.mem = st.mem) (h7 : st'.scratch = st.scratch) : Inv c st' := by
  obtain ⟨a1, a2, a3, a4, a5, a6⟩ := h
  refine ⟨by rw [h1]; exact a1, by rw [h1, h2]; exact a2, by rw [h1, h3]; exact a3, by rw [h4, h5]; exact a4, ?_, by rw [h7]; exact a6⟩
  rw [h1, h3, h5, h6]
  exact a5

theorem output_other {st st' : St} (h1 : st'.pool = st.pool) (h3 : st'.ready = st.ready) (h5 : st'.tgt = st.tgt) (h6 : st'.mem = st.mem)
    (h7 : st'.total = st.total) (h8 : st'.sent = st.sent) : output st' = output st := by
  unfold output
  rw [h1, h3, h5, h6, h7, h8]

/-- The state after `recv` put a datagram at the target. -/
theorem receive_spec {c : Cfg} {st : St} (h : Inv c st) {got : List Byte} (hg : got.length ≤ c.mtu) (mtubuf : Bool)
    (ht : mtubuf = false → ∃ b off, st.tgt = some (b, off) ∧ c.mtu ≤ rawsize st (b, off)) :
    ∃ rest st1, receive mtubuf st got = some (st1, got ++ rest) ∧ c.mtu ≤ (got ++ rest).length ∧ Inv c st1 ∧ Same st st1 ∧ output st1 = output st ∧
      st1.tgt = st.tgt ∧ st1.lostCnt = st.lostCnt ∧
      (mtubuf = false → ∃ b off, st1.tgt = some (b, off) ∧ c.mtu ≤ rawsize st1 (b, off) ∧ (st1.mem b).drop off = got ++ rest ∧ off ≤ (st1.mem b).length) := by
  cases mtubuf with
  | true =>
    obtain ⟨rest, h1, h2, h3⟩ := receive_mtu h hg
    exact ⟨rest, _, h1, by omega, h3, Same.refl st, rfl, rfl, rfl, fun h => (by cases h)⟩
  | false =>
    obtain ⟨b, off, hb, hraw⟩ := ht rfl
    obtain ⟨rest, h1, h2, h3, h4⟩ := receive_buf h hg hb hraw
    have htl : ((st.mem b).take off).length = off := by
      rw [List.length_take]
      have := (h.tgt b off hb).2
      omega
    refine ⟨rest, _, h1, h2, h3, Same.refl st, h4, rfl, rfl, fun _ => ⟨b, off, hb, ?_, ?_, ?_⟩⟩
    · show c.mtu ≤ (put st.mem b _ b).length - off
      rw [put_same, List.length_append, htl]
      omega
    · show (put st.mem b _ b).drop off = _
      rw [put_same]
      exact List.drop_left' htl
    · show off ≤ (put st.mem b _ b).length
      rw [put_same, List.length_append, htl]
      omega

theorem readLoop_spec {c : Cfg} (hc : c.Ok) : ∀ (n : Nat) (mtubuf : Bool) {st : St}, Inv c st → (∀ d ∈ st.net, Sane (d.take c.mtu)) →
    (mtubuf = false → ∃ b off, st.tgt = some (b, off) ∧ c.mtu ≤ rawsize st (b, off)) →
    ∃ st', readLoop c mtubuf n st = some st' ∧ Does c st st' (mtubuf = false) := by
  intro n
  induction n with
  | zero => intro mtubuf st h _ _; exact ⟨st, rfl, Does.none h (Same.refl st) rfl⟩
  | succ n ih =>
    intro mtubuf st h hsane ht
    unfold readLoop
    cases hn : st.net with
    | nil => exact ⟨st, rfl, Does.none h (Same.refl st) rfl⟩
    | cons d net =>
      dsimp only
      have h0 : Inv c { st with net := net } := h.other rfl rfl rfl rfl rfl rfl rfl
      by_cases hd : d = []
      · rw [if_pos hd]
        refine ⟨_, rfl, Does.last .unseen hn rfl ?_ (fun _ => by decide) h0⟩
        intro A hA
        refine hA.add .unseen _ ⟨fun h => (by cases h), fun h => (by cases h), fun h => (by cases h), fun _ => (by rw [hd]; exact List.take_nil)⟩ ?_ ?_ ?_ ?_ ?_ ?_ <;>
          first | rfl | exact (List.append_nil _).symm
      · rw [if_neg hd]
        obtain ⟨rest, st1, r1, r2, r3, r4, r5, r6, r7, r8⟩ := receive_spec h0 (got := d.take c.mtu) (by rw [List.length_take]; omega) mtubuf ht
        rw [r1]
        dsimp only
        obtain ⟨s1, s2, s3, s4, s5, s6, s7⟩ := r4
        dsimp only at s1 s2 s3 s4 s5 s6 s7
        have ho1 : output st1 = output st := r5.trans (output_other rfl rfl rfl rfl rfl rfl)
        have hsn : ∀ x ∈ net, Sane (x.take c.mtu) := fun x hx => hsane x (by rw [hn]; exact List.mem_cons_of_mem _ hx)
        have hne : d.take c.mtu ≠ [] := by
          intro he
          have h2 := congrArg List.length he
          rw [List.length_take] at h2
          have h3 : 0 < d.length := List.length_pos_iff.2 hd
          have h4 := hc.mtu
          simp only [List.length_nil] at h2
          omega
        have hlen : (d.take c.mtu).length < 2 ^ 31 := by
          rw [List.length_take]
          have := hc.mtu
          omega
        have hgs : Sane (d.take c.mtu) := hsane d (by rw [hn]; exact List.mem_cons_self)
        by_cases hlost : st1.lostCnt = 1
        · rw [if_pos hlost]
          obtain ⟨st', g1, g2⟩ := ih mtubuf (st := { st1 with lostCnt := c.lost st1.lostPacket, lostPacket := st1.lostPacket + 1 })
            (r3.other rfl rfl rfl rfl rfl rfl rfl) (by show ∀ x ∈ st1.net, _; rw [s1]; exact hsn)
            (fun hm => by obtain ⟨b, off, b1, b2, _⟩ := r8 hm; exact ⟨b, off, b1, b2⟩)
          refine ⟨st', g1, Does.cons (st1 := { st1 with lostCnt := c.lost st1.lostPacket, lostPacket := st1.lostPacket + 1 }) .lost hn s1 ?_ (fun _ => by decide) g2⟩
          intro A hA
          refine hA.add .lost _ ⟨fun h => (by cases h), fun h => (by cases h), fun h => (by cases h), fun h => (by cases h)⟩ s2 s3 s4 s5 ?_ ?_
          · show st1.lostPacket + 1 = _
            rw [s6]
            rfl
          · exact ho1.trans (List.append_nil _).symm
        · rw [if_neg hlost]
          generalize hst2 : (if st1.lostCnt > 0 then { st1 with lostCnt := st1.lostCnt - 1 } else st1) = st2
          have e2 : st2 = { st1 with lostCnt := st2.lostCnt } := by
            rw [← hst2]
            split <;> rfl
          have q3 : Inv c st2 := by
            rw [e2]
            exact r3.other rfl rfl rfl rfl rfl rfl rfl
          have q1 : st2.net = net := by rw [e2]; exact s1
          have q2 : st2.recvPacket = st.recvPacket := by rw [e2]; exact s2
          have q4 : st2.recvBytes = st.recvBytes := by rw [e2]; exact s3
          have q5 : st2.discPacket = st.discPacket := by rw [e2]; exact s4
          have q6 : st2.discBytes = st.discBytes := by rw [e2]; exact s5
          have q7 : st2.lostPacket = st.lostPacket := by rw [e2]; exact s6
          have q8 : output st2 = output st := by rw [e2]; exact (output_other rfl rfl rfl rfl rfl rfl).trans ho1
          have q9 : mtubuf = false → ∃ b off, st2.tgt = some (b, off) ∧ c.mtu ≤ rawsize st2 (b, off) ∧ (st2.mem b).drop off = d.take c.mtu ++ rest ∧ off ≤ (st2.mem b).length := by
            rw [e2]
            exact r8
          clear e2 hst2 r8 s1 s2 s3 s4 s5 s6 ho1 r1 r5 r6 r7 hlost
          have hbad : ∀ st3 : St, Inv c st3 → st3.net = net → st3.recvPacket = st.recvPacket → st3.recvBytes = st.recvBytes →
              st3.discPacket = st.discPacket + 1 → st3.discBytes = st.discBytes + (d.take c.mtu).length → st3.lostPacket = st.lostPacket →
              output st3 = output st → (mtubuf = false → ∃ b off, st3.tgt = some (b, off) ∧ c.mtu ≤ rawsize st3 (b, off)) → ¬ Intact (d.take c.mtu) →
              ∃ st', readLoop c mtubuf n st3 = some st' ∧ Does c st st' (mtubuf = false) := by
            intro st3 a1 a2 a3 a4 a5 a6 a7 a8 a9 a10
            obtain ⟨st', g1, g2⟩ := ih mtubuf a1 (by rw [a2]; exact hsn) a9
            refine ⟨st', g1, Does.cons .damaged hn a2 ?_ (fun _ => by decide) g2⟩
            intro A hA
            refine hA.add .damaged _ ⟨fun h => (by cases h), fun _ => a10, fun h => (by cases h), fun h => (by cases h)⟩ a3 a4 a5 a6 a7 (a8.trans (List.append_nil _).symm)
          rcases check_spec hne hlen (rest := rest) (by have := hc.mtu; omega) hgs with ⟨hint, hck⟩ | ⟨hint, hck | hck⟩
          · rw [hck]
            dsimp only
            cases mtubuf with
            | true =>
              rw [if_pos rfl]
              refine ⟨_, rfl, Does.last .skipped hn q1 ?_ (fun h => by cases h) (q3.other rfl rfl rfl rfl rfl rfl rfl)⟩
              intro A hA
              refine hA.add .skipped _ ⟨fun h => (by cases h), fun h => (by cases h), fun _ => hint, fun h => (by cases h)⟩ q2 q4 ?_ ?_ q7 ?_
              · show st2.discPacket + 1 = _
                rw [q5]
                rfl
              · show st2.discBytes + _ = _
                rw [q6]
                rfl
              · exact ((output_other rfl rfl rfl rfl rfl rfl).trans q8).trans (List.append_nil _).symm
            | false =>
              rw [if_neg (by decide)]
              obtain ⟨b, off, b1, b2, b3, b4⟩ := q9 rfl
              rw [b1]
              dsimp only
              have hi1 : (d.take c.mtu).length = up8 (sizeAt (d.take c.mtu) 0) + 32 := hint.1
              have hfit : off + up8 (sizeAt (d.take c.mtu) 0) + 32 ≤ (st2.mem b).length := by
                have h5 := congrArg List.length b3
                rw [List.length_drop, List.length_append] at h5
                omega
              obtain ⟨k1, k2, k3, k4, k5, k6, k7, k8, k9⟩ := accept_spec hc q3 (res := (d.take c.mtu).length) b1 hfit b2
              have hl : ∀ A, Ledger st A → Ledger (accept c st2 b off (up8 (sizeAt (d.take c.mtu) 0)) (d.take c.mtu).length).1 (A ++ [(.accepted, d.take c.mtu)]) := by
                intro A hA
                refine hA.add .accepted _ ⟨fun _ => hint, fun h => (by cases h), fun h => (by cases h), fun h => (by cases h)⟩
                  (k4.trans (by rw [q2]; rfl)) (k5.trans (by rw [q4]; rfl)) (k6.trans q5) (k7.trans q6) (k8.trans q7) ?_
                rw [k2, q8, b3, List.take_append_of_le_length (by omega)]
                rfl
              split
              · rename_i hgo
                obtain ⟨st', g1, g2⟩ := ih false k1 (by rw [k3, q1]; exact hsn) (fun _ => k9 hgo)
                exact ⟨st', g1, Does.cons .accepted hn (k3.trans q1) hl (fun _ => by decide) g2⟩
              · exact ⟨_, rfl, Does.last .accepted hn (k3.trans q1) hl (fun _ => by decide) k1⟩
          · rw [hck]
            refine hbad _ (q3.other rfl rfl rfl rfl rfl rfl rfl) q1 q2 q4 ?_ ?_ q7 ((output_other rfl rfl rfl rfl rfl rfl).trans q8) ?_ hint
            · show st2.discPacket + 1 = _
              rw [q5]
            · show st2.discBytes + _ = _
              rw [q6]
            · intro hm
              obtain ⟨b, off, b1, b2, _⟩ := q9 hm
              exact ⟨b, off, b1, b2⟩
          · rw [hck]
            refine hbad _ (q3.other rfl rfl rfl rfl rfl rfl rfl) q1 q2 q4 ?_ ?_ q7 ((output_other rfl rfl rfl rfl rfl rfl).trans q8) ?_ hint
            · show st2.discPacket + 1 = _
              rw [q5]
            · show st2.discBytes + _ = _
              rw [q6]
            · intro hm
              obtain ⟨b, off, b1, b2, _⟩ := q9 hm
              exact ⟨b, off, b1, b2⟩

/-- `ReadUdp`; nothing intact is skipped when there is a buffer. -/
theorem readUdp_spec {c : Cfg} (hc : c.Ok) {st : St} (h : Inv c st) (hsane : ∀ d ∈ st.net, Sane (d.take c.mtu)) :
    ∃ st', readUdp c st = some st' ∧ Does c st st' (noTgt st = false ∨ (assignNew c st).2 = true) := by
  unfold readUdp
  by_cases hrun : (!st.running) = true
  · rw [if_pos hrun]
    exact ⟨st, rfl, Does.none h (Same.refl st) rfl⟩
  · rw [if_neg hrun]
    obtain ⟨a1, a2, a3, a4⟩ := assignNew_spec h
    cases hno : noTgt st with
    | true =>
      rw [if_pos rfl]
      dsimp only
      cases hr : (assignNew c st).2 with
      | true =>
        rw [if_neg (by simp), if_neg (by decide)]
        obtain ⟨b, b1, b2⟩ := a4 hr
        rw [b1]
        dsimp only
        rw [if_neg (by omega)]
        obtain ⟨st', g1, g2⟩ := readLoop_spec hc c.maxLoop false (st := { (assignNew c st).1 with skipCnt := 0 }) (a1.other rfl rfl rfl rfl rfl rfl rfl)
          (by show ∀ d ∈ (assignNew c st).1.net, _; rw [a3.1]; exact hsane) (fun _ => ⟨b, 0, b1, b2⟩)
        obtain ⟨w1, B, w2, w3, w4, w5⟩ := Does.before (st := st) (st1 := { (assignNew c st).1 with skipCnt := 0 }) ⟨a3.1, a3.2⟩ ((output_other rfl rfl rfl rfl rfl rfl).trans a2) g2
        exact ⟨st', by dsimp only at g1; rw [b1] at g1; exact g1, w1, B, w2, w3, w4, fun _ => w5 rfl⟩
      | false =>
        by_cases hsk : (assignNew c st).1.skipCnt < 10
        · rw [if_pos (by rw [decide_eq_true hsk]; rfl)]
          exact ⟨_, rfl, Does.none (a1.other rfl rfl rfl rfl rfl rfl rfl) (Same.trans a3 (Same.refl _)) ((output_other rfl rfl rfl rfl rfl rfl).trans a2)⟩
        · rw [if_neg (by rw [decide_eq_false hsk]; decide), if_pos rfl]
          obtain ⟨st', g1, g2⟩ := readLoop_spec hc c.maxLoop true (st := { (assignNew c st).1 with skipCnt := (assignNew c st).1.skipCnt + 1 })
            (a1.other rfl rfl rfl rfl rfl rfl rfl)
            (by show ∀ d ∈ (assignNew c st).1.net, _; rw [a3.1]; exact hsane) (fun h => by cases h)
          obtain ⟨w1, B, w2, w3, w4, w5⟩ := Does.before (st := st) (st1 := { (assignNew c st).1 with skipCnt := (assignNew c st).1.skipCnt + 1 }) ⟨a3.1, a3.2⟩ ((output_other rfl rfl rfl rfl rfl rfl).trans a2) g2
          exact ⟨st', g1, w1, B, w2, w3, w4, fun h => by rcases h with h | h <;> cases h⟩
    | false =>
      rw [show (if false = true then assignNew c st else (st, true)) = (st, true) from rfl]
      dsimp only
      rw [if_neg (by simp), if_neg (by decide)]
      cases ht : st.tgt with
      | none =>
        unfold noTgt at hno
        rw [ht] at hno
        cases hno
      | some t =>
        dsimp only
        by_cases hraw : rawsize st t < c.mtu
        · rw [if_pos hraw]
          exact ⟨st, rfl, Does.none h (Same.refl st) rfl⟩
        · rw [if_neg hraw]
          obtain ⟨st', g1, g2⟩ := readLoop_spec hc c.maxLoop false (st := { st with skipCnt := 0 }) (h.other rfl rfl rfl rfl rfl rfl rfl) hsane
            (fun _ => ⟨t.1, t.2, ht, Nat.le_of_not_lt hraw⟩)
          obtain ⟨w1, B, w2, w3, w4, w5⟩ := Does.before (st := st) (st1 := { st with skipCnt := 0 }) (Same.refl st) (output_other rfl rfl rfl rfl rfl rfl) g2
          exact ⟨st', by rw [ht] at g1; exact g1, w1, B, w2, w3, w4, fun _ => w5 rfl⟩

theorem flush_spec {c : Cfg} {st : St} (onclose : Bool) (h : Inv c st) :
    Inv c (flushBuffer c onclose st) ∧ output (flushBuffer c onclose st) = output st ∧ Same st (flushBuffer c onclose st) := by
  unfold flushBuffer
  dsimp only
  have key : ∀ x : St, Inv c x → output x = output st → Same st x → Inv c { x with lastSendCnt := x.sendCnt } ∧
      output { x with lastSendCnt := x.sendCnt } = output st ∧ Same st { x with lastSendCnt := x.sendCnt } := fun x h1 h2 h3 =>
    ⟨h1.other rfl rfl rfl rfl rfl rfl rfl, (output_other rfl rfl rfl rfl rfl rfl).trans h2, h3.trans (Same.refl _)⟩
  by_cases h1 : (onclose || decide (st.lastSendCnt = st.sendCnt)) = true
  · rw [if_pos h1]
    cases hcl : (closeBuffer st).2 with
    | false =>
      rw [if_neg (by decide), closeBuffer_false hcl]
      exact key st h rfl (Same.refl st)
    | true =>
      rw [if_pos rfl]
      obtain ⟨b, off, ht, hoff, hraw⟩ := closeBuffer_true hcl
      obtain ⟨_, g1, g2, g3, g4⟩ := close_spec h ht hoff hraw
      cases onclose with
      | true =>
        rw [if_pos rfl]
        exact key _ g1 g2 g3
      | false =>
        rw [if_neg (by decide)]
        obtain ⟨k1, k2, k3, k4⟩ := assignNew_spec g1
        exact key _ k1 (k2.trans g2) (g3.trans k3)
  · rw [if_neg h1]
    exact key st h rfl (Same.refl st)

end Verif.Udp
