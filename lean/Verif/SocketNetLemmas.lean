import Verif.Spec.SocketNet

namespace Verif.SocketNet
open Verif.Bytes

/-- All bytes which are sent for a message. -/
def encode (p : Msg × List Byte) : List Byte :=
  (packHeader p.1 p.2).1 ++
    (match p.1 with
     | .buf _ segs => if (packHeader p.1 p.2).2 then segs.flatten else []
     | _ => [])

def encodes (l : List (Msg × List Byte)) : List Byte := (l.map encode).flatten

theorem encodes_append (a b : List (Msg × List Byte)) : encodes (a ++ b) = encodes a ++ encodes b := by
  simp [encodes]

theorem encodes_cons (a : Msg × List Byte) (b : List (Msg × List Byte)) : encodes (a :: b) = encode a ++ encodes b := by
  simp [encodes]

theorem header_length {kind typ size : Nat} {inl : List Byte} (h : inl.length = 32) :
    (header kind typ size inl).length = 48 := by
  simp [header, h]

theorem hdrChk_header (kind typ size : Nat) (inl : List Byte) : hdrChk (header kind typ size inl) = 123 := by
  unfold hdrChk header
  rw [List.take_left' (enc_length _ _)]
  exact dec_enc_of_lt (by decide)

theorem drop4 (v : Nat) (l : List Byte) (k : Nat) : (enc 4 v ++ l).drop (4 + k) = l.drop k := by
  rw [← List.drop_drop, List.drop_left' (enc_length _ _)]

theorem hdrKind_header {kind typ size : Nat} {inl : List Byte} (h : kind < 2 ^ 32) :
    hdrKind (header kind typ size inl) = kind := by
  unfold hdrKind header
  rw [List.drop_left' (enc_length _ _), List.take_left' (enc_length _ _)]
  exact dec_enc_of_lt (by omega)

theorem hdrTyp_header {kind typ size : Nat} {inl : List Byte} (h : typ < 2 ^ 32) :
    hdrTyp (header kind typ size inl) = typ := by
  unfold hdrTyp header
  rw [show (8 : Nat) = 4 + 4 from rfl, drop4, List.drop_left' (enc_length _ _), List.take_left' (enc_length _ _)]
  exact dec_enc_of_lt (by omega)

theorem hdrSize_header {kind typ size : Nat} {inl : List Byte} (h : size < 2 ^ 32) :
    hdrSize (header kind typ size inl) = size := by
  unfold hdrSize header
  rw [show (12 : Nat) = 4 + (4 + 4) from rfl, drop4, drop4, List.drop_left' (enc_length _ _),
    List.take_left' (enc_length _ _)]
  exact dec_enc_of_lt (by omega)

/-- Header of a message. -/
def hd (p : Msg × List Byte) : List Byte := (packHeader p.1 p.2).1

/-- Data of a message. -/
def dat (m : Msg) : List Byte :=
  match m with
  | .buf _ segs => segs.flatten
  | _ => []

structure Ok (p : Msg × List Byte) : Prop where
  large : Large p.1
  junk : p.2.length = 32

theorem pack_large {p : Msg × List Byte} (h : Ok p) :
    packHeader p.1 p.2 = (match p.1 with
      | .ack n => (header 4 4 n p.2, false)
      | .null => (header 1 0 0 p.2, false)
      | .buf typ segs => (header 1 typ segs.flatten.length p.2, true)) := by
  obtain ⟨m, j⟩ := p
  have hl := h.large
  cases m with
  | ack n => rfl
  | null => rfl
  | buf typ segs =>
    simp only [Large] at hl
    simp only [packHeader]
    rw [if_neg]
    simp only [Bool.and_eq_true, decide_eq_true_eq]
    omega

theorem hd_length {p : Msg × List Byte} (h : Ok p) : (hd p).length = 48 := by
  unfold hd
  rw [pack_large h]
  cases p.1 <;> exact header_length h.junk

theorem encode_eq {p : Msg × List Byte} (h : Ok p) : encode p = hd p ++ dat p.1 := by
  unfold encode hd
  rw [pack_large h]
  obtain ⟨m, j⟩ := p
  cases m <;> simp [dat]

theorem hd_chk {p : Msg × List Byte} (h : Ok p) : hdrChk (hd p) = 123 := by
  unfold hd
  rw [pack_large h]
  cases p.1 <;> exact hdrChk_header _ _ _ _

theorem hd_ack {n : Nat} {j : List Byte} (h : Ok (.ack n, j)) :
    hdrAck (hd (.ack n, j)) = true ∧ hdrSize (hd (.ack n, j)) = n := by
  have hl := h.large
  simp only [Large] at hl
  unfold hd
  rw [pack_large h]
  constructor
  · unfold hdrAck
    rw [hdrKind_header (by decide)]
    rfl
  · exact hdrSize_header hl

theorem hd_buf {typ : Nat} {segs : List (List Byte)} {j : List Byte} (h : Ok (.buf typ segs, j)) :
    hdrAck (hd (.buf typ segs, j)) = false ∧ hdrSize (hd (.buf typ segs, j)) = segs.flatten.length ∧
      hdrTyp (hd (.buf typ segs, j)) = typ := by
  have hl := h.large
  simp only [Large] at hl
  unfold hd
  rw [pack_large h]
  refine ⟨?_, hdrSize_header hl.2.2.1, hdrTyp_header hl.1⟩
  unfold hdrAck
  rw [hdrKind_header (by decide)]
  rfl

theorem not_null {j : List Byte} (h : Ok (.null, j)) : False := h.large

/-! ## Sender -/

theorem advance_flatten (n : Nat) (l : List (List Byte)) : (advance n l).flatten = l.flatten.drop n := by
  induction l generalizing n with
  | nil => cases n <;> simp [advance]
  | cons r l ih =>
    cases n with
    | zero => simp [advance]
    | succ n =>
      rw [advance]
      · split
        · rename_i h
          rw [ih, List.flatten_cons, List.drop_append]
          rw [List.drop_eq_nil_of_le h]; rfl
        · rename_i h
          rw [List.flatten_cons, List.flatten_cons, List.drop_append_of_le_length (by omega)]
      · exact Nat.succ_ne_zero n

theorem advance_nonempty {n : Nat} {l : List (List Byte)} (h : ∀ x ∈ l, x ≠ []) : ∀ x ∈ advance n l, x ≠ [] := by
  induction l generalizing n with
  | nil => cases n <;> simp [advance]
  | cons r l ih =>
    cases n with
    | zero => simpa [advance] using h
    | succ n =>
      rw [advance]
      · split
        · exact ih (fun x hx => h x (List.mem_cons_of_mem _ hx))
        · rename_i hlen
          intro x hx
          rcases List.mem_cons.1 hx with hx | hx
          · subst hx
            intro hc
            have := congrArg List.length hc
            simp at this
            omega
          · exact h x (List.mem_cons_of_mem _ hx)
      · exact Nat.succ_ne_zero n

/-- State of the sender: the unsent bytes are those of the segments in work and of the queued messages. -/
structure SInv (s : Snd) : Prop where
  open_ : s.closed = false
  ok : ∀ p ∈ s.queue, Ok p
  seg : ∀ x ∈ s.iov, x ≠ []
  busy : s.busy = true ↔ s.iov ≠ []
  idle : s.busy = false → s.queue = []

def unsent (s : Snd) : List Byte := s.iov.flatten ++ encodes s.queue

theorem sendNext_spec {s : Snd} (ho : s.closed = false) (hok : ∀ p ∈ s.queue, Ok p) (hi : s.iov = []) :
    SInv (sendNext s) ∧ unsent (sendNext s) = unsent s := by
  unfold sendNext
  cases hq : s.queue with
  | nil =>
    dsimp only
    refine ⟨⟨ho, by simp, by simp, by simp, fun _ => rfl⟩, by simp [unsent, hq, hi]⟩
  | cons p q =>
    obtain ⟨m, j⟩ := p
    have hp : Ok (m, j) := hok _ (by rw [hq]; exact List.mem_cons_self)
    have hpack := pack_large hp
    dsimp only at hpack ⊢
    have hhd := hd_length hp
    unfold hd at hhd
    dsimp only at hhd
    have hne : (packHeader m j).1 ≠ [] := by
      intro hc; rw [hc] at hhd; simp at hhd
    refine ⟨⟨ho, ?_, ?_, by simp, by simp⟩, ?_⟩
    · intro p h
      exact hok p (by rw [hq]; exact List.mem_cons_of_mem _ h)
    · intro x hx
      rcases List.mem_cons.1 hx with hx | hx
      · rw [hx]; exact hne
      · have hl := hp.large
        cases m with
        | ack n => simp at hx
        | null => simp at hx
        | buf typ segs =>
          rw [hpack] at hx
          exact hl.2.2.2 x hx
    · unfold unsent
      rw [hi, hq, encodes_cons]
      unfold encode
      cases m with
      | ack n => simp
      | null => simp
      | buf typ segs => simp [hpack]

theorem submit_spec {s : Snd} (h : SInv s) {m : Msg} {j : List Byte} (hp : Ok (m, j)) :
    SInv (submit s m j) ∧ unsent (submit s m j) = unsent s ++ encode (m, j) := by
  have hok : ∀ p ∈ s.queue ++ [(m, j)], Ok p := by
    intro p h1
    rcases List.mem_append.1 h1 with h1 | h1
    · exact h.ok p h1
    · rw [List.mem_singleton] at h1; rw [h1]; exact hp
  unfold submit
  dsimp only
  cases hb : s.busy with
  | true =>
    rw [if_pos rfl]
    refine ⟨⟨h.open_, hok, h.seg, by have := h.busy; rw [hb] at this; exact this, by simp⟩, ?_⟩
    simp [unsent, encodes]
  | false =>
    rw [if_neg (by simp)]
    have hi : s.iov = [] := by
      have := h.busy
      rw [hb] at this
      simpa using this
    have := sendNext_spec (s := { s with queue := s.queue ++ [(m, j)] }) h.open_ hok hi
    simp only [hb] at this
    refine ⟨this.1, ?_⟩
    rw [this.2]
    simp [unsent, encodes]

theorem write_spec {s : Snd} (h : SInv s) (msg : Bool) (r : Nat) :
    SInv (write msg s r).1 ∧ (write msg s r).2 ++ unsent (write msg s r).1 = unsent s ∧
      (s.iov ≠ [] → (write msg s r).2 ≠ []) := by
  unfold write
  cases hi : s.iov with
  | nil => exact ⟨h, by simp, by simp⟩
  | cons seg l =>
    dsimp only
    have hne : seg ≠ [] := h.seg seg (by rw [hi]; exact List.mem_cons_self)
    have hpos : 0 < seg.length := List.length_pos_iff.2 hne
    have hoff : 0 < (if msg = true then (seg :: l).flatten.length else seg.length) ∧
        (if msg = true then (seg :: l).flatten.length else seg.length) ≤ (seg :: l).flatten.length := by
      have : (seg :: l).flatten.length = seg.length + l.flatten.length := by simp
      split <;> omega
    generalize (if msg = true then (seg :: l).flatten.length else seg.length) = offer at hoff ⊢
    have hn : 0 < min (max 1 r) offer ∧ min (max 1 r) offer ≤ (seg :: l).flatten.length := by omega
    generalize min (max 1 r) offer = n at hn ⊢
    rw [if_neg (by omega)]
    have hfl := advance_flatten n (seg :: l)
    have hseg : ∀ x ∈ advance n (seg :: l), x ≠ [] := advance_nonempty (by rw [← hi]; exact h.seg)
    generalize advance n (seg :: l) = rest at hfl hseg ⊢
    have hkey : ((seg :: l).flatten.take n) ++ unsent { s with iov := rest } = unsent s := by
      unfold unsent
      dsimp only
      rw [hfl, ← List.append_assoc, List.take_append_drop, hi]
    have htk : (seg :: l).flatten.take n ≠ [] := by
      intro hc
      have := congrArg List.length hc
      rw [List.length_take] at this
      simp only [List.length_nil] at this
      omega
    dsimp only
    by_cases hr : rest = []
    · rw [if_pos hr]
      have := sendNext_spec (s := { s with iov := rest }) h.open_ h.ok hr
      exact ⟨this.1, by rw [this.2]; exact hkey, fun _ => htk⟩
    · rw [if_neg hr]
      refine ⟨⟨h.open_, h.ok, hseg, ?_, h.idle⟩, hkey, fun _ => htk⟩
      have := h.busy
      rw [hi] at this
      simp only [ne_eq, reduceCtorEq, not_false_eq_true, iff_true] at this
      show s.busy = true ↔ rest ≠ []
      simp [this, hr]

/-! ## Receiver -/

theorem clip_spec {l : List Nat} {n : Nat} (hl : ∀ x ∈ l, 0 < x) (hs : n ≤ l.sum) :
    (clip l n).sum = n ∧ (∀ x ∈ clip l n, 0 < x) := by
  induction l generalizing n with
  | nil => simp at hs; subst hs; simp [clip]
  | cons r l ih =>
    have hr := hl r List.mem_cons_self
    simp only [List.sum_cons] at hs
    unfold clip
    dsimp only
    by_cases h1 : r > n
    · rw [if_pos h1]
      by_cases h0 : n = 0
      · rw [if_pos h0]; simp [h0]
      · rw [if_neg h0]
        have := ih (n := n - n) (fun x hx => hl x (List.mem_cons_of_mem _ hx)) (by omega)
        refine ⟨by rw [List.sum_cons, this.1]; omega, ?_⟩
        intro x hx
        rcases List.mem_cons.1 hx with hx | hx
        · omega
        · exact this.2 x hx
    · rw [if_neg h1, if_neg (by omega)]
      have := ih (n := n - r) (fun x hx => hl x (List.mem_cons_of_mem _ hx)) (by omega)
      refine ⟨by rw [List.sum_cons, this.1]; omega, ?_⟩
      intro x hx
      rcases List.mem_cons.1 hx with hx | hx
      · omega
      · exact this.2 x hx

theorem advanceLen_spec {n : Nat} {l : List Nat} (hl : ∀ x ∈ l, 0 < x) (hn : n ≤ l.sum) :
    (advanceLen n l).sum = l.sum - n ∧ (∀ x ∈ advanceLen n l, 0 < x) := by
  induction l generalizing n with
  | nil => cases n <;> simp [advanceLen]
  | cons r l ih =>
    cases n with
    | zero => exact ⟨by simp [advanceLen], by simpa [advanceLen] using hl⟩
    | succ n =>
      simp only [List.sum_cons] at hn
      rw [advanceLen]
      · split
        · have := ih (n := n + 1 - r) (fun x hx => hl x (List.mem_cons_of_mem _ hx)) (by omega)
          refine ⟨by rw [this.1, List.sum_cons]; omega, this.2⟩
        · refine ⟨by simp only [List.sum_cons]; omega, ?_⟩
          intro x hx
          rcases List.mem_cons.1 hx with hx | hx
          · omega
          · exact hl x (List.mem_cons_of_mem _ hx)
      · exact Nat.succ_ne_zero n

theorem sum_zero_nil {l : List Nat} (hl : ∀ x ∈ l, 0 < x) (h : l.sum = 0) : l = [] := by
  cases l with
  | nil => rfl
  | cons r l =>
    have := hl r List.mem_cons_self
    simp only [List.sum_cons] at h
    omega

end Verif.SocketNet
