import Verif.SockWire
import Verif.Spec.SockWire
import Mathlib.Tactic.Linarith
import Mathlib.Algebra.Order.Field.Rat

/-!
# C78: packets of the command channel
-/

namespace Verif.SockWire

open Spec

theorem rd32_le32 {n : Nat} (h : n < 4294967296) :
    n % 256 + 256 * (n / 256 % 256) + 65536 * (n / 65536 % 256) + 16777216 * (n / 16777216 % 256) = n := by omega

theorem bytes_length (h : Hdr) : h.bytes.length = 24 := by simp [Hdr.bytes, le32]

theorem ofBytes_bytes {h : Hdr} (h1 : h.magic < 4294967296) (h2 : h.kind < 4294967296) (h3 : h.tmo < 4294967296)
    (h4 : h.size < 4294967296) (h5 : h.cmd < 4294967296) (h6 : h.raw < 4294967296) : Hdr.ofBytes h.bytes = h := by
  simp only [Hdr.ofBytes, rd32, Hdr.bytes, le32, List.cons_append, List.nil_append, List.getD_cons_zero,
    List.getD_cons_succ, rd32_le32 h1, rd32_le32 h2, rd32_le32 h3, rd32_le32 h4, rd32_le32 h5, rd32_le32 h6, Nat.zero_add,
    Nat.reduceAdd]

theorem u32_of_lt {n : Nat} (h : n < 4294967296) : u32 n = n := Nat.mod_eq_of_lt h

theorem grow_some {s : Nat} (hs : s < 2147483648) (n sz : Nat) (hn : s < sz * 2 ^ n) :
    ∃ r, grow s (n + 1) sz = some r ∧ s < r := by
  induction n generalizing sz with
  | zero =>
    refine ⟨sz, ?_, by simpa using hn⟩
    rw [grow, if_neg (by simp at hn; omega)]
  | succ n ih =>
    rw [grow]
    split
    · rename_i hle
      rw [u32_of_lt (by omega)]
      refine ih _ ?_
      rw [Nat.mul_assoc, ← Nat.pow_succ']
      exact hn
    · exact ⟨sz, rfl, by omega⟩

theorem grow_zero {s : Nat} (n : Nat) : grow s n 0 = none := by
  induction n with
  | zero => rfl
  | succ n ih => rw [grow, if_pos (Nat.zero_le _)]; exact ih

theorem grow_none {s : Nat} (hs : 2147483648 ≤ s) (n k sz : Nat) (hk : k ≤ 20) (hsz : sz = 2048 * 2 ^ k) :
    grow s n sz = none := by
  induction n generalizing k sz with
  | zero => rfl
  | succ n ih =>
    have hp : 2 ^ k ≤ 2 ^ 20 := Nat.pow_le_pow_right (by omega) hk
    rw [grow, if_pos (by omega)]
    by_cases h20 : k = 20
    · subst h20
      have : u32 (sz * 2) = 0 := by unfold u32; omega
      rw [this]; exact grow_zero n
    · refine ih (k + 1) _ (by omega) ?_
      have hp' : 2 ^ k ≤ 2 ^ 19 := Nat.pow_le_pow_right (by omega) (by omega)
      rw [u32_of_lt (by omega), hsz, Nat.mul_assoc, ← Nat.pow_succ]

theorem ensure_some {mem : List (Option Nat)} {s : Nat} (h0 : 0 < s) (hs : s < 2147483648) :
    ∃ m, ensure mem s = some m ∧ s < m.length := by
  unfold ensure
  split
  · rename_i h; exact ⟨mem, rfl, h.2⟩
  · rw [if_neg (by omega)]
    obtain ⟨r, h1, h2⟩ := grow_some hs 63 2048 (by omega)
    exact ⟨_, by rw [h1]; rfl, by simpa using h2⟩

theorem mapM_id_some (l : List Nat) : (l.map some).mapM id = some l := by
  induction l with
  | nil => rfl
  | cons x t ih => simp [ih]

theorem load_got {l : List Nat} {rest : List (Option Nat)} {pos len : Nat} (h : pos + len ≤ l.length) :
    load (l.map some ++ rest) pos len = some ((l.drop pos).take len) := by
  unfold load
  rw [if_pos (by simp; omega)]
  rw [List.drop_append_of_le_length (by simp; omega), List.take_append_of_le_length (by simp; omega),
    ← List.map_drop, ← List.map_take]
  exact mapM_id_some _

theorem feed_append (cf : Conf) (r : Rx) (l l' : List Nat) : r.feed cf (l ++ l') = (r.feed cf l).feed cf l' := by
  simp [Rx.feed]

/-- A part of what is expected comes. -/
theorem feed_part (cf : Conf) (r : Rx) (l : List Nat) (hf : r.fate = .opened) (hl : r.got.length + l.length < r.want) :
    r.feed cf l = { r with got := r.got ++ l } := by
  induction l generalizing r with
  | nil => simp [Rx.feed]
  | cons b l ih =>
    simp only [List.length_cons] at hl
    have h1 : r.byte cf b = { r with got := r.got ++ [b] } := by
      unfold Rx.byte
      rw [if_neg (by simp [hf]), if_neg (by omega)]
    show (r.byte cf b).feed cf l = _
    rw [h1]
    have h2 := ih { r with got := r.got ++ [b] } hf (by simp; omega)
    rw [h2]
    simp

/-- All what is expected comes. -/
theorem feed_whole (cf : Conf) (r : Rx) (l : List Nat) (hf : r.fate = .opened) (h0 : l ≠ [])
    (hl : r.got.length + l.length = r.want) : r.feed cf l = { r with got := r.got ++ l }.complete cf := by
  obtain ⟨l', b, rfl⟩ : ∃ l' b, l = l' ++ [b] := ⟨l.dropLast, l.getLast h0, (List.dropLast_concat_getLast h0).symm⟩
  simp only [List.length_append, List.length_singleton] at hl
  rw [feed_append, feed_part cf r l' hf (by omega)]
  show Rx.byte cf _ b = _
  unfold Rx.byte
  rw [if_neg (by simp [hf]), if_pos (by simp; omega)]
  simp

/-- The receiver waits for a header. -/
structure Waits (r : Rx) : Prop where
  stage : r.stage = .header
  want : r.want = 24
  got : r.got = []
  fate : r.fate = .opened

theorem fit_rawSize {m : Msg} (h : Fit m) : m.rawSize = m.raw.flatten.length := by
  have := h.size
  unfold Msg.rawSize
  rw [← List.length_flatten]
  exact u32_of_lt (by omega)

theorem fit_hdr {m : Msg} (h : Fit m) :
    m.hdr = ⟨headerDabc, m.kind, m.tmo, m.cmd.length + m.raw.flatten.length, m.cmd.length, m.raw.flatten.length⟩ := by
  have := h.size
  unfold Msg.hdr
  rw [fit_rawSize h, u32_of_lt (show m.cmd.length < 4294967296 by omega), u32_of_lt (by omega)]

theorem fit_send {m : Msg} (h : Fit m) : m.send = some (m.hdr.bytes ++ (m.cmd ++ m.raw.flatten)) := by
  unfold Msg.send
  rw [fit_rawSize h]
  rcases h.raw with hr | ⟨seg, hr⟩
  · simp [hr]
  · simp only [hr, List.flatten_cons, List.flatten_nil, List.append_nil, Nat.le_refl, if_true, List.take_length]
    split
    · rename_i h0
      rw [List.length_eq_zero_iff] at h0
      simp [h0]
    · simp

theorem fit_ofBytes {m : Msg} (h : Fit m) : Hdr.ofBytes m.hdr.bytes = m.hdr := by
  have h1 := h.size
  have h2 := h.tmo
  have h3 : m.kind < 4 := by rcases h.kind with h | h | h <;> omega
  rw [fit_hdr h]
  exact ofBytes_bytes (by simp [headerDabc]) (by simp only; omega) h2 (by simp only; omega) (by simp only; omega)
    (by simp only; omega)

theorem magic_ne : headerDabc ≠ headerConnect := by
  unfold headerDabc headerConnect; omega

theorem complete_header {cf : Conf} {r : Rx} {h : Hdr} {mem : List (Option Nat)} (hs : r.stage = .header)
    (hb : Hdr.ofBytes r.got = h) (hm : h.magic = headerDabc) (h0 : h.size ≠ 0) (he : ensure r.mem h.size = some mem) :
    r.complete cf = { r with hdr := h, mem := mem, stage := .data, want := h.size, got := [] } := by
  subst hb
  unfold Rx.complete
  rw [hs]
  dsimp only
  rw [if_neg (by rw [hm]; exact magic_ne), if_neg (by rw [hm]; exact fun h => h rfl), if_neg h0, he]

/-- The receiver waits for the data of a packet. -/
structure Data (q r : Rx) (m : Msg) : Prop where
  stage : q.stage = .data
  hdr : q.hdr = m.hdr
  want : q.want = m.cmd.length + m.raw.flatten.length
  got : q.got = []
  fate : q.fate = .opened
  out : q.out = r.out

/-- The header of a packet comes. -/
theorem feed_hdr {cf : Conf} {r : Rx} {m : Msg} (hr : Waits r) (h : Fit m) : Data (r.feed cf m.hdr.bytes) r m := by
  have hc : 0 < m.cmd.length := List.length_pos_iff.2 h.cmd
  have hs := h.size
  have hsz : m.hdr.size = m.cmd.length + m.raw.flatten.length := by rw [fit_hdr h]
  obtain ⟨mem, h1, h2⟩ := ensure_some (mem := r.mem) (s := m.hdr.size) (by omega) (by omega)
  have hne : m.hdr.bytes ≠ [] := by intro h0; have := bytes_length m.hdr; rw [h0] at this; cases this
  rw [feed_whole cf r _ hr.fate hne (by rw [hr.got, hr.want, bytes_length]; rfl)]
  have hb : Hdr.ofBytes (r.got ++ m.hdr.bytes) = m.hdr := by rw [hr.got, List.nil_append]; exact fit_ofBytes h
  rw [complete_header (r := { r with got := r.got ++ m.hdr.bytes }) hr.stage hb (by rw [fit_hdr h]) (by omega) h1]
  exact ⟨rfl, rfl, hsz, rfl, hr.fate, rfl⟩

theorem feed_packet {cf : Conf} {r : Rx} {m : Msg} (hr : Waits r) (h : Fit m) (hok : cf.ok m.cmd = true) :
    Waits (r.feed cf (m.hdr.bytes ++ (m.cmd ++ m.raw.flatten))) ∧
      (r.feed cf (m.hdr.bytes ++ (m.cmd ++ m.raw.flatten))).out = r.out ++ [view m] := by
  have hc : 0 < m.cmd.length := List.length_pos_iff.2 h.cmd
  have hq := feed_hdr (cf := cf) hr h
  have hk : ¬ (m.kind = 4 ∨ m.cmd.length = 0) := by
    have := h.kind; omega
  rw [feed_append]
  generalize Rx.feed cf r m.hdr.bytes = q at hq
  rw [feed_whole cf q _ hq.fate (by simp [h.cmd]) (by rw [hq.got, hq.want, List.length_append, List.length_nil, Nat.zero_add])]
  have h1 : load ((m.cmd ++ m.raw.flatten).map some ++ q.mem.drop (m.cmd ++ m.raw.flatten).length) 0 m.cmd.length =
      some m.cmd := by
    rw [load_got (by simp)]; simp
  have h2 : load ((m.cmd ++ m.raw.flatten).map some ++ q.mem.drop (m.cmd ++ m.raw.flatten).length) m.cmd.length
      m.raw.flatten.length = some m.raw.flatten := by
    rw [load_got (by simp), List.drop_left, List.take_length]
  have h3 : (if m.raw.flatten.length > 0 then some m.raw.flatten else some []) = some m.raw.flatten := by
    split
    · rfl
    · rename_i h0
      have : m.raw.flatten = [] := List.length_eq_zero_iff.1 (by omega)
      rw [this]
  unfold Rx.complete
  rw [hq.stage]
  dsimp only
  rw [hq.got, List.nil_append]
  unfold Rx.process
  dsimp only
  rw [hq.hdr, fit_hdr h]
  dsimp only
  rw [if_neg hk, h1]
  dsimp only
  rw [hok, h2, h3]
  rcases h.kind with hk | hk | hk
  · simp only [hk, true_or, if_true, Bool.not_true, Bool.false_eq_true, if_false]
    exact ⟨⟨rfl, rfl, rfl, hq.fate⟩, by simp [view, hk, hq.out]⟩
  · simp only [hk, or_true, if_true, Bool.not_true, Bool.false_eq_true, if_false]
    exact ⟨⟨rfl, rfl, rfl, hq.fate⟩, by simp [view, hk, hq.out]⟩
  · simp only [hk, show ¬ ((3 : Nat) = 1 ∨ (3 : Nat) = 2) by omega, if_true, if_false, Bool.not_true, Bool.false_eq_true]
    exact ⟨⟨rfl, rfl, rfl, hq.fate⟩, by simp [view, hk, hq.out]⟩

theorem feed_packets {cf : Conf} {ms : List Msg} (hok : ∀ m ∈ ms, cf.ok m.cmd = true) (h : ∀ m ∈ ms, Fit m) {r : Rx}
    (hr : Waits r) :
    ∃ bs, ms.mapM Msg.send = some bs ∧ Waits (r.feed cf bs.flatten) ∧
      (r.feed cf bs.flatten).out = r.out ++ ms.map view := by
  induction ms generalizing r with
  | nil => exact ⟨[], rfl, hr, by simp [Rx.feed]⟩
  | cons m ms ih =>
    have hm := h m (List.mem_cons_self ..)
    obtain ⟨h1, h2⟩ := feed_packet hr hm (hok m (List.mem_cons_self ..))
    obtain ⟨bs, h3, h4, h5⟩ := ih (fun a ha => hok a (List.mem_cons_of_mem _ ha)) (fun a ha => h a (List.mem_cons_of_mem _ ha)) h1
    refine ⟨(m.hdr.bytes ++ (m.cmd ++ m.raw.flatten)) :: bs, ?_, ?_, ?_⟩
    · simp [List.mapM_cons, fit_send hm, h3]
    · rw [List.flatten_cons, feed_append]; exact h4
    · rw [List.flatten_cons, feed_append, h5, h2]; simp

theorem waits_init : Waits {} := ⟨rfl, rfl, rfl, rfl⟩

/-- **C78**, framing: whatever messages are sent, the other side gets each of them once, whole and in order, with its raw
data, and is then ready for the next one. -/
theorem C78_framing (cf : Conf) (ms : List Msg) (hok : ∀ m ∈ ms, cf.ok m.cmd = true) (h : ∀ m ∈ ms, Fit m) :
    ∃ bs, ms.mapM Msg.send = some bs ∧ (Rx.feed cf {} bs.flatten).out = ms.map view ∧
      (Rx.feed cf {} bs.flatten).fate = .opened ∧ (Rx.feed cf {} bs.flatten).got = [] := by
  obtain ⟨bs, h1, h2, h3⟩ := feed_packets hok h waits_init
  exact ⟨bs, h1, by rw [h3]; rfl, h2.fate, h2.got⟩

example : Fit ⟨1, 5000, [1, 2, 3], [[7, 8]]⟩ :=
  ⟨by simp, by simp, by simp, Or.inr ⟨_, rfl⟩, by simp⟩

/-- **C78**, only whole packets: while a message is not complete, nothing of it is handed over. -/
theorem C78_incomplete (cf : Conf) (ms : List Msg) (hok : ∀ m ∈ ms, cf.ok m.cmd = true) (h : ∀ m ∈ ms, Fit m)
    (m : Msg) (hm : Fit m) (b l l' : List Nat) (hb : m.send = some b) (hl : b = l ++ l') (hl' : l' ≠ []) :
    ∃ bs, ms.mapM Msg.send = some bs ∧ (Rx.feed cf {} (bs.flatten ++ l)).out = ms.map view ∧
      (Rx.feed cf {} (bs.flatten ++ l)).fate = .opened := by
  obtain ⟨bs, h1, h2, h3⟩ := feed_packets hok h waits_init
  refine ⟨bs, h1, ?_⟩
  rw [feed_append]
  generalize hr : Rx.feed cf {} bs.flatten = r at h2 h3
  have hout : r.out = ms.map view := by rw [h3]; rfl
  have hpos := List.length_pos_iff.2 hl'
  rw [fit_send hm, Option.some.injEq] at hb
  by_cases hlen : l.length < 24
  · rw [feed_part cf r l h2.fate (by rw [h2.got, h2.want]; simpa using hlen)]
    exact ⟨hout, h2.fate⟩
  · have hb' : m.hdr.bytes ++ (m.cmd ++ m.raw.flatten) = l ++ l' := by rw [hb, hl]
    have hpre : l = m.hdr.bytes ++ l.drop 24 := by
      have h4 := congrArg (List.take 24) hb'
      rw [List.take_append_of_le_length (Nat.le_of_eq (bytes_length _).symm),
        List.take_of_length_le (Nat.le_of_eq (bytes_length _)),
        List.take_append_of_le_length (by omega)] at h4
      rw [h4, List.take_append_drop]
    have hsz := congrArg List.length hb'
    simp only [List.length_append, bytes_length] at hsz
    have hq := feed_hdr (cf := cf) h2 hm
    rw [hpre, feed_append]
    generalize Rx.feed cf r m.hdr.bytes = q at hq
    rw [feed_part cf q _ hq.fate (by rw [hq.got, hq.want, List.length_drop, List.length_nil]; omega)]
    exact ⟨hq.out.trans hout, hq.fate⟩

/-- What holds for the receiver whatever comes. -/
structure Verdict (cf : Conf) (r : Rx) : Prop where
  outside : r.fate = .outside → r.hdr.size < r.hdr.cmd + r.hdr.raw
  hangs : r.fate = .hangs → 2147483648 ≤ r.hdr.size
  closed : r.fate = .closed → r.hdr.magic ≠ headerDabc ∨ r.hdr.kind = 4 ∨ r.hdr.cmd = 0 ∨ ∃ c, cf.ok c = false
  data : r.fate = .opened → r.stage = .data → r.want = r.hdr.size ∧ r.want < r.mem.length
  dev : r.fate = .opened → r.stage = .dev → r.hdr.magic ≠ headerDabc
  room : r.fate = .opened → r.got.length < r.want

theorem verdict_init {cf : Conf} : Verdict cf {} := by
  refine ⟨?_, ?_, ?_, ?_, ?_, ?_⟩ <;> intro h <;> first | (cases h; done) | (intro h'; cases h') | simp

theorem verdict_process {cf : Conf} {r : Rx} {l : List Nat} {rest : List (Option Nat)} (hf : r.fate = .opened)
    (hm : r.hdr.size ≠ 0 → r.mem = l.map some ++ rest ∧ l.length = r.hdr.size) : Verdict cf (r.process cf) := by
  have hload : ∀ pos len, load r.mem pos len = none → 0 < len → r.hdr.size < pos + len := by
    intro pos len hl hp
    refine Nat.lt_of_not_le fun hle => ?_
    obtain ⟨h1, h2⟩ := hm (by omega)
    rw [h1, load_got (by omega)] at hl
    cases hl
  have close : ∀ t : Rx, t.fate = .closed → (t.hdr.magic ≠ headerDabc ∨ t.hdr.kind = 4 ∨ t.hdr.cmd = 0 ∨ ∃ c, cf.ok c = false) →
      Verdict cf t := by
    intro t t1 t2
    refine ⟨?_, ?_, fun _ => t2, ?_, ?_, ?_⟩ <;> intro h <;> rw [t1] at h <;> cases h
  have out : ∀ t : Rx, t.fate = .outside → t.hdr.size < t.hdr.cmd + t.hdr.raw → Verdict cf t := by
    intro t t1 t2
    refine ⟨fun _ => t2, ?_, ?_, ?_, ?_, ?_⟩ <;> intro h <;> rw [t1] at h <;> cases h
  have next : ∀ t : Rx, t.fate = .opened → t.stage = .header → t.want = 24 → t.got = [] → Verdict cf t := by
    intro t t1 t2 t3 t4
    refine ⟨?_, ?_, ?_, ?_, ?_, ?_⟩
    · intro h; rw [t1] at h; cases h
    · intro h; rw [t1] at h; cases h
    · intro h; rw [t1] at h; cases h
    · intro _ h; rw [t2] at h; cases h
    · intro _ h; rw [t2] at h; cases h
    · intro _; rw [t3, t4]; exact Nat.lt_of_sub_eq_succ rfl
  unfold Rx.process
  split
  · rename_i hc
    exact close _ rfl (hc.elim (fun h => Or.inr (Or.inl h)) (fun h => Or.inr (Or.inr (Or.inl h))))
  · rename_i hc
    rw [not_or] at hc
    split
    · rename_i hl
      have := hload 0 r.hdr.cmd hl (by omega)
      exact out _ rfl (by simp only; omega)
    · rename_i cmd hl
      split
      · rename_i hk
        exact close _ rfl (Or.inr (Or.inr (Or.inr ⟨cmd, by simpa using hk⟩)))
      · dsimp only
        split
        · split
          · rename_i hl'
            split at hl'
            · rename_i hr
              exact out _ rfl (hload _ _ hl' hr)
            · cases hl'
          · exact next _ hf rfl rfl rfl
        · split
          · exact next _ hf rfl rfl rfl
          · exact next _ hf rfl rfl rfl

theorem ensure_none {mem : List (Option Nat)} {s : Nat} (h : ensure mem s = none) : 2147483648 ≤ s := by
  refine Nat.le_of_not_lt fun hs => ?_
  by_cases h0 : s = 0
  · subst h0
    simp [ensure] at h
  · obtain ⟨m, h1, _⟩ := ensure_some (mem := mem) (s := s) (by omega) hs
    rw [h] at h1
    cases h1

theorem ensure_length {mem m : List (Option Nat)} {s : Nat} (h0 : s ≠ 0) (h : ensure mem s = some m) : s < m.length := by
  by_cases hs : s < 2147483648
  · obtain ⟨m', h1, h2⟩ := ensure_some (mem := mem) (s := s) (by omega) hs
    rw [h] at h1
    cases h1
    exact h2
  · unfold ensure at h
    split at h
    · rename_i hc; cases h; exact hc.2
    · rw [grow_none (by omega) 64 0 2048 (by omega) rfl] at h
      cases h

theorem verdict_complete {cf : Conf} {r : Rx} (h : Verdict cf { r with got := [] }) (hf : r.fate = .opened)
    (hg : r.got.length = r.want) : Verdict cf (r.complete cf) := by
  have close : ∀ t : Rx, t.fate = .closed → t.hdr.magic ≠ headerDabc → Verdict cf t := by
    intro t t1 t2
    refine ⟨?_, ?_, fun _ => Or.inl t2, ?_, ?_, ?_⟩ <;> intro h <;> rw [t1] at h <;> cases h
  unfold Rx.complete
  cases hs : r.stage with
  | data =>
    dsimp only
    refine verdict_process (l := r.got) (rest := r.mem.drop r.got.length) hf fun _ => ⟨rfl, ?_⟩
    rw [hg]; exact (h.data hf hs).1
  | dev => exact close _ rfl (h.dev hf hs)
  | header =>
    dsimp only
    split
    · rename_i hm
      have hne : (Hdr.ofBytes r.got).magic ≠ headerDabc := by rw [hm]; exact magic_ne.symm
      split
      · refine ⟨?_, ?_, ?_, ?_, fun _ _ => hne, fun _ => ?_⟩
        · intro h; rw [show _ = r.fate from rfl, hf] at h; cases h
        · intro h; rw [show _ = r.fate from rfl, hf] at h; cases h
        · intro h; rw [show _ = r.fate from rfl, hf] at h; cases h
        · intro _ h; cases h
        · exact Nat.lt_of_sub_eq_succ rfl
      · exact close _ rfl hne
    · split
      · rename_i hm; exact close _ rfl hm
      · split
        · rename_i h0
          exact verdict_process (l := []) (rest := []) hf fun h => absurd h0 h
        · rename_i h0
          split
          · rename_i he
            refine ⟨?_, fun _ => ensure_none he, ?_, ?_, ?_, ?_⟩ <;> intro h <;> cases h
          · rename_i mem he
            refine ⟨?_, ?_, ?_, fun _ _ => ⟨rfl, ensure_length h0 he⟩, ?_, fun _ => Nat.pos_of_ne_zero h0⟩
            · intro h; rw [show _ = r.fate from rfl, hf] at h; cases h
            · intro h; rw [show _ = r.fate from rfl, hf] at h; cases h
            · intro h; rw [show _ = r.fate from rfl, hf] at h; cases h
            · intro _ h; cases h

theorem verdict_byte {cf : Conf} {r : Rx} (h : Verdict cf r) (b : Nat) : Verdict cf (r.byte cf b) := by
  unfold Rx.byte
  split
  · exact h
  · rename_i hf
    have hf' : r.fate = .opened := Classical.byContradiction hf
    split
    · rename_i hw
      refine verdict_complete ?_ hf' (by simpa using hw)
      exact ⟨h.outside, h.hangs, h.closed, h.data, h.dev, fun ho => Nat.lt_of_le_of_lt (Nat.zero_le _) (h.room ho)⟩
    · rename_i hw
      refine ⟨h.outside, h.hangs, h.closed, h.data, h.dev, fun ho => ?_⟩
      have := h.room ho
      simp only [List.length_append, List.length_singleton]
      omega

theorem verdict_feed {cf : Conf} {r : Rx} (l : List Nat) (h : Verdict cf r) : Verdict cf (r.feed cf l) := by
  induction l generalizing r with
  | nil => exact h
  | cons b l ih => exact ih (verdict_byte h b)

/-- **C78**, robustness for every stream of bytes: memory which does not belong to the packet is read only when the sizes
in its header contradict each other, the buffer cannot be made only for 2 GB and more, and the connection is given up
only for a wrong header, an empty or unreadable command or an end packet. -/
theorem C78_verdict (cf : Conf) (l : List Nat) :
    ((Rx.feed cf {} l).fate = .outside → (Rx.feed cf {} l).hdr.size < (Rx.feed cf {} l).hdr.cmd + (Rx.feed cf {} l).hdr.raw) ∧
    ((Rx.feed cf {} l).fate = .hangs → 2147483648 ≤ (Rx.feed cf {} l).hdr.size) ∧
    ((Rx.feed cf {} l).fate = .closed → (Rx.feed cf {} l).hdr.magic ≠ headerDabc ∨ (Rx.feed cf {} l).hdr.kind = 4 ∨
      (Rx.feed cf {} l).hdr.cmd = 0 ∨ ∃ c, cf.ok c = false) := by
  have h := verdict_feed (cf := cf) l verdict_init
  exact ⟨h.outside, h.hangs, h.closed⟩

/-- **C78**, every write is inside of the buffer: also for streams made up by somebody else. -/
theorem C78_inside (cf : Conf) (l : List Nat) (h : (Rx.feed cf {} l).stage = .data) (ho : (Rx.feed cf {} l).fate = .opened) :
    (Rx.feed cf {} l).want < (Rx.feed cf {} l).mem.length ∧ (Rx.feed cf {} l).got.length < (Rx.feed cf {} l).want := by
  have := verdict_feed (cf := cf) l verdict_init
  exact ⟨(this.data ho h).2, this.room ho⟩

/-- **C78**, a connection request (100 bytes which begin with another magic number) is handed over to the device as it is
and the channel lets the connection go. -/
theorem C78_redirect (cf : Conf) (hcf : cf.redirect = true) (rest : List Nat) (kind tmo size cmd raw : Nat)
    (h2 : kind < 4294967296) (h3 : tmo < 4294967296) (h4 : size < 4294967296) (h5 : cmd < 4294967296) (h6 : raw < 4294967296)
    (hr : rest.length = 76) :
    (Rx.feed cf {} (Hdr.bytes ⟨headerConnect, kind, tmo, size, cmd, raw⟩ ++ rest)).out =
        [.redirect (Hdr.bytes ⟨headerConnect, kind, tmo, size, cmd, raw⟩ ++ rest)] ∧
      (Rx.feed cf {} (Hdr.bytes ⟨headerConnect, kind, tmo, size, cmd, raw⟩ ++ rest)).fate = .closed := by
  have hb := ofBytes_bytes (h := ⟨headerConnect, kind, tmo, size, cmd, raw⟩) (by simp [headerConnect]) h2 h3 h4 h5 h6
  have hl := bytes_length ⟨headerConnect, kind, tmo, size, cmd, raw⟩
  have hm : (⟨headerConnect, kind, tmo, size, cmd, raw⟩ : Hdr).magic = headerConnect := rfl
  generalize (⟨headerConnect, kind, tmo, size, cmd, raw⟩ : Hdr) = h at *
  have hne : h.bytes ≠ [] := by intro h0; rw [h0] at hl; cases hl
  rw [feed_append, feed_whole cf {} h.bytes rfl hne (by rw [hl]; rfl)]
  have h1 : Rx.complete { ({} : Rx) with got := ([] : List Nat) ++ h.bytes } cf =
      { ({} : Rx) with hdr := h, stage := .dev, want := 76, got := [] } := by
    rw [List.nil_append]
    unfold Rx.complete
    dsimp only
    rw [hb, if_pos hm, if_pos hcf]
    rfl
  rw [show Rx.complete { ({} : Rx) with got := ({} : Rx).got ++ h.bytes } cf = _ from h1]
  have hrne : rest ≠ [] := by intro h0; rw [h0] at hr; cases hr
  rw [feed_whole cf _ rest rfl hrne (by simpa using hr)]
  exact ⟨rfl, rfl⟩

example : (List.replicate 76 0).length = 76 := rfl

/-- **C78** is violated: the sizes in a header are not compared with each other, a command which is longer than its packet
is read from memory outside of the buffer. -/
theorem C78_outside_counterexample : (Rx.feed {} {} (Hdr.bytes ⟨headerDabc, 1, 0, 0, 5, 0⟩)).fate = .outside := by
  decide

/-- **C78** is violated: a header without data gets the data of the packet before, its command is executed again. -/
theorem C78_replay_counterexample :
    (Rx.feed {} {} (Hdr.bytes ⟨headerDabc, 1, 0, 2, 2, 0⟩ ++ [7, 8] ++ Hdr.bytes ⟨headerDabc, 1, 0, 0, 2, 0⟩)).out =
      [.packet 1 0 [7, 8] [], .packet 1 0 [7, 8] []] := by
  decide +kernel

/-- **C78** is violated: for 2 GB and more the size of the buffer gets zero and the loop does not end. -/
theorem C78_hangs_counterexample (cf : Conf) (kind tmo cmd raw size : Nat) (hk : kind < 4294967296)
    (ht : tmo < 4294967296) (hc : cmd < 4294967296) (hr : raw < 4294967296) (hs : size < 4294967296)
    (h : 2147483648 ≤ size) : (Rx.feed cf {} (Hdr.bytes ⟨headerDabc, kind, tmo, size, cmd, raw⟩)).fate = .hangs := by
  have hb : Hdr.ofBytes (Hdr.bytes ⟨headerDabc, kind, tmo, size, cmd, raw⟩) = ⟨headerDabc, kind, tmo, size, cmd, raw⟩ :=
    ofBytes_bytes (show headerDabc < 4294967296 by unfold headerDabc; omega) hk ht hs hc hr
  have hlen := bytes_length ⟨headerDabc, kind, tmo, size, cmd, raw⟩
  generalize Hdr.bytes ⟨headerDabc, kind, tmo, size, cmd, raw⟩ = l at hb hlen
  have hne : l ≠ [] := by intro h0; rw [h0] at hlen; cases hlen
  rw [feed_whole cf {} l rfl hne (by rw [hlen]; rfl)]
  have he : ensure [] size = none := by
    unfold ensure
    rw [if_neg (by simp), if_neg (by omega), grow_none h 64 0 2048 (by omega) rfl]
    rfl
  unfold Rx.complete
  dsimp only
  rw [List.nil_append, hb]
  dsimp only
  rw [if_neg magic_ne, if_neg (fun h => h rfl), if_neg (by omega), he]

/-- **C78** is violated: raw data in two segments are read beyond the first one. -/
theorem C78_segments_counterexample (kind tmo : Nat) (cmd seg seg' : List Nat) (h : seg' ≠ [])
    (hl : seg.length + seg'.length < 4294967296) : (Msg.mk kind tmo cmd [seg, seg']).send = none := by
  have hp := List.length_pos_iff.2 h
  have hr : (Msg.mk kind tmo cmd [seg, seg']).rawSize = seg.length + seg'.length := by
    unfold Msg.rawSize
    simp only [List.map_cons, List.map_nil, List.sum_cons, List.sum_nil, Nat.add_zero]
    exact u32_of_lt hl
  unfold Msg.send
  rw [hr, if_neg (by omega)]
  dsimp only
  rw [if_neg (by omega)]

/-- **C78**, timeout: a command with a timeout of a second or more is given the same timeout in whole seconds at the
other side. -/
theorem C78_timeout_partial (t : Rat) (h : 1 ≤ t) :
    ∃ r, recvTimeout (sendTimeout t) = some r ∧ r ≤ t ∧ t < r + 1 := by
  have hf : (1 : Int) ≤ t.floor := Rat.le_floor_iff.2 (by simpa using h)
  have hn : ((t.floor.toNat : Nat) : Int) = t.floor := Int.toNat_of_nonneg (by omega)
  refine ⟨(t.floor : Rat), ?_, Rat.floor_le t, ?_⟩
  · unfold recvTimeout sendTimeout
    have h0 : t > 0 := by linarith
    simp only [if_pos h0]
    have hp : t.floor.toNat * 1000 > 0 := by omega
    rw [if_pos hp]
    have : (((t.floor.toNat * 1000 : Nat)) : Rat) = (t.floor : Rat) * 1000 := by
      generalize t.floor = z at *
      obtain ⟨k, rfl⟩ := Int.eq_ofNat_of_zero_le (show 0 ≤ z by omega)
      simp
    rw [this]
    simp
  · have := Rat.lt_floor_add_one t
    push_cast at this
    exact this

/-- **C78** is violated: a timeout below one second is lost on the way, the command is executed without timeout. -/
theorem C78_timeout_counterexample (t : Rat) (h0 : 0 < t) (h1 : t < 1) : recvTimeout (sendTimeout t) = none := by
  have hf : t.floor < 1 := Rat.floor_lt_iff.2 (by simpa using h1)
  unfold recvTimeout sendTimeout
  simp only [if_pos h0]
  rw [if_neg (by omega)]

end Verif.SockWire
