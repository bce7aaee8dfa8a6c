import Verif.BinaryFileLemmas

/-! # C28: binary files return what was written; C58: size limit of output files; C57 for binary files -/

namespace Verif.BinaryFile

open Verif.Bytes Verif.File

/-- One write into the current file. -/
theorem write_inv {o : Output} {old : List (List Data)} {cur : List Data} {b : Buf} (h : Inv o old cur) (hb : b.Valid)
    (ho : o.w.opened = true) (hfit : o.limitMB > 0 → o.current + b.data.bytes.length ≤ o.limitMB * (1024 * 1024) ∨ cur = [])
    (hsplit : cur = [] → ∀ p, old.getLast? = some p → payload p + b.data.bytes.length > o.limitMB * (1024 * 1024)) :
    Inv (writeData o b.typ b.segs).2 old (if (writeData o b.typ b.segs).1 then cur ++ [b.data] else cur) := by
  obtain ⟨hd, hf⟩ := h.opened ho
  obtain ⟨ok, w, e, hw⟩ := writeData_spec hb ho hd
  rw [e]
  dsimp only
  rcases hw with ⟨a, b', c, d⟩ | ⟨a, b', junk, c, d, e'⟩
  · dsimp only at a b' c d
    subst a
    rw [if_pos rfl]
    have hdata : w.file.data = fileHeader ++ storedAll (cur ++ [b.data]) := by
      rw [d, hf, storedAll_append, List.append_assoc]
      simp [storedAll]
    have hpay : payload (cur ++ [b.data]) = payload cur + b.data.bytes.length := by
      rw [payload_append]
      simp [payload]
    refine ⟨h.closed, ?_, fun _ => ⟨c, hdata⟩, ?_, ?_, ?_, h.single, ?_, ?_, ?_⟩
    · show Holds _ w.file.data
      rw [hdata]
      exact holds_open
    · intro p hp x hx
      rw [List.mem_append, List.mem_singleton] at hp
      rcases hp with hp | hp
      · exact h.fine p (List.mem_append_left _ hp) x hx
      · subst hp
        rw [List.mem_append, List.mem_singleton] at hx
        rcases hx with hx | hx
        · exact h.fine cur (List.mem_append_right _ (List.mem_singleton.2 rfl)) x hx
        · rw [hx]
          exact hb.fine
    · show o.current + _ = _
      rw [h.current, hpay, if_pos rfl]
    · intro hl p hp
      change o.limitMB > 0 at hl
      rw [List.mem_append, List.mem_singleton] at hp
      rcases hp with hp | hp
      · exact h.limit hl p (List.mem_append_left _ hp)
      · subst hp
        rcases hfit hl with h1 | h1
        · left
          show _ ≤ o.limitMB * _
          rw [hpay, ← h.current]
          exact h1
        · right
          rw [h1]
          simp
    · intro i p q x hp hq hx
      show payload p + x.bytes.length > o.limitMB * (1024 * 1024)
      rcases Nat.lt_trichotomy (i + 1) old.length with hi | hi | hi
      · rw [List.getElem?_append_left (by omega)] at hp hq
        exact h.split i p q x (by rw [List.getElem?_append_left (by omega)]; exact hp) (by rw [List.getElem?_append_left (by omega)]; exact hq) hx
      · rw [List.getElem?_append_left (by omega)] at hp
        rw [List.getElem?_append_right (by omega), ← hi, Nat.sub_self] at hq
        have hq : cur ++ [b.data] = q := by simpa using hq
        subst hq
        cases hc : cur with
        | nil =>
          rw [hc] at hx
          have hx : b.data = x := by simpa using hx
          subst hx
          refine hsplit hc p ?_
          rw [List.getLast?_eq_getElem?, ← hp]
          congr 1
          omega
        | cons y cur' =>
          refine h.split i p cur x (by rw [List.getElem?_append_left (by omega)]; exact hp) ?_ ?_
          · rw [List.getElem?_append_right (by omega), ← hi, Nat.sub_self]
            rfl
          · rw [hc] at hx ⊢
            simpa using hx
      · rw [List.getElem?_append_right (by omega)] at hq
        have : i + 1 - old.length = (i - old.length) + 1 := by omega
        rw [this] at hq
        simp at hq
    · show o.totalSize + _ = _
      rw [if_pos rfl, h.size]
      simp only [List.flatten_append, List.flatten_cons, List.flatten_nil, List.append_nil, payload_append]
      simp [payload, Nat.add_assoc]
    · show o.totalBufs + _ = _
      rw [if_pos rfl, h.bufs]
      simp [Nat.add_assoc]
  · dsimp only at a b' e'
    subst a
    rw [if_neg (by simp)]
    refine ⟨h.closed, ?_, ?_, h.fine, h.current, h.limit, h.single, h.split, h.size, h.bufs⟩
    · show Holds _ w.file.data
      exact .full junk b.data hb.fine c d (by rw [e', hf, List.append_assoc])
    · intro h1
      change w.opened = true at h1
      rw [b'] at h1
      cases h1

theorem start_inv {o : Output} {old : List (List Data)} {cur : List Data} (h : Inv o old cur) (hl : o.limitMB > 0) :
    Inv (startNewFile o).2 (old ++ [cur]) [] := by
  obtain ⟨h1, h2, h3⟩ := openWriting_holds o.w.file.room
  refine ⟨?_, h1, h2, ?_, rfl, ?_, ?_, ?_, ?_, ?_⟩
  · exact List.rel_append h.closed (.cons h.now .nil)
  · intro p hp d hd
    rw [List.mem_append, List.mem_singleton] at hp
    rcases hp with hp | hp
    · exact h.fine p hp d hd
    · subst hp
      cases hd
  · intro _ p hp
    rw [List.mem_append, List.mem_singleton] at hp
    rcases hp with hp | hp
    · exact h.limit hl p hp
    · subst hp
      exact Or.inr (by simp)
  · intro h0
    change o.limitMB = 0 at h0
    omega
  · intro i p q d hp hq hd
    show payload p + d.bytes.length > o.limitMB * (1024 * 1024)
    have : i + 1 < (old ++ [cur]).length := by
      by_contra hi
      rw [List.getElem?_append_right (by omega)] at hq
      cases hk : i + 1 - (old ++ [cur]).length with
      | zero =>
        rw [hk] at hq
        have : [] = q := by simpa using hq
        subst this
        cases hd
      | succ k => rw [hk] at hq; simp at hq
    rw [List.getElem?_append_left (by omega)] at hp hq
    exact h.split i p q d hp hq hd
  · show o.totalSize = _
    rw [h.size]
    simp
  · show o.totalBufs = _
    rw [h.bufs]
    simp

/-- After a write the current file has a buffer, or it is closed. -/
theorem write_started {o : Output} {old P : List (List Data)} {cur : List Data} {b : Buf} (h : Inv o old cur) (hb : b.Valid)
    (ho : o.w.opened = true) : (writeData o b.typ b.segs).2.w.opened = true →
      (if (writeData o b.typ b.segs).1 then cur ++ [b.data] else cur) = [] → old = P := by
  obtain ⟨hd, hf⟩ := h.opened ho
  obtain ⟨ok, w, e, hw⟩ := writeData_spec hb ho hd
  rw [e]
  rcases hw with ⟨a, b', c, d⟩ | ⟨a, b', junk, c, d, e'⟩
  · dsimp only at a
    subst a
    intro _ h1
    simp at h1
  · dsimp only at b'
    intro h1
    change w.opened = true at h1
    rw [b'] at h1
    cases h1

/-- One call of `Write_Buffer`. -/
theorem step_inv {o : Output} {old : List (List Data)} {cur : List Data} {b : Buf} (h : Inv o old cur) (hne : o.w.opened = true → cur = [] → old = [])
    (hb : b.Valid) : ∃ old' cur', Inv (writeBuffer o b.typ b.segs).2 old' cur' ∧
      ((writeBuffer o b.typ b.segs).2.w.opened = true → cur' = [] → old' = []) ∧
      (old' ++ [cur']).flatten = (old ++ [cur]).flatten ++ (if (writeBuffer o b.typ b.segs).1 then [b.data] else []) := by
  unfold writeBuffer
  cases ho : o.w.opened with
  | false =>
    rw [if_pos (by simp)]
    exact ⟨old, cur, h, fun h1 => hne h1, by simp⟩
  | true =>
    rw [if_neg (by simp)]
    cases hc : checkNext o b.segs.flatten.length with
    | false =>
      rw [if_neg (by simp)]
      refine ⟨old, _, write_inv h hb ho ?_ ?_, ?_, ?_⟩
      · intro hl
        unfold checkNext at hc
        rw [if_pos hl, decide_eq_false_iff_not] at hc
        left
        show o.current + b.segs.flatten.length ≤ _
        omega
      · intro hcur p hp
        rw [hne ho hcur] at hp
        cases hp
      · exact write_started h hb ho
      · cases (writeData o b.typ b.segs).1 <;> simp
    | true =>
      rw [if_pos rfl]
      have hlim : o.limitMB > 0 ∧ o.current + b.segs.flatten.length > o.limitMB * (1024 * 1024) := by
        unfold checkNext at hc
        by_cases hl : o.limitMB > 0
        · rw [if_pos hl] at hc
          exact ⟨hl, of_decide_eq_true hc⟩
        · rw [if_neg hl] at hc
          cases hc
      have hs := start_inv h hlim.1
      obtain ⟨_, _, h3⟩ := openWriting_holds o.w.file.room
      have e1 : (startNewFile o).1 = (openWriting o.w.file.room).1 := rfl
      have e2 : (startNewFile o).2.w = (openWriting o.w.file.room).2 := rfl
      have e3 : (startNewFile o).2.limitMB = o.limitMB := rfl
      generalize startNewFile o = x at hs e1 e2 e3
      obtain ⟨ok, o'⟩ := x
      dsimp only at hs e1 e2 e3
      cases ok with
      | false =>
        refine ⟨_, _, hs, ?_, by simp⟩
        intro h1
        dsimp only at h1
        rw [e2, h3, ← e1] at h1
        cases h1
      | true =>
        dsimp only
        have ho' : o'.w.opened = true := by rw [e2, h3, ← e1]
        refine ⟨_, _, write_inv hs hb ho' (fun _ => Or.inr rfl) ?_, ?_, ?_⟩
        · intro _ p hp
          rw [List.getLast?_append, List.getLast?_singleton] at hp
          have hp : cur = p := by simpa using hp
          subst hp
          rw [e3, ← h.current]
          exact hlim.2
        · exact write_started hs hb ho'
        · cases (writeData o' b.typ b.segs).1 <;> simp

theorem writes_inv (bufs : List Buf) : ∀ (o : Output) (old : List (List Data)) (cur : List Data), Inv o old cur →
    (o.w.opened = true → cur = [] → old = []) → (∀ b ∈ bufs, b.Valid) →
    ∃ old' cur', Inv (writes o bufs).2 old' cur' ∧ (old' ++ [cur']).flatten = (old ++ [cur]).flatten ++ accepted (writes o bufs).1 bufs := by
  induction bufs with
  | nil => intro o old cur h _ _; exact ⟨old, cur, h, by simp [accepted, writes]⟩
  | cons b bufs ih =>
    intro o old cur h hne hb
    obtain ⟨old1, cur1, h1, h2, h3⟩ := step_inv h hne (hb b List.mem_cons_self)
    obtain ⟨old2, cur2, h4, h5⟩ := ih _ old1 cur1 h1 h2 fun x hx => hb x (List.mem_cons_of_mem _ hx)
    refine ⟨old2, cur2, h4, ?_⟩
    rw [h5, h3, List.append_assoc]
    congr 1
    rw [writes]
    dsimp only
    rw [accepted]
    cases (writeBuffer o b.typ b.segs).1 <;> simp

/-- The buffers in the files of an output after the calls of `Write_Buffer` for `bufs`. -/
theorem files_inv (limitMB room : Nat) (bufs : List Buf) (hb : ∀ b ∈ bufs, b.Valid) :
    ∃ old cur, Inv (writes (writeInit limitMB room).2 bufs).2 old cur ∧
      (old ++ [cur]).flatten = accepted (writes (writeInit limitMB room).2 bufs).1 bufs := by
  obtain ⟨old, cur, h1, h2⟩ := writes_inv bufs _ [] [] (init_inv limitMB room) (fun _ _ => rfl) hb
  exact ⟨old, cur, h1, by simpa using h2⟩

theorem Inv.holds {o : Output} {old : List (List Data)} {cur : List Data} (h : Inv o old cur) :
    List.Forall₂ Holds (old ++ [cur]) o.files := List.rel_append h.closed (.cons h.now .nil)

theorem limit_const (o : Output) (typ : Nat) (segs : List (List Byte)) : (writeBuffer o typ segs).2.limitMB = o.limitMB := by
  have hd : ∀ o : Output, (writeData o typ segs).2.limitMB = o.limitMB := by
    intro o
    unfold writeData
    split
    · rfl
    · split <;> rfl
  have hs : (startNewFile o).2.limitMB = o.limitMB := rfl
  unfold writeBuffer
  split
  · rfl
  · split
    · generalize startNewFile o = x at hs
      obtain ⟨ok, o'⟩ := x
      cases ok with
      | false => exact hs
      | true => exact (hd o').trans hs
    · exact hd o

theorem limit_writes (bufs : List Buf) : ∀ o : Output, (writes o bufs).2.limitMB = o.limitMB := by
  induction bufs with
  | nil => intro o; rfl
  | cons b bufs ih =>
    intro o
    show (writes (writeBuffer o b.typ b.segs).2 bufs).2.limitMB = o.limitMB
    rw [ih, limit_const]

/-- **C28**: the buffers answered with `do_Ok` are distributed over the files in order, and every file, cut after any
number `k` of bytes, delivers exactly the buffers which are complete in the first `k` bytes, each once and in order, and
then nothing any more.  This holds for every size limit of the files, and for a disk which gets full at any byte. -/
theorem C28_binary_file (limitMB room : Nat) (bufs : List Buf) (hb : ∀ b ∈ bufs, b.Valid) :
    ∃ parts : List (List Data), parts.flatten = accepted (writes (writeInit limitMB room).2 bufs).1 bufs ∧
      List.Forall₂ (fun part file => ∀ n k, readFile n (file.take k) = delivery n (complete (k - 16) part)) parts
        (writes (writeInit limitMB room).2 bufs).2.files := by
  obtain ⟨old, cur, h, e⟩ := files_inv limitMB room bufs hb
  refine ⟨old ++ [cur], e, ?_⟩
  have := h.holds
  have hf := h.fine
  generalize (writes (writeInit limitMB room).2 bufs).2.files = files at this
  generalize old ++ [cur] = parts at this hf
  clear e h
  induction this with
  | nil => exact .nil
  | cons h1 _ ih =>
    exact .cons (fun n k => readFile_cut h1 (hf _ List.mem_cons_self) n k) (ih fun p hp => hf p (List.mem_cons_of_mem _ hp))

theorem filterMap_replicate (n : Nat) : (List.replicate n (none : Option Data)).filterMap id = [] := by
  induction n with
  | zero => rfl
  | succ n ih => rw [List.replicate_succ, List.filterMap_cons]; exact ih

theorem delivery_all (n : Nat) : ∀ l : List Data, l.length ≤ n → (delivery n l).filterMap id = l := by
  induction n with
  | zero =>
    intro l h
    rw [List.length_eq_zero_iff.1 (Nat.le_zero.1 h)]
    rfl
  | succ n ih =>
    intro l h
    cases l with
    | nil => rw [delivery_nil, filterMap_replicate]
    | cons d l =>
      rw [delivery_cons, List.filterMap_cons]
      show d :: (delivery n l).filterMap id = d :: l
      rw [ih l (by simpa using h)]

theorem complete_all : ∀ (l : List Data) (k : Nat), (storedAll l).length ≤ k → complete k l = l := by
  intro l
  induction l with
  | nil => intros; rfl
  | cons d l ih =>
    intro k h
    rw [storedAll_cons, List.length_append, stored_length] at h
    rw [complete, if_pos (by omega), ih _ (by omega)]

theorem storedAll_length (l : List Data) : l.length ≤ (storedAll l).length := by
  induction l with
  | nil => simp
  | cons d l ih =>
    rw [storedAll_cons, List.length_append, stored_length, List.length_cons]
    omega

theorem contents_holds {l : List Data} {data : List Byte} (h : Holds l data) (hl : ∀ d ∈ l, Fine d) : contents data = l := by
  have := readFile_cut h hl data.length data.length
  rw [List.take_length] at this
  unfold contents
  rw [this]
  cases h with
  | head e hlen =>
    subst e
    rw [complete, delivery_nil, filterMap_replicate]
  | full junk d hd hp hlt e =>
    have hlen : data.length = 16 + ((storedAll l).length + junk.length) := by
      rw [e, List.length_append, List.length_append, fileHeader_length]
    rw [complete_all l _ (by omega), delivery_all]
    have := storedAll_length l
    omega

theorem Inv.contents {o : Output} {old : List (List Data)} {cur : List Data} (h : Inv o old cur) :
    o.files.map contents = old ++ [cur] := by
  have h1 := h.holds
  have hf := h.fine
  generalize o.files = files at h1
  generalize old ++ [cur] = parts at h1 hf
  clear h
  induction h1 with
  | nil => rfl
  | cons h1 _ ih =>
    rw [List.map_cons, contents_holds h1 (hf _ List.mem_cons_self), ih fun p hp => hf p (List.mem_cons_of_mem _ hp)]

/-- **C28**: reading all files delivers exactly the buffers whose writing was answered with `do_Ok`, in order. -/
theorem C28_roundtrip (limitMB room : Nat) (bufs : List Buf) (hb : ∀ b ∈ bufs, b.Valid) :
    ((writes (writeInit limitMB room).2 bufs).2.files.map contents).flatten = accepted (writes (writeInit limitMB room).2 bufs).1 bufs := by
  obtain ⟨old, cur, h, e⟩ := files_inv limitMB room bufs hb
  rw [h.contents, e]

/-- Writing with enough room. -/
theorem writeData_room {o : Output} {b : Buf} (hb : b.Valid) (ho : o.w.opened = true) (hd : o.w.datalength = 0)
    (hr : 16 + b.data.bytes.length ≤ o.w.file.room) :
    (writeData o b.typ b.segs).1 = true ∧ (writeData o b.typ b.segs).2.w.opened = true ∧ (writeData o b.typ b.segs).2.w.datalength = 0 ∧
      o.w.file.room ≤ (writeData o b.typ b.segs).2.w.file.room + (16 + b.data.bytes.length) := by
  have seg : ∀ (segs : List (List Byte)) (w : Writer), (∀ l ∈ segs, l ≠ []) → w.opened = true → w.datalength = segs.flatten.length →
      segs.flatten.length ≤ w.file.room → (writeSegments w segs).1 = true ∧ w.file.room ≤ (writeSegments w segs).2.file.room + segs.flatten.length := by
    intro segs
    induction segs with
    | nil => intro w _ _ _ _; exact ⟨rfl, by simp [writeSegments]⟩
    | cons l segs ih =>
      intro w hne ho hd hr
      have hl := List.length_pos_iff.2 (hne l List.mem_cons_self)
      rw [List.flatten_cons, List.length_append] at hd hr ⊢
      rw [writeSegments]
      unfold writeBufPayload
      rw [if_neg (by rw [ho]; simp; exact List.ne_nil_of_length_pos hl), if_neg (by omega), fwrite_ok (by omega)]
      dsimp only
      have := ih { opened := w.opened, file := { data := w.file.data ++ l, room := w.file.room - l.length }, datalength := w.datalength - l.length }
        (fun x hx => hne x (List.mem_cons_of_mem _ hx)) ho (by show w.datalength - l.length = _; omega) (by show _ ≤ w.file.room - l.length; omega)
      refine ⟨this.1, ?_⟩
      have := this.2
      dsimp only at this
      omega
  have hp := hb.fine.pos
  change 0 < b.segs.flatten.length at hp
  change 16 + b.segs.flatten.length ≤ _ at hr
  obtain ⟨ok, w, e, hw⟩ := writeData_spec hb ho hd
  have key : ok = true ∧ o.w.file.room ≤ w.file.room + (16 + b.segs.flatten.length) := by
    have hb16 := bufHeader_length b.segs.flatten.length b.typ
    have e' := e
    unfold writeData writeBufHeader at e'
    rw [if_neg (by rw [ho]; simp only [Bool.not_true, Bool.false_or, decide_eq_true_eq]; omega), if_neg (by rw [hd]; simp), fwrite_ok (by omega)] at e'
    dsimp only at e'
    have hs := seg b.segs { opened := o.w.opened, file := { data := o.w.file.data ++ bufHeader b.segs.flatten.length b.typ, room := o.w.file.room - (bufHeader b.segs.flatten.length b.typ).length }, datalength := b.segs.flatten.length } hb.2.2.1 ho rfl (by show _ ≤ o.w.file.room - _; omega)
    generalize writeSegments { opened := o.w.opened, file := { data := o.w.file.data ++ bufHeader b.segs.flatten.length b.typ, room := o.w.file.room - (bufHeader b.segs.flatten.length b.typ).length }, datalength := b.segs.flatten.length } b.segs = x at hs e'
    obtain ⟨ok', w'⟩ := x
    obtain ⟨h1, h2⟩ := hs
    dsimp only at h1 h2
    subst h1
    dsimp only at e'
    have e1 := congrArg Prod.fst e'
    have e2 := congrArg (fun x => x.2.w) e'
    dsimp only [account] at e1 e2
    rw [← e1, ← e2]
    exact ⟨rfl, by omega⟩
  rw [e]
  rcases hw with ⟨a, b', c, d⟩ | ⟨a, _⟩
  · exact ⟨key.1, b', c, key.2⟩
  · exact absurd key.1 (by rw [show ok = false from a]; simp)

/-- Room on the disk which is enough for the buffers, in the worst case with one file per buffer. -/
def need (bufs : List Buf) : Nat := (bufs.map fun b => 32 + b.data.bytes.length).sum

theorem writes_room (bufs : List Buf) : ∀ o : Output, (∀ b ∈ bufs, b.Valid) → o.w.opened = true → o.w.datalength = 0 → need bufs ≤ o.w.file.room →
    accepted (writes o bufs).1 bufs = bufs.map Buf.data := by
  induction bufs with
  | nil => intros; rfl
  | cons b bufs ih =>
    intro o hb ho hd hr
    have hbv := hb b List.mem_cons_self
    have hn : need (b :: bufs) = 32 + b.data.bytes.length + need bufs := by simp [need]
    rw [hn] at hr
    have one : (writeBuffer o b.typ b.segs).1 = true ∧ (writeBuffer o b.typ b.segs).2.w.opened = true ∧ (writeBuffer o b.typ b.segs).2.w.datalength = 0 ∧
        need bufs ≤ (writeBuffer o b.typ b.segs).2.w.file.room := by
      unfold writeBuffer
      rw [if_neg (by rw [ho]; simp)]
      cases checkNext o b.segs.flatten.length with
      | false =>
        rw [if_neg (by simp)]
        obtain ⟨a, b', c, d⟩ := writeData_room hbv ho hd (by omega)
        exact ⟨a, b', c, by omega⟩
      | true =>
        rw [if_pos rfl]
        have e1 : startNewFile o = (true, { o with w := { opened := true, file := { data := fileHeader, room := o.w.file.room - 16 }, datalength := 0 }, closed := o.closed ++ [o.w.file.data], current := 0 }) := by
          unfold startNewFile openWriting
          rw [fwrite_ok (by rw [fileHeader_length]; show 16 ≤ o.w.file.room; omega), fileHeader_length]
          rfl
        rw [e1]
        dsimp only
        obtain ⟨a, b', c, d⟩ := writeData_room (o := { o with w := { opened := true, file := { data := fileHeader, room := o.w.file.room - 16 }, datalength := 0 }, closed := o.closed ++ [o.w.file.data], current := 0 }) hbv rfl rfl (by show _ ≤ o.w.file.room - 16; omega)
        refine ⟨a, b', c, ?_⟩
        change o.w.file.room - 16 ≤ _ at d
        omega
    obtain ⟨a, b', c, d⟩ := one
    rw [writes]
    dsimp only
    rw [accepted, a, if_pos rfl, ih _ (fun x hx => hb x (List.mem_cons_of_mem _ hx)) b' c d, List.map_cons]

/-- **C28**: with enough room on the disk all buffers are written, and reading delivers all of them. -/
theorem C28_lossless (limitMB room : Nat) (bufs : List Buf) (hb : ∀ b ∈ bufs, b.Valid)
    (hr : 16 + (bufs.map fun b => 32 + b.data.bytes.length).sum ≤ room) :
    ((writes (writeInit limitMB room).2 bufs).2.files.map contents).flatten = bufs.map Buf.data := by
  rw [C28_roundtrip limitMB room bufs hb]
  have e : (writeInit limitMB room).2 = { w := { opened := true, file := { data := fileHeader, room := room - 16 }, datalength := 0 }, closed := [], limitMB := limitMB, current := 0, totalSize := 0, totalBufs := 0 } := by
    unfold writeInit openWriting
    rw [fwrite_ok (by rw [fileHeader_length]; show 16 ≤ room; omega), fileHeader_length]
    rfl
  rw [e]
  exact writes_room bufs _ hb rfl rfl (by unfold need; show _ ≤ room - 16; omega)

/-- **C58**: with a size limit no file has more payload than the limit unless it has a single buffer, a new file is only
begun when the next buffer does not fit any more, without limit there is one file; the counters of the output tell what was
written. -/
theorem C58_size_limit (limitMB room : Nat) (bufs : List Buf) (hb : ∀ b ∈ bufs, b.Valid) :
    (limitMB > 0 → ∀ f ∈ (writes (writeInit limitMB room).2 bufs).2.files,
      payload (contents f) ≤ limitMB * 2 ^ 20 ∨ (contents f).length ≤ 1) ∧
    (∀ i f g d, (writes (writeInit limitMB room).2 bufs).2.files[i]? = some f → (writes (writeInit limitMB room).2 bufs).2.files[i + 1]? = some g →
      (contents g).head? = some d → payload (contents f) + d.bytes.length > limitMB * 2 ^ 20) ∧
    (limitMB = 0 → (writes (writeInit limitMB room).2 bufs).2.files.length = 1) ∧
    (writes (writeInit limitMB room).2 bufs).2.totalSize = payload (accepted (writes (writeInit limitMB room).2 bufs).1 bufs) ∧
    (writes (writeInit limitMB room).2 bufs).2.totalBufs = (accepted (writes (writeInit limitMB room).2 bufs).1 bufs).length := by
  obtain ⟨old, cur, h, e⟩ := files_inv limitMB room bufs hb
  have hl : (writes (writeInit limitMB room).2 bufs).2.limitMB = limitMB := by rw [limit_writes]; rfl
  have hc := h.contents
  have hm : (1024 * 1024 : Nat) = 2 ^ 20 := by decide
  refine ⟨?_, ?_, ?_, by rw [h.size, e], by rw [h.bufs, e]⟩
  · intro h0 f hf
    have := h.limit (by rw [hl]; exact h0) (contents f) (by rw [← hc]; exact List.mem_map_of_mem hf)
    rw [hl, hm] at this
    exact this
  · intro i f g d hf hg hd
    have := h.split i (contents f) (contents g) d (by rw [← hc, List.getElem?_map, hf]; rfl) (by rw [← hc, List.getElem?_map, hg]; rfl) hd
    rw [hl, hm] at this
    exact this
  · intro h0
    have : old = [] := h.single (by rw [hl]; exact h0)
    have hlen := congrArg List.length hc
    rw [List.length_map, this] at hlen
    exact hlen

/-- **C28, other buffers**: a buffer larger than needed (as taken from a memory pool) gets the same content as a fitting one; a buffer which is
too small is refused and the file stays at the same place, so that it can be read later. -/
theorem C28_complete (s : Input) (n : Nat) :
    (s.size ≤ n → readComplete s [n] = readComplete s [s.size]) ∧ (n < s.size → readComplete s [n] = (diError, none, s)) := by
  have h1 : ∀ k : Nat, [k].sum = k := fun k => by simp
  unfold readComplete
  constructor
  · intro h
    rw [if_neg (c := [n].sum < s.size) (by rw [h1]; omega), if_neg (c := [s.size].sum < s.size) (by rw [h1]; omega)]
    rfl
  · intro h
    rw [if_pos (c := [n].sum < s.size) (by rw [h1]; omega)]
    split <;> rfl

/-- Two buffers, one with two segments, cut in the middle of the second one. -/
example : readFile 3 (((writes (writeInit 0 1000).2 [⟨7, [[1, 2], [3]]⟩, ⟨8, [[4]]⟩]).2.files.head!).take 51) =
    [some ⟨7, [1, 2, 3]⟩, none, none] := by decide +kernel

example : (∀ b ∈ ([⟨7, [[1, 2], [3]]⟩, ⟨8, [[4]]⟩] : List Buf), b.Valid) := by decide

/-- A disk with room for the first buffer only. -/
example : (writes (writeInit 0 40).2 [⟨7, [[1, 2], [3]]⟩, ⟨8, [[4]]⟩]).1 = [true, false] := by decide +kernel

/-- **C57 does not hold** for `BinaryFileInput`: the end of a complete file is not reported as end of stream but as an error
(the end-of-file mark of the C library is only set by the failed reading of the next header), and the second file of the list is
never opened. -/
theorem C57_binary_counterexample : ∃ (f1 f2 : List Byte) (s s1 : Input) (a b : Data), contents f1 = [a] ∧ contents f2 = [b] ∧
    readInit [f1, f2] = some s ∧ readBuffer s = (some a, s1) ∧ (readSize s1).1 = diError ∧ ∀ n, some b ∉ reads n s := by
  refine ⟨fileHeader ++ stored ⟨7, [1]⟩, fileHeader ++ stored ⟨8, [2]⟩, _, _, ⟨7, [1]⟩, ⟨8, [2]⟩, by decide +kernel, by decide +kernel, rfl, rfl, by decide +kernel, ?_⟩
  have closed : ∀ t, t.file.fd = none → ∀ n, some (⟨8, [2]⟩ : Data) ∉ reads n t := by
    intro t h n
    rw [reads_closed h]
    simp
  intro n
  cases n with
  | zero => simp [reads]
  | succ n =>
    show some _ ∉ some _ :: reads n _
    rw [List.mem_cons, not_or]
    refine ⟨by decide, ?_⟩
    cases n with
    | zero => simp [reads]
    | succ n =>
      show some _ ∉ none :: reads n _
      rw [List.mem_cons, not_or]
      exact ⟨by decide, closed _ rfl n⟩

end Verif.BinaryFile
