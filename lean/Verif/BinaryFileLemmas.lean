import Verif.Spec.BinaryFile
import Mathlib.Data.List.Forall2

/-! # Lemmas about binary files -/

namespace Verif.BinaryFile

open Verif.Bytes Verif.File

theorem fileHeader_length : fileHeader.length = 16 := by simp [fileHeader]

theorem bufHeader_length (a b : Nat) : (bufHeader a b).length = 16 := by simp [bufHeader]

/-- The bytes of a buffer in the file. -/
def stored (d : Data) : List Byte := bufHeader d.bytes.length d.typ ++ d.bytes

def storedAll (l : List Data) : List Byte := (l.map stored).flatten

theorem storedAll_append (a b : List Data) : storedAll (a ++ b) = storedAll a ++ storedAll b := by
  simp [storedAll]

theorem storedAll_cons (a : Data) (b : List Data) : storedAll (a :: b) = stored a ++ storedAll b := by
  simp [storedAll]

theorem stored_length (d : Data) : (stored d).length = 16 + d.bytes.length := by
  simp [stored, bufHeader_length]

/-- Data which the reader can handle. -/
structure Fine (d : Data) : Prop where
  typ : d.typ < 2 ^ 32
  pos : 0 < d.bytes.length
  size : d.bytes.length ≤ 0xFFFFFFF0

theorem Buf.Valid.fine {b : Buf} (h : b.Valid) : Fine b.data := by
  refine ⟨h.1, ?_, h.2.2.2⟩
  show 0 < b.segs.flatten.length
  cases hs : b.segs with
  | nil => exact absurd hs h.2.1
  | cons l segs =>
    have : l ≠ [] := h.2.2.1 l (by rw [hs]; exact List.mem_cons_self)
    have := List.length_pos_iff.2 this
    rw [List.flatten_cons, List.length_append]
    omega

/-! ## Reading -/

/-- The reader stands before `rest`. -/
structure At (s : Input) (rest : List Byte) : Prop where
  ex : ∃ f, s.file.fd = some f ∧ f.eof = false ∧ f.data.drop f.pos = rest
  len : s.file.datalength = 0

theorem fread_app {f : RFile} {a rest : List Byte} (h : f.data.drop f.pos = a ++ rest) :
    ∃ f', fread f a.length = (a, f') ∧ f'.eof = f.eof ∧ f'.data.drop f'.pos = rest := by
  refine ⟨_, by unfold fread; dsimp only; rw [h, List.take_left], ?_, ?_⟩
  · simp
  · dsimp only
    rw [← List.drop_drop, h, List.drop_left]

theorem fread_short {f : RFile} {rest : List Byte} {n : Nat} (h : f.data.drop f.pos = rest) (hn : rest.length < n) :
    ∃ f', fread f n = (rest, f') := by
  refine ⟨_, by unfold fread; dsimp only; rw [h, List.take_of_length_le (Nat.le_of_lt hn)]⟩

theorem dec_bufHeader {d : Data} (h : Fine d) :
    dec ((bufHeader d.bytes.length d.typ).take 8) = d.bytes.length ∧ dec ((bufHeader d.bytes.length d.typ).drop 8) = d.typ := by
  have e : (256 : Nat) ^ 8 = 18446744073709551616 := by decide
  have h1 := h.size
  have h2 := h.typ
  have l8 : ∀ v, (enc 8 v).length = 8 := fun v => enc_length 8 v
  unfold bufHeader
  constructor
  · rw [List.take_append_of_le_length (by rw [l8]; exact Nat.le_refl _), List.take_of_length_le (by rw [l8]; exact Nat.le_refl _)]
    exact dec_enc_of_lt (by rw [e]; omega)
  · have := List.drop_left (l₁ := enc 8 d.bytes.length) (l₂ := enc 8 d.typ)
    rw [l8] at this
    rw [this]
    exact dec_enc_of_lt (by rw [e]; omega)

theorem readBufHeader_ok {s : Input} {d : Data} {rest : List Byte} (hd : Fine d)
    (h : At s (bufHeader d.bytes.length d.typ ++ rest)) :
    ∃ f', readBufHeader s.file = (some (d.bytes.length, d.typ), { fd := some f', datalength := d.bytes.length }) ∧
      f'.eof = false ∧ f'.data.drop f'.pos = rest := by
  obtain ⟨⟨f, h1, h2, h3⟩, h4⟩ := h
  obtain ⟨f', e1, e2, e3⟩ := fread_app h3
  rw [bufHeader_length] at e1
  obtain ⟨d1, d2⟩ := dec_bufHeader hd
  refine ⟨f', ?_, e2.trans h2, e3⟩
  unfold readBufHeader
  rw [h1]
  dsimp only
  rw [h4, if_neg (by simp), e1]
  dsimp only
  rw [if_pos (bufHeader_length _ _), d1, d2]

theorem readSize_ok {s : Input} {d : Data} {rest : List Byte} (hd : Fine d)
    (h : At s (bufHeader d.bytes.length d.typ ++ rest)) :
    ∃ f', readSize s = (d.bytes.length, { s with file := { fd := some f', datalength := d.bytes.length }, size := d.bytes.length, typ := d.typ }) ∧
      f'.eof = false ∧ f'.data.drop f'.pos = rest := by
  obtain ⟨f', e1, e2, e3⟩ := readBufHeader_ok hd h
  obtain ⟨⟨f, h1, h2, h3⟩, h4⟩ := h
  refine ⟨f', ?_, e2, e3⟩
  have hs := hd.size
  unfold readSize
  rw [h1]
  dsimp only
  rw [h2, if_neg (by simp), e1]
  dsimp only
  rw [Nat.mod_eq_of_lt (by omega)]

theorem valid_size {d : Data} (hd : Fine d) :
    (if d.bytes.length = diDfltBufSize then 0x10000 else d.bytes.length) = d.bytes.length ∧ ¬ d.bytes.length > diValidSize := by
  have hs := hd.size
  constructor
  · rw [if_neg]
    unfold diDfltBufSize
    omega
  · unfold diValidSize
    omega

/-- A complete buffer is delivered. -/
theorem readBuffer_ok {s : Input} {d : Data} {rest : List Byte} (hd : Fine d) (h : At s (stored d ++ rest)) :
    ∃ s', readBuffer s = (some d, s') ∧ At s' rest := by
  unfold stored at h
  rw [List.append_assoc] at h
  obtain ⟨f, e1, e2, e3⟩ := readSize_ok hd h
  obtain ⟨f', g1, g2, g3⟩ := fread_app e3
  obtain ⟨v1, v2⟩ := valid_size hd
  have hp := hd.pos
  have ht := hd.typ
  refine ⟨{ s with file := { fd := some f', datalength := 0 }, size := d.bytes.length, typ := d.typ }, ?_, ⟨f', rfl, g2.trans e2, g3⟩, rfl⟩
  unfold readBuffer
  rw [e1]
  dsimp only
  rw [v1, if_neg v2]
  unfold readComplete
  dsimp only
  rw [if_neg (by simp), if_neg (by simp), if_neg (by simp)]
  unfold readBufPayload
  dsimp only
  rw [if_neg (by omega), if_neg (by omega), g1]
  dsimp only
  rw [if_pos rfl]
  dsimp only
  rw [Nat.mod_eq_of_lt ht, Nat.sub_self]

/-- The file is closed. -/
def Closed (s : Input) : Prop := s.file.fd = none

theorem readBuffer_error {s s' : Input} (h : readSize s = (diError, s')) : readBuffer s = (none, s') := by
  unfold readBuffer
  rw [h]
  exact if_pos (show (if diError = diDfltBufSize then 0x10000 else diError) > diValidSize by decide)

theorem readBuffer_closed {s : Input} (h : Closed s) : readBuffer s = (none, s) := by
  refine readBuffer_error ?_
  unfold readSize
  rw [h]

/-- An incomplete buffer is not delivered. -/
theorem readBuffer_short {s : Input} {d : Data} {rest : List Byte} (hd : Fine d) (h : At s rest) (hp : rest <+: stored d)
    (hl : rest.length < (stored d).length) : ∃ s', readBuffer s = (none, s') ∧ Closed s' := by
  by_cases h16 : rest.length < 16
  · obtain ⟨⟨f, h1, h2, h3⟩, h4⟩ := h
    obtain ⟨f', e⟩ := fread_short h3 h16
    refine ⟨{ s with file := { s.file with fd := none }, size := 0, typ := 0 }, readBuffer_error ?_, rfl⟩
    have hh : readBufHeader s.file = (none, { s.file with fd := none }) := by
      unfold readBufHeader
      rw [h1]
      dsimp only
      rw [h4, if_neg (by simp), e]
      dsimp only
      rw [if_neg (by omega)]
    unfold readSize
    rw [h1]
    dsimp only
    rw [h2, if_neg (by simp), hh]
  · obtain ⟨tail, ht⟩ := hp
    have : rest = bufHeader d.bytes.length d.typ ++ rest.drop 16 := by
      have e : rest.take 16 = bufHeader d.bytes.length d.typ := by
        have h1 := congrArg (List.take 16) ht
        rw [List.take_append_of_le_length (by omega)] at h1
        rw [h1]
        unfold stored
        rw [List.take_append_of_le_length (by rw [bufHeader_length]; exact Nat.le_refl _), List.take_of_length_le (by rw [bufHeader_length]; exact Nat.le_refl _)]
      rw [← e, List.take_append_drop]
    rw [this] at h
    obtain ⟨f, e1, e2, e3⟩ := readSize_ok hd h
    have hl' : (rest.drop 16).length < d.bytes.length := by
      rw [stored_length] at hl
      rw [List.length_drop]
      omega
    obtain ⟨f', g⟩ := fread_short e3 hl'
    obtain ⟨v1, v2⟩ := valid_size hd
    have hp := hd.pos
    refine ⟨{ s with file := { fd := none, datalength := 0 }, size := d.bytes.length, typ := d.typ }, ?_, rfl⟩
    unfold readBuffer
    rw [e1]
    dsimp only
    rw [v1, if_neg v2]
    unfold readComplete
    dsimp only
    rw [if_neg (by simp), if_neg (by simp), if_neg (by simp)]
    unfold readBufPayload
    dsimp only
    rw [if_neg (by omega), if_neg (by omega), g]
    dsimp only
    rw [if_neg (by omega)]
    dsimp only
    rw [Nat.sub_self]

theorem reads_closed {s : Input} (h : Closed s) (n : Nat) : reads n s = List.replicate n none := by
  induction n with
  | zero => rfl
  | succ n ih =>
    show (match readBuffer s with | (d, s) => d :: reads n s) = _
    rw [readBuffer_closed h]
    dsimp only
    rw [ih, List.replicate_succ]

theorem delivery_nil (n : Nat) : delivery n [] = List.replicate n none := by
  simp [delivery]

theorem delivery_cons (n : Nat) (d : Data) (l : List Data) : delivery (n + 1) (d :: l) = some d :: delivery n l := by
  simp only [delivery, List.map_cons, List.cons_append, List.take_succ_cons, List.replicate_succ']
  congr 1
  rw [← List.append_assoc]
  rw [List.take_append_of_le_length]
  simp

/-- Reading of what is left of a sequence of complete buffers, followed by a piece of a further one, cut after `k` bytes. -/
theorem reads_cut (n : Nat) : ∀ (l : List Data) (k : Nat) (junk : List Byte) (d : Data) (s : Input), (∀ d ∈ l, Fine d) → Fine d →
    junk <+: stored d → junk.length < (stored d).length → At s ((storedAll l ++ junk).take k) →
    reads n s = delivery n (complete k l) := by
  induction n with
  | zero => intros; simp [reads, delivery]
  | succ n ih =>
    intro l k junk d s hl hd hp hlt h
    show (match readBuffer s with | (d, s) => d :: reads n s) = _
    have short : ∀ {rest : List Byte} {d : Data}, Fine d → At s rest → rest <+: stored d → rest.length < (stored d).length →
        (match readBuffer s with | (d, s) => d :: reads n s) = delivery (n + 1) [] := by
      intro rest d hd h hp hlt
      obtain ⟨s', e1, e2⟩ := readBuffer_short hd h hp hlt
      rw [e1]
      dsimp only
      rw [reads_closed e2, delivery_nil, List.replicate_succ]
    cases l with
    | nil =>
      rw [complete]
      refine short hd h ?_ ?_
      · exact (List.take_prefix k junk).trans hp
      · exact Nat.lt_of_le_of_lt (List.length_take_le' k junk) hlt
    | cons c l =>
      have hc := hl c List.mem_cons_self
      rw [complete]
      rw [storedAll_cons, List.append_assoc] at h
      by_cases hk : 16 + c.bytes.length ≤ k
      · rw [if_pos hk]
        rw [List.take_append, List.take_of_length_le (by rw [stored_length]; exact hk), stored_length] at h
        obtain ⟨s', e1, e2⟩ := readBuffer_ok hc h
        rw [e1]
        dsimp only
        rw [delivery_cons, ih l _ junk d s' (fun x hx => hl x (List.mem_cons_of_mem _ hx)) hd hp hlt e2]
      · rw [if_neg hk]
        rw [List.take_append_of_le_length (by rw [stored_length]; omega)] at h
        refine short hc h (List.take_prefix _ _) ?_
        rw [List.length_take, stored_length]
        omega

/-- The file contains these buffers, and nothing behind but a piece of a further one. -/
inductive Holds (l : List Data) (data : List Byte) : Prop
  | full (junk : List Byte) (d : Data) (hd : Fine d) (hp : junk <+: stored d) (hl : junk.length < (stored d).length)
      (e : data = fileHeader ++ (storedAll l ++ junk)) : Holds l data
  | head (e : l = []) (hl : data.length < 16) : Holds l data

theorem magic : dec (fileHeader.take 8) = 1237 := by decide

theorem readFile_cut {l : List Data} {data : List Byte} (h : Holds l data) (hl : ∀ d ∈ l, Fine d) (n k : Nat) :
    readFile n (data.take k) = delivery n (complete (k - 16) l) := by
  have fail : ∀ rest : List Byte, rest.length < 16 → readFile n rest = delivery n [] := by
    intro rest hr
    have h0 : (fopenRead rest).data.drop (fopenRead rest).pos = rest := by simp [fopenRead]
    obtain ⟨f', e⟩ := fread_short h0 hr
    unfold readFile readInit openReading
    dsimp only
    rw [e]
    dsimp only
    rw [if_neg (by omega)]
    dsimp only [Option.map]
    rw [delivery_nil]
  cases h with
  | head e hlen =>
    subst e
    rw [complete]
    exact fail _ (Nat.lt_of_le_of_lt (List.length_take_le' _ _) hlen)
  | full junk d hd hp hlt e =>
    by_cases hk : k < 16
    · rw [Nat.sub_eq_zero_of_le (by omega)]
      have : complete 0 l = [] := by
        cases l with
        | nil => rfl
        | cons c l => rw [complete, if_neg (by omega)]
      rw [this]
      refine fail _ ?_
      rw [List.length_take]
      omega
    · have h0 : (fopenRead (data.take k)).data.drop (fopenRead (data.take k)).pos = fileHeader ++ (storedAll l ++ junk).take (k - 16) := by
        show (data.take k).drop 0 = _
        rw [List.drop_zero, e, List.take_append, List.take_of_length_le (by rw [fileHeader_length]; omega), fileHeader_length]
      obtain ⟨f', e1, e2, e3⟩ := fread_app h0
      rw [fileHeader_length] at e1
      unfold readFile readInit openReading
      dsimp only
      rw [e1]
      dsimp only
      rw [if_pos ⟨fileHeader_length, magic⟩]
      dsimp only [Option.map]
      exact reads_cut n l (k - 16) junk d _ hl hd hp hlt ⟨⟨f', rfl, e2, e3⟩, rfl⟩

/-! ## Writing -/

theorem fwrite_ok {f : WFile} {l : List Byte} (h : l.length ≤ f.room) :
    fwrite f l = (true, { data := f.data ++ l, room := f.room - l.length }) := by
  unfold fwrite
  rw [if_pos h]

theorem fwrite_fail {f : WFile} {l : List Byte} (h : ¬ l.length ≤ f.room) :
    fwrite f l = (false, { data := f.data ++ l.take f.room, room := 0 }) := by
  unfold fwrite
  rw [if_neg h]

/-- Either all is written, or a piece of it and the file is closed. -/
def Wrote (w : Writer) (l : List Byte) (r : Bool × Writer) : Prop :=
  (r.1 = true ∧ r.2.opened = true ∧ r.2.datalength = 0 ∧ r.2.file.data = w.file.data ++ l) ∨
  (r.1 = false ∧ r.2.opened = false ∧ ∃ junk, junk <+: l ∧ junk.length < l.length ∧ r.2.file.data = w.file.data ++ junk)

theorem writeSegments_spec : ∀ (segs : List (List Byte)) (w : Writer), (∀ l ∈ segs, l ≠ []) → w.opened = true →
    w.datalength = segs.flatten.length → Wrote w segs.flatten (writeSegments w segs) := by
  intro segs
  induction segs with
  | nil =>
    intro w _ ho hd
    exact Or.inl ⟨rfl, ho, hd, by simp [writeSegments]⟩
  | cons l segs ih =>
    intro w hne ho hd
    have hl := List.length_pos_iff.2 (hne l List.mem_cons_self)
    rw [List.flatten_cons, List.length_append] at hd
    rw [writeSegments, List.flatten_cons]
    unfold writeBufPayload
    rw [if_neg (by rw [ho]; simp; exact List.ne_nil_of_length_pos hl), if_neg (by omega)]
    by_cases hr : l.length ≤ w.file.room
    · rw [fwrite_ok hr]
      dsimp only
      have := ih { opened := w.opened, file := { data := w.file.data ++ l, room := w.file.room - l.length }, datalength := w.datalength - l.length }
        (fun x hx => hne x (List.mem_cons_of_mem _ hx)) ho (by show w.datalength - l.length = _; omega)
      rcases this with ⟨a, b, c, d⟩ | ⟨a, b, junk, c, d, e⟩
      · exact Or.inl ⟨a, b, c, by rw [d]; exact List.append_assoc ..⟩
      · refine Or.inr ⟨a, b, l ++ junk, (List.prefix_append_right_inj l).2 c, ?_, by rw [e]; exact List.append_assoc ..⟩
        rw [List.length_append, List.length_append]
        omega
    · rw [fwrite_fail hr]
      dsimp only
      refine Or.inr ⟨rfl, rfl, l.take w.file.room, ?_, ?_, rfl⟩
      · exact (List.take_prefix _ _).trans (List.prefix_append _ _)
      · rw [List.length_take, List.length_append]
        omega

/-- The output after a write of `n` bytes with result `ok`. -/
def account (o : Output) (ok : Bool) (w : Writer) (n : Nat) : Output :=
  { o with w := w, current := o.current + (if ok then n else 0), totalSize := o.totalSize + (if ok then n else 0), totalBufs := o.totalBufs + (if ok then 1 else 0) }

theorem writeData_spec {o : Output} {b : Buf} (hb : b.Valid) (ho : o.w.opened = true) (hd : o.w.datalength = 0) :
    ∃ ok w, writeData o b.typ b.segs = (ok, account o ok w b.data.bytes.length) ∧ Wrote o.w (stored b.data) (ok, w) := by
  have hp := hb.fine.pos
  change 0 < b.segs.flatten.length at hp
  have hs : stored b.data = bufHeader b.segs.flatten.length b.typ ++ b.segs.flatten := rfl
  have hdl : b.data.bytes.length = b.segs.flatten.length := rfl
  rw [hs, hdl]
  unfold writeData writeBufHeader
  rw [if_neg (by rw [ho]; simp only [Bool.not_true, Bool.false_or, decide_eq_true_eq]; omega), if_neg (by rw [hd]; simp)]
  by_cases hr : (bufHeader b.segs.flatten.length b.typ).length ≤ o.w.file.room
  · rw [fwrite_ok hr]
    dsimp only
    have := writeSegments_spec b.segs { opened := o.w.opened, file := { data := o.w.file.data ++ bufHeader b.segs.flatten.length b.typ, room := o.w.file.room - (bufHeader b.segs.flatten.length b.typ).length }, datalength := b.segs.flatten.length }
      hb.2.2.1 ho rfl
    generalize writeSegments { opened := o.w.opened, file := { data := o.w.file.data ++ bufHeader b.segs.flatten.length b.typ, room := o.w.file.room - (bufHeader b.segs.flatten.length b.typ).length }, datalength := b.segs.flatten.length } b.segs = x at this
    obtain ⟨ok, w⟩ := x
    rcases this with ⟨a, b', c, d⟩ | ⟨a, b', junk, c, d, e⟩
    · dsimp only at a b' c d
      subst a
      exact ⟨true, w, rfl, Or.inl ⟨rfl, b', c, by rw [← List.append_assoc]; exact d⟩⟩
    · dsimp only at a b' e
      subst a
      refine ⟨false, w, rfl, Or.inr ⟨rfl, b', bufHeader b.segs.flatten.length b.typ ++ junk, (List.prefix_append_right_inj _).2 c, ?_, ?_⟩⟩
      · rw [List.length_append, List.length_append]
        omega
      · rw [← List.append_assoc]
        exact e
  · rw [fwrite_fail hr]
    dsimp only
    refine ⟨false, _, rfl, Or.inr ⟨rfl, rfl, (bufHeader b.segs.flatten.length b.typ).take o.w.file.room, ?_, ?_, rfl⟩⟩
    · exact (List.take_prefix _ _).trans (List.prefix_append _ _)
    · rw [List.length_take, List.length_append]
      omega

theorem payload_append (a b : List Data) : payload (a ++ b) = payload a + payload b := by
  simp [payload]

/-- The files of the output: `old` are the buffers in the closed files, `cur` those in the current one. -/
structure Inv (o : Output) (old : List (List Data)) (cur : List Data) : Prop where
  closed : List.Forall₂ Holds old o.closed
  now : Holds cur o.w.file.data
  opened : o.w.opened = true → o.w.datalength = 0 ∧ o.w.file.data = fileHeader ++ storedAll cur
  fine : ∀ p ∈ old ++ [cur], ∀ d ∈ p, Fine d
  current : o.current = payload cur
  limit : o.limitMB > 0 → ∀ p ∈ old ++ [cur], payload p ≤ o.limitMB * (1024 * 1024) ∨ p.length ≤ 1
  single : o.limitMB = 0 → old = []
  split : ∀ i p q d, (old ++ [cur])[i]? = some p → (old ++ [cur])[i + 1]? = some q → q.head? = some d →
    payload p + d.bytes.length > o.limitMB * (1024 * 1024)
  size : o.totalSize = payload (old ++ [cur]).flatten
  bufs : o.totalBufs = (old ++ [cur]).flatten.length

theorem holds_open {l : List Data} : Holds l (fileHeader ++ storedAll l) := by
  refine .full [] { typ := 0, bytes := [0] } ⟨by decide, by decide, by decide⟩ List.nil_prefix (by rw [stored_length]; simp) (by rw [List.append_nil])

theorem openWriting_spec (room : Nat) :
    ((openWriting room).1 = true ∧ (openWriting room).2.opened = true ∧ (openWriting room).2.datalength = 0 ∧ (openWriting room).2.file.data = fileHeader) ∨
    ((openWriting room).1 = false ∧ (openWriting room).2.opened = false ∧ (openWriting room).2.file.data.length < 16) := by
  unfold openWriting
  by_cases h : fileHeader.length ≤ room
  · rw [fwrite_ok h]
    exact Or.inl ⟨rfl, rfl, rfl, rfl⟩
  · rw [fwrite_fail h]
    refine Or.inr ⟨rfl, rfl, ?_⟩
    dsimp only
    rw [List.nil_append, List.length_take]
    rw [fileHeader_length] at h ⊢
    omega

theorem openWriting_holds (room : Nat) : Holds [] (openWriting room).2.file.data ∧
    ((openWriting room).2.opened = true → (openWriting room).2.datalength = 0 ∧ (openWriting room).2.file.data = fileHeader ++ storedAll []) ∧
    (openWriting room).2.opened = (openWriting room).1 := by
  rcases openWriting_spec room with ⟨a, b, c, d⟩ | ⟨a, b, c⟩
  · rw [a, b, c, d]
    have : fileHeader = fileHeader ++ storedAll [] := by simp [storedAll]
    exact ⟨by rw [this]; exact holds_open, fun _ => ⟨rfl, this⟩, rfl⟩
  · rw [a, b]
    exact ⟨.head rfl c, fun h => (by cases h), rfl⟩

theorem init_inv (limitMB room : Nat) : Inv (writeInit limitMB room).2 [] [] := by
  obtain ⟨h1, h2, _⟩ := openWriting_holds room
  refine ⟨.nil, h1, h2, ?_, rfl, ?_, fun _ => rfl, ?_, rfl, rfl⟩
  · intro p hp d hd
    rw [List.nil_append, List.mem_singleton] at hp
    subst hp
    cases hd
  · intro _ p hp
    rw [List.nil_append, List.mem_singleton] at hp
    subst hp
    exact Or.inr (by simp)
  · intro i p q d hp hq hd
    cases i <;> cases hq

theorem getElem?_two {α : Type} {old : List α} {a b c : α} {i : Nat} (h : (old ++ [a, b])[i + 1]? = some c) :
    (i + 1 < (old ++ [a]).length ∧ (old ++ [a])[i + 1]? = some c) ∨ (i = old.length ∧ c = b) := by
  rw [show old ++ [a, b] = (old ++ [a]) ++ [b] by simp] at h
  by_cases hi : i + 1 < (old ++ [a]).length
  · rw [List.getElem?_append_left hi] at h
    exact Or.inl ⟨hi, h⟩
  · rw [List.getElem?_append_right (by omega)] at h
    rw [List.length_append, List.length_singleton] at h hi
    cases hk : i + 1 - (old.length + 1) with
    | zero =>
      rw [hk] at h
      exact Or.inr ⟨by omega, by simpa using h.symm⟩
    | succ k => rw [hk] at h; simp at h

end Verif.BinaryFile
