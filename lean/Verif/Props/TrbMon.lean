import Verif.Spec.TrbMon
import Verif.Props.HadWrite
/-! # C125: the monitor of TrbNet sends the registers in HADAQ events which can be read -/

namespace Verif.TrbMon
open Verif.Bytes Verif.Pointer Verif.HadTu Verif.HadIter

theorem words_cons (a : Word) (l : List Word) : words (a :: l) = enc 4 a.toNat ++ words l := rfl

theorem trig_le (c : Conf) : trigType c = min c.trigType 15 ∧ trigType c < 16 := by
  unfold trigType
  split <;> omega

theorem dec_all : ∀ t : Fin 16,
    isSwapped (swap ((swap 0x11000200 &&& ~~~0xF0) ||| BitVec.ofNat 32 (t.1 * 16))) = true ∧
    swap (swap ((swap 0x11000200 &&& ~~~0xF0) ||| BitVec.ofNat 32 (t.1 * 16)))
      = 0x20001 + 16 * BitVec.ofNat 32 t.1 := by decide

theorem dec_swapped (c : Conf) : isSwapped (decoding c) = true := (dec_all ⟨_, (trig_le c).2⟩).1

theorem dec_value (c : Conf) :
    value (decoding c) (decoding c) = 0x20001 + 16 * BitVec.ofNat 32 (min c.trigType 15) := by
  unfold value
  rw [dec_swapped, if_pos rfl, ← (trig_le c).1]
  exact (dec_all ⟨_, (trig_le c).2⟩).2

theorem enc_swap (w : Word) : enc 4 (swap w).toNat = be w := by
  have hl : (enc 4 w.toNat).length = 4 := enc_length ..
  have h : swap w = BitVec.ofNat 32 (dec (be w)) := by
    conv => lhs; rw [← ofNat_dec_enc w]
    exact swap_dec hl
  have hb : (be w).length = 4 := by unfold be; rw [List.length_reverse, hl]
  have hlt := dec_lt (be w)
  rw [hb] at hlt
  rw [h, BitVec.toNat_ofNat, Nat.mod_eq_of_lt (by omega)]
  have := enc_dec (be w)
  rw [hb] at this
  exact this

theorem words_value (c : Conf) (l : List Word) :
    words (l.map (value (decoding c))) = l.flatMap be := by
  induction l with
  | nil => rfl
  | cons a l ih =>
    rw [List.map_cons, words_cons, ih, List.flatMap_cons]
    congr 1
    unfold value
    rw [dec_swapped, if_pos rfl, enc_swap]

theorem raw_short {c : Conf} {read : Word → Word → Word} (h : c.addrs0 = []) :
    ∀ (l : List Word) (n : Nat), (rawWords c read n l).flatMap be
      = l.flatMap fun a => be a ++ be (read 0 a)
  | [], _ => rfl
  | a :: l, n => by
    have := raw_short (read := read) h l (n + 1)
    simp [rawWords, h, this]

theorem raw_common {c : Conf} {read : Word → Word → Word} {b : Word} {k : List Word}
    (h : c.addrs0 = b :: k) (hl : (b :: k).length < c.addrs.length) :
    ∀ (l : List Word) (n : Nat), (rawWords c read n l).flatMap be
      = l.flatMap fun a => be b ++ be a ++ be (read b a)
  | [], _ => rfl
  | a :: l, n => by
    have := raw_common (read := read) h hl l (n + 1)
    have h0 : addr0 c n = b := by
      unfold addr0
      rw [h, if_neg (by omega)]
      rfl
    simp [rawWords, h, h0, this]

theorem raw_each {c : Conf} {read : Word → Word → Word} (h : c.addrs0 ≠ [])
    (hl : c.addrs.length ≤ c.addrs0.length) : ∀ (l : List Word) (n : Nat),
    n + l.length ≤ c.addrs0.length → (rawWords c read n l).flatMap be
      = ((c.addrs0.drop n).zip l).flatMap fun x => be x.1 ++ be x.2 ++ be (read x.1 x.2)
  | [], n, _ => by simp [rawWords]
  | a :: l, n, hn => by
    rw [List.length_cons] at hn
    have ih := raw_each (read := read) h hl l (n + 1) (by omega)
    have hlt : n < c.addrs0.length := by omega
    have h0 : addr0 c n = c.addrs0[n] := by
      unfold addr0
      rw [if_pos hl, List.getD_eq_getElem?_getD, List.getElem?_eq_getElem hlt]
      rfl
    have hz : (c.addrs0.drop n).zip (a :: l) = (c.addrs0[n], a) :: (c.addrs0.drop (n + 1)).zip l := by
      rw [List.drop_eq_getElem_cons hlt]
      rfl
    have hne : c.addrs0.length ≠ 0 := by omega
    rw [hz, List.flatMap_cons, ← ih, rawWords, if_neg hne, h0]
    simp

/-- The data of the subevent are the records of the registers. -/
theorem records (c : Conf) (read : Word → Word → Word) (id : Word) :
    Records read c.addrs0 c.addrs (subOf c read id).data := by
  show Records read c.addrs0 c.addrs (words ((rawWords c read 0 c.addrs).map _))
  rw [words_value]
  by_cases h : c.addrs0 = []
  · rw [raw_short h, h]
    exact .short
  · by_cases hl : c.addrs.length ≤ c.addrs0.length
    · have := raw_each (read := read) h hl c.addrs 0 (by omega)
      rw [this]
      exact .each h hl
    · cases h0 : c.addrs0 with
      | nil => exact absurd h0 h
      | cons b k =>
        have hlt : (b :: k).length < c.addrs.length := by rw [h0] at hl; omega
        rw [raw_common h0 hlt]
        exact .common hlt

theorem raw_length (c : Conf) (read : Word → Word → Word) : ∀ (l : List Word) (n : Nat),
    (rawWords c read n l).length = blockSize c * l.length
  | [], _ => rfl
  | a :: l, n => by
    have := raw_length c read l (n + 1)
    rw [rawWords, List.length_append, this, List.length_cons, Nat.mul_add]
    unfold blockSize
    split <;> simp <;> omega

theorem data_length (c : Conf) (read : Word → Word → Word) (id : Word) :
    (subOf c read id).data.length = recordSize c ∧
      c.addrs.length * 4 * blockSize c = recordSize c := by
  have h : c.addrs.length * 4 * blockSize c = recordSize c := by
    unfold recordSize blockSize
    by_cases h : c.addrs0 = []
    · rw [if_pos (by rw [h]; rfl), if_pos h]; omega
    · rw [if_neg (fun e => h (List.length_eq_zero_iff.mp e)), if_neg h]; omega
  refine ⟨?_, h⟩
  show (words _).length = _
  rw [words_length, List.length_map, raw_length, ← h]
  rw [Nat.mul_comm c.addrs.length 4, Nat.mul_assoc, Nat.mul_comm (blockSize c)]

/-- The event of the module as an event of C32. -/
def evOf (c : Conf) (read : Word → Word → Word) (id date time : Word) : Ev :=
  ⟨id, 0, date, time, [subOf c read id]⟩

theorem newEvent_min {w : Writer} (hb : w.isBuf = true) (hn : isNull w.ev = true) {n : Nat}
    (hr : 32 + n ≤ (start (sizesOf w.mem)).full) (seq run date time : Word) :
    newEvent w seq run n date time = newEvent w seq run 0 date time := by
  unfold newEvent
  rw [hb, hn]
  simp only [Bool.not_true, Bool.false_eq_true, if_false, if_true]
  rw [if_neg (by omega), if_neg (by omega)]

theorem wreset_one {s : List Byte} (h : 48 ≤ s.length) :
    (wreset [s]).1 = { noWriter with mem := [s], isBuf := true } := by
  unfold wreset
  rw [if_neg]
  show ¬ ([s.length].sum < 48)
  simp only [List.sum_cons, List.sum_nil]
  omega

theorem up8_ge (n : Nat) : n ≤ up8 n := by unfold up8; omega

theorem start_one (s : List Byte) : (start (sizesOf [s])).full = s.length := by
  show (start [s.length]).full = s.length
  simp [start]

/-- If the buffer is larger than needed the registers are sent: a reader sees one event with the
number of the module, and in it one subevent with the records of all registers in the order of the
configuration. Partial: one segment, the buffer is not filled completely, trigger type in the id of
the event not considered. -/
theorem C125_event_partial (c : Conf) (read : Word → Word → Word) (id date time : Word)
    {s : List Byte} (hr : needed c < s.length) (hs : s.length < 2 ^ 32) :
    ∃ mem data, readAll c read id date time [s] = some (true, mem) ∧
      Records read c.addrs0 c.addrs data ∧ Shows c id date time data mem := by
  have hd := data_length c read id
  have hroom : (evOf c read id date time).room = needed c := by
    show 32 + ([Sub.room (subOf c read id)]).sum = _
    simp only [List.sum_cons, List.sum_nil, Sub.room, hd.1, needed]
    omega
  have hup := up8_ge (16 + recordSize c)
  have h48 : 48 ≤ s.length := by unfold needed at hr; omega
  obtain ⟨w, h1, h2⟩ := C32_roundtrip_partial h48 hs
    (es := [(evOf c read id date time, [.fill (subOf c read id)])]) (by simp)
    (by
      intro e he
      simp only [List.mem_singleton] at he
      subst he
      exact .fill .nil)
    (by simpa [hroom] using hr)
  refine ⟨wclose w, (subOf c read id).data, ?_, records c read id, ?_⟩
  · unfold readAll
    rw [newEvent_min (by rw [wreset_one h48]) (by rw [wreset_one h48]; rfl)
      (by
        rw [wreset_one h48]
        show _ ≤ (start (sizesOf [s])).full
        rw [start_one, hd.2]
        unfold needed at hr
        omega)]
    have h3 : andThen (newEvent (wreset [s]).1 id 0 0 date time) (fun w =>
        andThen (writePart w (.fill (subOf c read id))) finishEvent) = some (w, true) := by
      have e : writeEvents (wreset [s]).1
          [(evOf c read id date time, [.fill (subOf c read id)])]
          = andThen (andThen (newEvent (wreset [s]).1 id 0 0 date time) fun w =>
              andThen (andThen (writePart w (.fill (subOf c read id))) fun w => some (w, true))
                fun w => finishEvent w) fun w => some (w, true) := rfl
      rw [e] at h1
      have idd : ∀ r : Option (Writer × Bool), (andThen r fun w => some (w, true)) = r := by
        intro r
        rcases r with _ | ⟨w, _ | _⟩ <;> rfl
      rw [idd] at h1
      simpa only [idd] using h1
    rw [h3]
    rfl
  · refine ⟨(evOf c read id date time).seen, fun fuel subfuel hf hsf => ?_, rfl, rfl, rfl, rfl,
      (subOf c read id).seen, rfl, rfl, rfl, rfl, ?_⟩
    · exact h2 fuel subfuel (by simpa using hf) (by
        intro e he
        simp only [List.mem_singleton] at he
        subst he
        exact hsf)
    · show some (value (decoding c) (decoding c)) = _
      rw [dec_value]

/-- If the buffer is too small for headers and records nothing is written and nothing sent; the
number stays the same. -/
theorem C125_small (c : Conf) (read : Word → Word → Word) (date time : Word) {s : List Byte}
    (hr : s.length < 48 + recordSize c) (st : State) :
    tick c read date time (some [s]) st = some st := by
  have hd := data_length c read st.eventId
  have : ∃ m, readAll c read st.eventId date time [s] = some (false, m) := by
    unfold readAll
    by_cases h48 : 48 ≤ s.length
    · have e : newEvent (wreset [s]).1 st.eventId 0 (c.addrs.length * 4 * blockSize c + 16) date time
          = some ({ (wreset [s]).1 with ev := Ptr.null, sub := Ptr.null }, false) := by
        unfold newEvent
        rw [wreset_one h48]
        simp only [Bool.not_true, Bool.false_eq_true, if_false]
        rw [if_pos]
        have hn : isNull noWriter.ev = true := rfl
        simp only [hn, if_true]
        rw [start_one, hd.2]
        omega
      rw [e]
      exact ⟨_, rfl⟩
    · have e : wreset [s] = (noWriter, false) := by
        unfold wreset
        rw [if_pos]
        show [s.length].sum < 48
        simp only [List.sum_cons, List.sum_nil]
        omega
      rw [e]
      exact ⟨_, rfl⟩
  obtain ⟨m, hm⟩ := this
  simp [tick, hm]

/-- Without buffer nothing is sent. -/
theorem C125_no_buffer (c : Conf) (read : Word → Word → Word) (date time : Word) (st : State) :
    tick c read date time none st = some st := rfl

/-- For all timer events with buffers from the pool, each absent, larger than needed or too small:
exactly those with a large enough buffer send an event, and the events have consecutive numbers. -/
theorem C125_numbers_partial (c : Conf) : ∀ (l : List In) (st : State),
    (∀ i ∈ l, ∀ m, i.buf = some m → ∃ s, m = [s] ∧ s.length < 2 ^ 32 ∧
      (needed c < s.length ∨ s.length < 48 + recordSize c)) →
    ∃ st' ms, run c st l = some st' ∧ st'.sent = st.sent ++ ms ∧
      SentFor c st.eventId l ms st'.eventId
  | [], st, _ => ⟨st, [], rfl, by simp, .nil⟩
  | i :: l, st, h => by
    have hl : ∀ j ∈ l, _ := fun j hj => h j (List.mem_cons_of_mem _ hj)
    cases hb : i.buf with
    | none =>
      obtain ⟨st', ms, h1, h2, h3⟩ := C125_numbers_partial c l st hl
      refine ⟨st', ms, ?_, h2, .skip (fun s hs => by rw [hb] at hs; cases hs) h3⟩
      simp [run, hb, tick, h1]
    | some m =>
      obtain ⟨s, rfl, hs, hsz⟩ := h i (List.mem_cons_self ..) m hb
      rcases hsz with hsz | hsz
      · obtain ⟨mem, data, e1, e2, e3⟩ :=
          C125_event_partial c i.read st.eventId i.date i.time hsz hs
        obtain ⟨st', ms, h1, h2, h3⟩ := C125_numbers_partial c l
          ⟨st.eventId + 1, st.sent ++ [mem]⟩ hl
        refine ⟨st', mem :: ms, ?_, by simpa using h2, .send e2 e3 h3⟩
        have ht : tick c i.read i.date i.time (some [s]) st
            = some ⟨st.eventId + 1, st.sent ++ [mem]⟩ := by
          unfold tick
          simp only [e1, Option.map_some, if_true]
        rw [run, hb, ht]
        exact h1
      · obtain ⟨st', ms, h1, h2, h3⟩ := C125_numbers_partial c l st hl
        have ht := C125_small c i.read i.date i.time hsz st
        refine ⟨st', ms, ?_, h2, .skip (fun s' hs' => ?_) h3⟩
        · simp [run, hb, ht, h1]
        · rw [hb] at hs'
          cases hs'
          exact hsz

/-! ## Deviation and examples -/

/-- A buffer which would be filled completely: the event is sent without its subevent. -/
theorem C125_exact_counterexample :
    needed ⟨[], [5], 7, 1⟩ = 56 ∧
    ((readAll ⟨[], [5], 7, 1⟩ (fun _ _ => 0) 0 0 0 [List.replicate 56 0]).bind fun r =>
      (readEvents r.2 3 3 (reset r.2 .events).1).map fun l => (r.1, l.map fun e => e.subs.length))
      = some (true, [0]) := by
  decide +kernel


def exConf : Conf := ⟨[], [0x8000, 0x8005], 7, 1⟩

example : needed exConf < (List.replicate 100 (0 : Byte)).length := by decide

example : Records (fun _ a => a + 1) [1, 2] [5]
    (be 1 ++ be 5 ++ be 6) := .each (by simp) (by decide)

end Verif.TrbMon
