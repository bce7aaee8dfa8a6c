import Verif.Spec.MbsNet

/-!
# Connection between MBS server and client: headers and events
-/

namespace Verif.MbsNet

open Verif.Bytes Spec

theorem u32_of_lt {n : Nat} (h : n < 4294967296) : u32 n = n := Nat.mod_eq_of_lt h

theorem sub32_of_le {a b : Nat} (h : b ≤ a) (ha : a < 4294967296) : sub32 a b = a - b := by
  unfold sub32 u32; omega

theorem dec4 {n : Nat} (h : n < 4294967296) : dec (enc 4 n) = n := dec_enc_of_lt (by simpa using h)

theorem word_head (n : Nat) (l : Data) (h : n < 4294967296) : word (enc 4 n ++ l) 0 = n := by
  unfold word
  rw [Nat.mul_zero, List.drop_zero, List.take_append_of_le_length (by simp), List.take_of_length_le (by simp), dec4 h]

theorem word_next (n i : Nat) (l : Data) : word (enc 4 n ++ l) (i + 1) = word l i := by
  unfold word
  rw [show 4 * (i + 1) = (enc 4 n).length + 4 * i by rw [enc_length]; omega, List.drop_append,
    List.drop_eq_nil_of_le (by omega), List.nil_append]
  congr 3
  omega

theorem word_last (n : Nat) (h : n < 4294967296) : word (enc 4 n) 0 = n := by
  simpa using word_head n [] h

theorem Hdr.bytes_length (h : Hdr) : h.bytes.length = 48 := by simp [Hdr.bytes]

/-- All entries of a header have 32 bits. -/
structure Hdr.Small (h : Hdr) : Prop where
  words : h.words < 4294967296
  typ : h.typ < 4294967296
  used : h.used < 4294967296
  id : h.id < 4294967296
  num : h.num < 4294967296
  temp : h.temp < 4294967296
  sec : h.sec < 4294967296
  nano : h.nano < 4294967296
  endian : h.endian < 4294967296
  last : h.last < 4294967296
  usedWords : h.usedWords < 4294967296
  free : h.free < 4294967296

theorem Hdr.ofBytes_bytes {h : Hdr} (hs : h.Small) : Hdr.ofBytes h.bytes = h := by
  obtain ⟨h0, h1, h2, h3, h4, h5, h6, h7, h8, h9, h10, h11⟩ := hs
  simp only [Hdr.ofBytes, Hdr.bytes, word_next, word_head _ _ h0, word_head _ _ h1, word_head _ _ h2, word_head _ _ h3,
    word_head _ _ h4, word_head _ _ h5, word_head _ _ h6, word_head _ _ h7, word_head _ _ h8, word_head _ _ h9,
    word_head _ _ h10, word_last _ h11]

theorem u32_lt (n : Nat) : u32 n < 4294967296 := Nat.mod_lt _ (by omega)

theorem fullWords_lt (n : Nat) : fullWords n < 4294967296 := by
  have := u32_lt (n + 4294967296 - 8)
  unfold fullWords sub32; omega

theorem mkHdr_small {junk len : Nat} (hj : junk < 4294967296) (hl : len < 4294967296) : (mkHdr junk len).Small := by
  constructor <;> simp only [mkHdr]
  · exact fullWords_lt _
  · unfold typeNew; omega
  all_goals omega

theorem mkHdr_usedSize {junk len : Nat} (h : len % 2 = 0) (hl : len < 4294967296) : (mkHdr junk len).usedSize = len := by
  unfold Hdr.usedSize mkHdr
  simp only [if_pos]
  rw [u32_of_lt (by omega)]
  omega

theorem mkHdr_readSize {junk len : Nat} (h : len % 2 = 0) (hl : len < 4294967248) : (mkHdr junk len).readSize = len := by
  have : (mkHdr junk len).length = 48 + len := by
    unfold Hdr.length mkHdr
    simp only [if_pos]
    rw [u32_of_lt (by omega)]
    omega
  unfold Hdr.readSize
  rw [this, if_neg (by omega)]
  omega

theorem info_length : infoBytes.length = 16 := rfl

theorem info_words : word infoBytes 0 = 1 ∧ word infoBytes 1 = 4194304 ∧ word infoBytes 2 = 1 ∧ word infoBytes 3 = 0 := by
  unfold infoBytes
  refine ⟨?_, ?_, ?_, ?_⟩
  · exact word_head _ _ (by omega)
  · rw [word_next]; exact word_head _ _ (by omega)
  · rw [word_next, word_next]; exact word_head _ _ (by omega)
  · rw [word_next, word_next, word_next]; exact word_last _ (by omega)

/-! ## Events -/

theorem evData_padded (e : Ev) : e.padded = evData e := by
  unfold Ev.padded evData; split <;> simp

theorem evData_even (e : Ev) : (evData e).length % 2 = 0 := by
  unfold evData
  split <;> simp <;> omega

theorem mbsEvent_length (n id : Nat) (d : Data) : (mbsEvent n id d).length = 28 + d.length := by
  simp [mbsEvent]; omega

theorem wrapped_eq (n id : Nat) (e : Ev) (h : (evData e).length ≤ 4194304) : e.wrapped n id = mbsEvent n id (evData e) := by
  unfold Ev.wrapped evHead mbsEvent
  rw [evData_padded]
  have h1 : fullWords (u32 ((evData e).length + 28)) = ((evData e).length + 20) / 2 := by
    unfold fullWords; rw [u32_of_lt (by omega), sub32_of_le (by omega) (by omega)]; rfl
  have h2 : fullWords (u32 ((evData e).length + 12)) = ((evData e).length + 4) / 2 := by
    unfold fullWords; rw [u32_of_lt (by omega), sub32_of_le (by omega) (by omega)]; rfl
  rw [h1, h2]
  rfl

theorem mbsEvents_length (id n : Nat) (l : List Ev) :
    (mbsEvents id n l).length = (l.map fun e => 28 + (evData e).length).sum := by
  induction l generalizing n with
  | nil => rfl
  | cons e l ih => simp [mbsEvents, mbsEvent_length, ih]

theorem mbsEvents_even (id n : Nat) (l : List Ev) : (mbsEvents id n l).length % 2 = 0 := by
  induction l generalizing n with
  | nil => rfl
  | cons e l ih =>
    have := evData_even e
    have := ih (n + 1)
    simp only [mbsEvents, List.length_append, mbsEvent_length]
    omega

theorem mem_le_mbsEvents (id n : Nat) {l : List Ev} {e : Ev} (h : e ∈ l) : (evData e).length ≤ (mbsEvents id n l).length := by
  induction l generalizing n with
  | nil => cases h
  | cons a l ih =>
    simp only [mbsEvents, List.length_append, mbsEvent_length]
    rcases List.mem_cons.1 h with rfl | h
    · omega
    · have := ih (n + 1) h; omega

theorem sum_padded_zero (l : List Ev) : (l.map fun e => e.padded.length).sum = 0 ↔ ¬ ∃ e ∈ l, e.data ≠ [] := by
  induction l with
  | nil => simp
  | cons e l ih =>
    rw [List.map_cons, List.sum_cons, Nat.add_eq_zero_iff, ih]
    have : e.padded.length = 0 ↔ e.data = [] := by
      rw [List.length_eq_zero_iff]
      unfold Ev.padded
      constructor
      · split
        · intro h; simp at h
        · exact id
      · rintro h; rw [h]; rfl
    rw [this]
    simp

theorem sum_padded_le (l : List Ev) : (l.map fun e => e.padded.length).sum ≤ (l.map fun e => 28 + (evData e).length).sum := by
  induction l with
  | nil => simp
  | cons e l ih => simp only [List.map_cons, List.sum_cons, evData_padded] at *; omega

/-- What `Write_Buffer` does with a buffer which can be sent. -/
theorem sendSize_spec (s : Srv) (b : Buf) (h : Fit s.iter (.buf b)) :
    (¬ Full s.iter b → s.sendSize b = none) ∧
    (Full s.iter b → s.iter = true → s.sendSize b = some (mbsEvents 0 0 b.evs).length) ∧
    (Full s.iter b → s.iter = false → s.sendSize b = some b.raw.length) := by
  unfold Srv.sendSize Full
  simp only [Fit] at h
  by_cases hr : b.raw = []
  · simp [hr]
  cases hi : s.iter with
  | false =>
    simp only [hi] at h
    simp only [hr, ne_eq, not_false_eq_true, true_and]
    simp
    exact u32_of_lt (by simp at h; omega)
  | true =>
    simp only [hi, if_true] at h
    have h1 := sum_padded_le b.evs
    have h2 := mbsEvents_length 0 0 b.evs
    have h3 := sum_padded_zero b.evs
    simp only [hr, if_false, if_true, ne_eq, not_false_eq_true, true_and, true_imp_iff, h2]
    rw [u32_of_lt (n := (b.evs.map fun e => e.padded.length).sum) (by omega)]
    refine ⟨fun h => by rw [if_pos (h3.2 h)], fun h => ?_, fun _ h => by simp at h⟩
    rw [if_neg (fun h0 => h3.1 h0 h)]
    simp only [evData_padded]
    rw [u32_of_lt (by omega)]

/-! ## Streams -/

/-- A buffer on the wire. -/
def frame (junk : Nat) (p : Data) : Data := (mkHdr junk p.length).bytes ++ p

def frames (junk : Nat) (l : List Data) : Data := (l.map (frame junk)).flatten

@[simp] theorem frames_nil (junk : Nat) : frames junk [] = [] := rfl

theorem frames_cons (junk : Nat) (p : Data) (l : List Data) : frames junk (p :: l) = (mkHdr junk p.length).bytes ++ (p ++ frames junk l) := by
  simp [frames, frame]

theorem frames_append (junk : Nat) (l l' : List Data) : frames junk (l ++ l') = frames junk l ++ frames junk l' := by
  simp [frames]

/-- Number of events in buffers which are sent. -/
def evCount (iter : Bool) : List Item → Nat
  | [] => 0
  | .eof :: l => evCount iter l
  | .buf b :: l => (if Full iter b ∧ iter = true then b.evs.length else 0) + evCount iter l

theorem payloads_append (iter : Bool) (id n : Nat) (a b : List Item) (h : Item.eof ∉ a) :
    payloads iter id n (a ++ b) = payloads iter id n a ++ payloads iter id (n + evCount iter a) b := by
  induction a generalizing n with
  | nil => rfl
  | cons i a ih =>
    have h' : Item.eof ∉ a := fun hm => h (List.mem_cons_of_mem _ hm)
    cases i with
    | eof => exact absurd (List.mem_cons_self ..) h
    | buf b' =>
      simp only [List.cons_append, payloads, evCount]
      by_cases hf : Full iter b'
      · cases iter with
        | true => simp [hf, ih _ h', Nat.add_assoc]
        | false => simp [hf, ih _ h']
      · simp [hf, ih _ h']

theorem payloads_mono (iter : Bool) (id n : Nat) (a : List Item) (i : Item) :
    ∃ d, payloads iter id n (a ++ [i]) = payloads iter id n a ++ d := by
  by_cases h : Item.eof ∈ a
  · refine ⟨[], ?_⟩
    induction a generalizing n with
    | nil => cases h
    | cons j a ih =>
      cases j with
      | eof => rfl
      | buf b =>
        have h' : Item.eof ∈ a := by simpa using h
        simp only [List.cons_append, payloads, ih _ h', List.append_nil]
  · exact ⟨_, payloads_append iter id n a [i] h⟩

theorem evCount_append (iter : Bool) (a b : List Item) : evCount iter (a ++ b) = evCount iter a + evCount iter b := by
  induction a with
  | nil => simp [evCount]
  | cons i a ih => cases i <;> simp [evCount, ih, Nat.add_assoc]

theorem posted_append (a b : List Op) : posted (a ++ b) = posted a ++ posted b := by
  induction a with
  | nil => rfl
  | cons op a ih => cases op <;> simp [posted, ih]

end Verif.MbsNet
