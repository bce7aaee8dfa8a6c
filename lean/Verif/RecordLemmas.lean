import Verif.Record
import Verif.StreamLemmas
import Verif.Spec.Record

namespace Verif.Record
open Verif.Bytes Verif.Stream

/-- Bytes of the value. -/
def valueBytes : Val → List Byte
  | .none => []
  | .bool v | .int v | .datime v | .uint v | .double v => enc 8 v.toNat
  | .arrint l | .arruint l | .arrdouble l => enc 8 l.length ++ words l
  | .str v => v ++ [0]
  | .arrstr l => enc 8 l.length ++ strs l
  | .buffer b => enc 8 b.length ++ b
  | .reference _ => []
  | .other _ => []

theorem writeTwo {s : OStr} {a b : List Byte} (h : s.Fits (a ++ b).length) : (s.write a).write b = s.app (a ++ b) := by
  rw [List.length_append] at h
  rw [write_app (fits_mono h (by omega)), write_app (fits_app h), app_app]

theorem writeValue_app {s : OStr} {v : Val} (h : s.Fits (valueBytes v).length) : writeValue s v = s.app (valueBytes v) := by
  cases v <;> simp only [writeValue, valueBytes, app_nil] at * <;> first | exact write_app h | exact writeTwo h | rfl

/-- Size of a field. -/
def fieldSize (v : Val) : Nat := roundUp8 (8 + (valueBytes v).length)

/-- Bytes of a field. -/
def fieldBytes (v : Val) : List Byte :=
  (enc 4 (fieldSize v / 8) ++ enc 4 (v.kind % 2 ^ 24) ++ valueBytes v) ++ List.replicate (fieldSize v - (8 + (valueBytes v).length)) 0

@[simp] theorem fieldBytes_length (v : Val) : (fieldBytes v).length = fieldSize v := by
  have := roundUp8_spec (8 + (valueBytes v).length)
  simp only [fieldBytes, List.length_append, enc_length, List.length_replicate, fieldSize] at *
  omega

theorem fieldSize_mod (v : Val) : fieldSize v % 8 = 0 ∧ 8 ≤ fieldSize v := by
  have := roundUp8_spec (8 + (valueBytes v).length)
  unfold fieldSize; omega

theorem writeFieldSz_app {s : OStr} {v : Val} {sz : Nat} (hp : s.pos % 8 = 0) (hf : s.Fits (fieldSize v))
    (hsz : sz = if s.isReal then fieldSize v else 0) :
    writeFieldSz sz s v =
      (s.app ((enc 4 (sz / 8) ++ enc 4 (v.kind % 2 ^ 24) ++ valueBytes v) ++ List.replicate (fieldSize v - (8 + (valueBytes v).length)) 0), true) := by
  have hru := roundUp8_spec (8 + (valueBytes v).length)
  unfold fieldSize at *
  unfold writeFieldSz
  have h1 : (s.u32 (sz / 8)).u32 (v.kind % 2 ^ 24) = s.app (enc 4 (sz / 8) ++ enc 4 (v.kind % 2 ^ 24)) :=
    writeTwo (fits_mono hf (by simp only [List.length_append, enc_length]; omega))
  rw [h1, writeValue_app (fits_app (fits_mono hf (by simp only [List.length_append, enc_length]; omega))), app_app]
  have hlen : (enc 4 (sz / 8) ++ enc 4 (v.kind % 2 ^ 24) ++ valueBytes v).length = 8 + (valueBytes v).length := by
    simp only [List.length_append, enc_length]
  rw [verify_app hp (by rw [hlen]; exact hsz) (by omega) (by rw [hlen]; exact hf), hlen]

theorem storeSize_eq (v : Val) : storeSize v = fieldSize v := by
  have hru := roundUp8_spec (8 + (valueBytes v).length)
  unfold storeSize
  rw [writeFieldSz_app (s := .size 0) (v := v) (sz := 0) (by rfl) trivial (by rfl)]
  rw [app_pos]
  simp only [List.length_append, enc_length, List.length_replicate, fieldSize, OStr.pos]
  omega

theorem app_size_congr {n : Nat} {a b : List Byte} (h : a.length = b.length) : (OStr.size n).app a = (OStr.size n).app b := by
  simp [OStr.app, h]

theorem writeField_app {s : OStr} {v : Val} (hp : s.pos % 8 = 0) (hf : s.Fits (fieldSize v)) :
    writeField s v = (s.app (fieldBytes v), true) := by
  unfold writeField
  rw [storeSize_eq, writeFieldSz_app hp hf rfl]
  cases s with
  | mem out room => rfl
  | size n =>
    rw [app_size_congr]
    simp [fieldBytes]

/-! ## Reading of fields -/

theorem words_length (l : List Word) : (words l).length = 8 * l.length := by
  induction l with
  | nil => rfl
  | cons w l ih =>
    simp only [words, List.flatMap_cons, List.length_append, enc_length, List.length_cons] at *
    omega

theorem dec_word (w : Word) : BitVec.ofNat 64 (dec (enc 8 w.toNat)) = w := by
  rw [dec_enc_of_lt (by have := w.isLt; simpa using this)]
  simp

theorem cutWords_words (l : List Word) : cutWords l.length (words l) = l := by
  induction l with
  | nil => rfl
  | cons w l ih =>
    have e : words (w :: l) = enc 8 w.toNat ++ words l := rfl
    rw [e]
    simp only [List.length_cons, cutWords]
    rw [List.take_left' (by simp), List.drop_left' (by simp), ih, dec_word]

theorem cutStrs_strs (l : List (List Byte)) (h : ∀ s ∈ l, 0 ∉ s) (rest : List Byte) : cutStrs l.length (strs l ++ rest) = some l := by
  induction l with
  | nil => rfl
  | cons s l ih =>
    have e : strs (s :: l) ++ rest = s ++ 0 :: (strs l ++ rest) := by simp [strs]
    rw [e]
    simp only [List.length_cons, cutStrs]
    rw [cstr_append (h s (by simp))]
    simp only [Option.bind_some]
    have : (s ++ 0 :: (strs l ++ rest)).drop (s.length + 1) = strs l ++ rest := by
      rw [← List.drop_drop, List.drop_left]; rfl
    rw [this, ih (fun t ht => h t (by simp [ht]))]
    rfl

theorem strs_length_ge (l : List (List Byte)) : l.length ≤ (strs l).length := by
  induction l with
  | nil => simp
  | cons s l ih => simp only [strs, List.flatMap_cons, List.length_append, List.length_cons, List.length_nil] at *; omega

theorem storable_lt {v : Val} (hs : Storable v) : fieldSize v < 2 ^ 35 := by
  rw [← storeSize_eq]
  cases v <;> simp only [Storable] at hs <;> omega

theorem storable_lt32 {v : Val} (hs : Storable v) : v.kind = 9 ∨ v.kind = 10 → fieldSize v < 2 ^ 32 := by
  rw [← storeSize_eq]
  cases v <;> simp only [Storable, Val.kind] at hs ⊢ <;> omega

theorem readWord_append (w : Word) (b : List Byte) (p : Nat) : readWord ⟨enc 8 w.toNat ++ b, p⟩ = some (w, ⟨b, p + 8⟩) := by
  unfold readWord
  rw [u64_append (by have := w.isLt; simpa using this)]
  simp

theorem readArr_append (l : List Word) (b : List Byte) (p : Nat) (h : l.length < 2 ^ 64) :
    readArr ⟨enc 8 l.length ++ words l ++ b, p⟩ = some (l, ⟨b, p + (8 + (words l).length)⟩) := by
  unfold readArr
  rw [List.append_assoc, u64_append h]
  simp only [Option.bind_some]
  rw [read_append (by rw [words_length]; omega)]
  simp only [Option.map_some, cutWords_words]
  congr 3
  rw [words_length]; omega

theorem bytes32_eq {n k m : Nat} (h : n = m / 8) (hm : m % 8 = 0) (hk : k * 8 ≤ m) (hlt : m < 2 ^ 32) : bytes32 n k = m - k * 8 := by
  unfold bytes32; omega

theorem readValue_str {s : List Byte} (hv : 0 ∉ s) {pad rest : List Byte} {n p len : Nat} (hb : bytes32 n 1 = (s ++ 0 :: pad).length)
    (hL : (s ++ 0 :: pad).length = len) :
    readValue 9 n ⟨(s ++ 0 :: pad) ++ rest, p⟩ = some (.str s, ⟨rest, p + len⟩) := by
  have e : ∀ (n : Nat) (s : IStr), readValue 9 n s = (s.read (bytes32 n 1)).bind fun (b, s) => (cstr b).map fun v => (.str v, s) :=
    fun _ _ => rfl
  rw [e, hb, hL, read_append hL]
  simp only [Option.bind_some]
  rw [cstr_append hv]
  rfl

theorem readValue_10 {n k : Nat} (h : bytes32 n 2 = k) (s : IStr) : readValue 10 n s = (s.u64).bind fun r =>
      (r.2.read k).bind fun q => (cutStrs r.1 q.1).map fun l => (.arrstr l, q.2) := by
  subst h; rfl

theorem readValue_arrstr {l : List (List Byte)} (hv : ∀ s ∈ l, 0 ∉ s) (hl : l.length < 2 ^ 64) {pad rest : List Byte} {n p len : Nat}
    (hb : bytes32 n 2 = len) (hL : (strs l ++ pad).length = len) :
    readValue 10 n ⟨enc 8 l.length ++ ((strs l ++ pad) ++ rest), p⟩ = some (.arrstr l, ⟨rest, p + 8 + len⟩) := by
  rw [readValue_10 hb]
  clear hb
  rw [u64_append hl, Option.bind_some]
  rw [read_append hL, Option.bind_some]
  rw [cutStrs_strs l hv]
  rfl

theorem readValue_bool (n p : Nat) (w : Word) (b : List Byte) : readValue 1 n ⟨enc 8 w.toNat ++ b, p⟩ = some (.bool w, ⟨b, p + 8⟩) := by
  have e : ∀ s, readValue 1 n s = (readWord s).map fun r => (.bool r.1, r.2) := fun _ => rfl
  rw [e, readWord_append, Option.map_some]

theorem readValue_int (n p : Nat) (w : Word) (b : List Byte) : readValue 2 n ⟨enc 8 w.toNat ++ b, p⟩ = some (.int w, ⟨b, p + 8⟩) := by
  have e : ∀ s, readValue 2 n s = (readWord s).map fun r => (.int r.1, r.2) := fun _ => rfl
  rw [e, readWord_append, Option.map_some]

theorem readValue_datime (n p : Nat) (w : Word) (b : List Byte) : readValue 3 n ⟨enc 8 w.toNat ++ b, p⟩ = some (.datime w, ⟨b, p + 8⟩) := by
  have e : ∀ s, readValue 3 n s = (readWord s).map fun r => (.datime r.1, r.2) := fun _ => rfl
  rw [e, readWord_append, Option.map_some]

theorem readValue_uint (n p : Nat) (w : Word) (b : List Byte) : readValue 4 n ⟨enc 8 w.toNat ++ b, p⟩ = some (.uint w, ⟨b, p + 8⟩) := by
  have e : ∀ s, readValue 4 n s = (readWord s).map fun r => (.uint r.1, r.2) := fun _ => rfl
  rw [e, readWord_append, Option.map_some]

theorem readValue_double (n p : Nat) (w : Word) (b : List Byte) : readValue 5 n ⟨enc 8 w.toNat ++ b, p⟩ = some (.double w, ⟨b, p + 8⟩) := by
  have e : ∀ s, readValue 5 n s = (readWord s).map fun r => (.double r.1, r.2) := fun _ => rfl
  rw [e, readWord_append, Option.map_some]

theorem readValue_arrint (n p : Nat) (l : List Word) (b : List Byte) (hl : l.length < 2 ^ 64) :
    readValue 6 n ⟨enc 8 l.length ++ words l ++ b, p⟩ = some (.arrint l, ⟨b, p + (8 + (words l).length)⟩) := by
  have e : ∀ s, readValue 6 n s = (readArr s).map fun r => (.arrint r.1, r.2) := fun _ => rfl
  rw [e, readArr_append l b p hl, Option.map_some]

theorem readValue_arruint (n p : Nat) (l : List Word) (b : List Byte) (hl : l.length < 2 ^ 64) :
    readValue 7 n ⟨enc 8 l.length ++ words l ++ b, p⟩ = some (.arruint l, ⟨b, p + (8 + (words l).length)⟩) := by
  have e : ∀ s, readValue 7 n s = (readArr s).map fun r => (.arruint r.1, r.2) := fun _ => rfl
  rw [e, readArr_append l b p hl, Option.map_some]

theorem readValue_arrdouble (n p : Nat) (l : List Word) (b : List Byte) (hl : l.length < 2 ^ 64) :
    readValue 8 n ⟨enc 8 l.length ++ words l ++ b, p⟩ = some (.arrdouble l, ⟨b, p + (8 + (words l).length)⟩) := by
  have e : ∀ s, readValue 8 n s = (readArr s).map fun r => (.arrdouble r.1, r.2) := fun _ => rfl
  rw [e, readArr_append l b p hl, Option.map_some]

/-- The value and the padding bytes are read such that the rest of the field is `pre`. -/
theorem readValue_append {v : Val} (hs : Storable v) (rest : List Byte) (p : Nat) :
    ∃ pre q, readValue v.kind (fieldSize v / 8) ⟨valueBytes v ++ List.replicate (fieldSize v - (8 + (valueBytes v).length)) 0 ++ rest, p⟩
        = some (readBack v, ⟨pre ++ rest, q⟩) ∧ q + pre.length = p + (fieldSize v - 8) ∧ p ≤ q := by
  have hfs := fieldSize_mod v
  have hv := hs
  have hlt := storable_lt hs
  have h32 := storable_lt32 hs
  have hge : 8 + (valueBytes v).length ≤ fieldSize v := (roundUp8_spec _).1
  generalize hpad : List.replicate (fieldSize v - (8 + (valueBytes v).length)) (0 : Byte) = pad
  have hpl : pad.length = fieldSize v - (8 + (valueBytes v).length) := by rw [← hpad]; simp
  clear hpad
  generalize fieldSize v = fs at *
  rw [List.append_assoc]
  have hw : ∀ w : Word, (enc 8 w.toNat).length = (valueBytes v).length → p + 8 + pad.length = p + (fs - 8) ∧ p ≤ p + 8 := by
    intro w h; rw [enc_length] at h; omega
  have ha : ∀ l : List Word, (enc 8 l.length ++ words l).length = (valueBytes v).length →
      (p + (8 + (words l).length) + pad.length = p + (fs - 8) ∧ p ≤ p + (8 + (words l).length)) ∧ l.length < 2 ^ 64 := by
    intro l h
    have := words_length l
    rw [List.length_append, enc_length] at h
    omega
  have h0 : (valueBytes v).length = 0 → p + pad.length = p + (fs - 8) ∧ p ≤ p := by omega
  cases v with
  | none => exact ⟨pad, p, rfl, h0 rfl⟩
  | bool w => exact ⟨pad, p + 8, readValue_bool _ p w _, hw w rfl⟩
  | int w => exact ⟨pad, p + 8, readValue_int _ p w _, hw w rfl⟩
  | datime w => exact ⟨pad, p + 8, readValue_datime _ p w _, hw w rfl⟩
  | uint w => exact ⟨pad, p + 8, readValue_uint _ p w _, hw w rfl⟩
  | double w => exact ⟨pad, p + 8, readValue_double _ p w _, hw w rfl⟩
  | arrint l => exact ⟨pad, p + (8 + (words l).length), readValue_arrint _ p l _ (ha l rfl).2, (ha l rfl).1⟩
  | arruint l => exact ⟨pad, p + (8 + (words l).length), readValue_arruint _ p l _ (ha l rfl).2, (ha l rfl).1⟩
  | arrdouble l => exact ⟨pad, p + (8 + (words l).length), readValue_arrdouble _ p l _ (ha l rfl).2, (ha l rfl).1⟩
  | str s =>
    have e : valueBytes (.str s) = s ++ [0] := rfl
    rw [e] at hpl hge ⊢
    have hL : (s ++ 0 :: pad).length = fs - 8 := by
      simp only [List.length_append, List.length_cons, List.length_nil] at *; omega
    have hb : bytes32 (fs / 8) 1 = (s ++ 0 :: pad).length := by
      rw [bytes32_eq rfl hfs.1 (by omega) (h32 (Or.inl rfl)), hL]
    refine ⟨[], p + (fs - 8), ?_, rfl, by omega⟩
    rw [show s ++ [0] ++ (pad ++ rest) = (s ++ 0 :: pad) ++ rest by simp]
    exact readValue_str hv.2 hb hL
  | arrstr l =>
    have e : valueBytes (.arrstr l) = enc 8 l.length ++ strs l := rfl
    have hll := strs_length_ge l
    rw [e] at hpl hge ⊢
    have hL : (strs l ++ pad).length = fs - 8 - 8 := by
      simp only [List.length_append, enc_length] at *; omega
    rw [List.length_append, enc_length] at hge
    have hb : bytes32 (fs / 8) 2 = fs - 8 - 8 := by
      rw [bytes32_eq rfl hfs.1 (by omega) (h32 (Or.inr rfl))]; omega
    refine ⟨[], p + 8 + (fs - 8 - 8), ?_, ?_, by omega⟩
    · rw [show enc 8 l.length ++ strs l ++ (pad ++ rest) = enc 8 l.length ++ ((strs l ++ pad) ++ rest) by simp]
      exact readValue_arrstr hv.2 (by omega) hb hL
    · simp only [List.length_nil]; omega
  | buffer _ => exact absurd hv (by simp [Storable])
  | other _ => exact absurd hv (by simp [Storable])
  | reference b => exact ⟨pad, p, rfl, h0 rfl⟩

theorem kind_lt {v : Val} (hs : Storable v) : v.kind < 2 ^ 24 := by
  cases v <;> simp [Val.kind, Storable] at *

theorem readField_append {v : Val} (hs : Storable v) (rest : List Byte) {p : Nat} (hp : p % 8 = 0) :
    readField ⟨fieldBytes v ++ rest, p⟩ = some (readBack v, ⟨rest, p + fieldSize v⟩, true) := by
  have hfs := fieldSize_mod v
  have hlt := storable_lt hs
  have hk := kind_lt hs
  obtain ⟨pre, q, h1, h2, h3⟩ := readValue_append hs rest (p + 4 + 4)
  unfold readField fieldBytes
  simp only [List.append_assoc] at h1 ⊢
  rw [u32_append (by omega)]
  simp only [Option.bind_some]
  rw [u32_append (by rw [Nat.mod_eq_of_lt hk]; omega)]
  simp only [Option.bind_some, Nat.mod_eq_of_lt hk]
  rw [h1]
  simp only [Option.map_some]
  have hd : fieldSize v / 8 * 8 = fieldSize v := by omega
  rw [hd, verify_in hp hfs.1 (by omega) (by omega)]

end Verif.Record
