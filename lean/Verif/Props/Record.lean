import Verif.RecordMap

/-! # Properties C11-C13, C49: binary streaming of fields, maps and records -/

namespace Verif.Record
open Verif.Bytes Verif.Stream

/-! ## C11: a field written into memory is read back -/

/-- Full statement: every value except references (which are not stored) is read back.  Missing: buffers
(`C11_buffer_counterexample`), strings of 4 GB and more (`C11_long_string_counterexample`). -/
theorem C11_field_round_trip_partial (v : Val) (hv : Storable v) (out : List Byte) (room : Nat) (ha : out.length % 8 = 0)
    (hr : storeSize v ≤ room) :
    ∃ b, writeField (.mem out room) v = (.mem (out ++ b) (room - storeSize v), true) ∧ b.length = storeSize v ∧
      ∀ rest p, p % 8 = 0 → readField ⟨b ++ rest, p⟩ = some (readBack v, ⟨rest, p + storeSize v⟩, true) := by
  refine ⟨fieldBytes v, ?_, ?_, ?_⟩
  · rw [storeSize_eq] at *
    rw [writeField_app (s := .mem out room) ha hr, OStr.app, fieldBytes_length]
  · rw [fieldBytes_length, storeSize_eq]
  · intro rest p hp
    rw [storeSize_eq]
    exact readField_append hv rest hp

/-- An array of strings meets the hypotheses. -/
example : Storable (.arrstr [[97], [], [98, 99]]) ∧ storeSize (.arrstr [[97], [], [98, 99]]) = 24 := by
  rw [Storable, storeSize_eq]
  exact ⟨by decide, by decide⟩

/-- Buffers are not read back: writing gives 24 bytes, and reading of these bytes fails. -/
theorem C11_buffer_counterexample :
    ∃ v b, writeField (.mem [] 24) v = (.mem b 0, true) ∧ v = .buffer [1, 2, 3] ∧ readField ⟨b, 0⟩ = none ∧
      ∀ rest, 8 ≤ rest.length → ∃ s, readField ⟨b ++ rest, 0⟩ = some (.buffer [1, 2, 3], s, false) ∧ s.pos = 32 := by
  refine ⟨.buffer [1, 2, 3], fieldBytes (.buffer [1, 2, 3]), ?_, rfl, by decide, ?_⟩
  · rw [writeField_app (s := .mem [] 24) (by rfl) (show fieldSize (.buffer [1, 2, 3]) ≤ 24 by decide)]; rfl
  · intro rest hr
    obtain ⟨a0, a1, a2, a3, a4, a5, a6, a7, rest, rfl⟩ : ∃ a0 a1 a2 a3 a4 a5 a6 a7 r, rest = a0 :: a1 :: a2 :: a3 :: a4 :: a5 :: a6 :: a7 :: r := by
      match rest, hr with
      | a0 :: a1 :: a2 :: a3 :: a4 :: a5 :: a6 :: a7 :: r, _ => exact ⟨_, _, _, _, _, _, _, _, _, rfl⟩
    refine ⟨⟨rest, 32⟩, ?_, rfl⟩
    have e : fieldBytes (.buffer [1, 2, 3]) = enc 4 3 ++ enc 4 11 ++ enc 8 3 ++ ([1, 2, 3] ++ List.replicate 5 0) := by decide
    rw [e]
    unfold readField
    simp only [List.append_assoc]
    rw [u32_append (by decide)]
    simp only [Option.bind_some]
    rw [u32_append (by decide)]
    simp only [Option.bind_some]
    have e2 : ∀ s, readValue (11 % 2 ^ 24) 3 s = (s.u64).bind fun (n, s) =>
      (s.read 16).bind fun (b, s) => if n > b.length then none else some (.buffer (b.take n), s) := fun _ => rfl
    rw [e2, u64_append (by decide)]
    simp only [Option.bind_some]
    have e3 : ([1, 2, 3] : List Byte) ++ (List.replicate 5 0 ++ a0 :: a1 :: a2 :: a3 :: a4 :: a5 :: a6 :: a7 :: rest)
        = [1, 2, 3, 0, 0, 0, 0, 0, a0, a1, a2, a3, a4, a5, a6, a7] ++ rest := rfl
    rw [e3, read_append (n := 16) rfl]
    simp only [Option.bind_some]
    rfl

theorem readValue_9_none {n : Nat} (h : n * 8 = 2 ^ 32 + 8) (s : IStr) : readValue 9 n s = none := by
  have hb : bytes32 n 1 = 0 := by unfold bytes32; omega
  have e : ∀ k, bytes32 n 1 = k → readValue 9 n s = (s.read k).bind fun r => (cstr r.1).map fun v => (.str v, r.2) := by
    intro k hk; subst hk; rfl
  rw [e 0 hb]
  simp [IStr.read, cstr]

theorem readField_long {n : Nat} (hn : n < 2 ^ 32) (h : ∀ s, readValue 9 n s = none) (d : List Byte) : readField ⟨enc 4 n ++ (enc 4 9 ++ d), 0⟩ = none := by
  have h1 := u32_append (v := n) (b := enc 4 9 ++ d) (p := 0) hn
  have h2 := u32_append (v := 9) (b := d) (p := 0 + 4) (by omega)
  unfold readField
  rw [h1, Option.bind_some]
  simp only
  rw [h2, Option.bind_some]
  simp only
  rw [Nat.mod_eq_of_lt (by omega : 9 < 2 ^ 24)]
  rw [h, Option.map_none]

/-- A string such that the field needs 2^32+8 bytes cannot be read back: the size computed in line 429 is zero. -/
theorem C11_long_string_counterexample (s : List Byte) (hs : s.length + 1 = 2 ^ 32) (rest : List Byte) :
    ∃ b room, writeField (.mem [] room) (.str s) = (.mem b 0, true) ∧ readField ⟨b ++ rest, 0⟩ = none := by
  have hl : (valueBytes (.str s)).length = s.length + 1 := by
    simp only [valueBytes, List.length_append, List.length_cons, List.length_nil]
  have hru := roundUp8_spec (8 + (valueBytes (.str s)).length)
  have hfs : fieldSize (.str s) / 8 * 8 = 2 ^ 32 + 8 := by
    have : fieldSize (.str s) = roundUp8 (8 + (valueBytes (.str s)).length) := rfl
    omega
  refine ⟨fieldBytes (.str s), fieldSize (.str s), ?_, ?_⟩
  · rw [writeField_app (by rfl) (show OStr.Fits (.mem [] _) _ from Nat.le_refl _), OStr.app, fieldBytes_length, Nat.sub_self, List.nil_append]
  · unfold fieldBytes
    rw [show (Val.str s).kind % 2 ^ 24 = 9 from rfl]
    simp only [List.append_assoc]
    exact readField_long (by omega) (readValue_9_none hfs) _

example : ∃ s : List Byte, s.length + 1 = 2 ^ 32 := ⟨List.replicate (2 ^ 32 - 1) 1, by rw [List.length_replicate]⟩

/-! ## C12: fields maps and records are read back -/

/-- Full statement: for all maps.  Missing: values which cannot be stored (see C11), names with null bytes,
2^24 fields and more.  Fields whose name is empty, starts with `#` or does not start with the prefix take no part
in the streaming: they keep their value in the target map. -/
theorem C12_map_round_trip_partial (src dst : FMap) (pre : Name) (hs : Sorted src) (hd : Sorted dst) (hm : MapStorable src pre)
    (out : List Byte) (room : Nat) (ha : out.length % 8 = 0) (hr : mapStoreSize src pre ≤ room) :
    ∃ b, writeMap (.mem out room) src pre = (.mem (out ++ b) (room - mapStoreSize src pre), true) ∧ b.length = mapStoreSize src pre ∧
      ∀ rest p, p % 8 = 0 → ∃ res, readMap ⟨b ++ rest, p⟩ dst pre = some (res, ⟨rest, p + mapStoreSize src pre⟩, true) ∧ Sorted res ∧
        ∀ n, (find res n).map Field.val =
          if matchPrefix n pre then (find src n).map fun f => readBack f.val else (find dst n).map Field.val := by
  obtain ⟨h1, h2, h3⟩ := hm
  have hn : ∀ e ∈ src, matchPrefix e.1 pre = true → strStoreSize e.1 ≤ 0xffffffff :=
    fun e he hp => by have := (h3 e he hp).2.2; omega
  rw [mapStoreSize_eq hn] at *
  refine ⟨mapBytes src pre, ?_, mapBytes_length _ _, ?_⟩
  · rw [writeMap_app (s := .mem out room) ha hr hn, OStr.app, mapBytes_length]
  · intro rest p hp
    refine ⟨_, readMap_append hp h1 (fun e he hp => (h3 e he hp).2.2) (fun e he hp => ⟨(h3 e he hp).1, (h3 e he hp).2.1⟩) h2, ?_, ?_⟩
    · exact sorted_filter (sorted_applyEntries (sorted_map hd fun e => { e.2 with touched := false })) _
    · intro n
      have hd' := sorted_map hd fun e => { e.2 with touched := false }
      rw [find_filter (sorted_applyEntries hd')]
      rw [find_applyEntries (sorted_matchPrefix hs pre) hd', find_filter hs]
      rw [find_map dst (fun e => { e.2 with touched := false })]
      by_cases hp : matchPrefix n pre = true
      · simp only [hp, if_true]
        have e1 : (find src n).filter (fun _ => true) = find src n := by cases find src n <;> rfl
        rw [e1]
        cases find src n with
        | none => cases find dst n <;> simp [Option.filter]
        | some f => simp [Option.filter]
      · simp only [hp]
        have e1 : (find src n).filter (fun _ => false) = none := by cases find src n <;> rfl
        simp only [Bool.false_eq_true, if_false]
        rw [e1]
        cases find dst n with
        | none => rfl
        | some f => simp [Option.filter]

/-- A map with two fields, one of them invisible, read into a map with another field. -/
example : MapStorable [([35, 97], { val := .int 5 }), ([98], { val := .str [99] })] [] ∧
    Sorted [([35, 97], { val := .int 5 }), ([98], { val := .str [99] })] := by
  refine ⟨⟨?_, by decide, ?_⟩, by unfold Sorted; decide⟩
  · rw [mapStoreSize_eq (by decide)]; decide
  · intro e he hp
    simp only [List.mem_cons, List.not_mem_nil, or_false] at he
    rcases he with rfl | rfl
    · exact absurd hp (by decide)
    · refine ⟨?_, by decide, by decide⟩
      rw [Storable, storeSize_eq]; decide

/-- A record saved into a buffer and read from it, also into a record with other content.  Missing: as for maps. -/
theorem C12_record_round_trip_partial (name : Name) (src dst : FMap) (hs : Sorted src) (hd : Sorted dst) (hm : MapStorable src [])
    (hname : 0 ∉ name) (hnl : strStoreSize name < 2 ^ 32) :
    ∃ b, saveToBuffer name src = some b ∧ b.length = recStoreSize name src ∧
      ∃ res, readFromBuffer b dst = some (name, res, true) ∧ Sorted res ∧
        ∀ n, (find res n).map Field.val =
          if matchPrefix n [] then (find src n).map fun f => readBack f.val else (find dst n).map Field.val := by
  have hn : ∀ e ∈ src, matchPrefix e.1 [] = true → strStoreSize e.1 ≤ 0xffffffff :=
    fun e he hp => by have := (hm.2.2 e he hp).2.2; omega
  have hmod := recSize_mod name src
  have hmm := mapSize_mod src []
  have hsm := strStoreSize_mod name
  have hms : mapSize src [] < 2 ^ 35 := by have := hm.1; rwa [mapStoreSize_eq hn] at this
  have hrs : recSize name src = 8 + strStoreSize name + mapSize src [] := rfl
  have hm8 : 8 ≤ mapSize src [] := Nat.le_add_right _ _
  obtain ⟨b, hb, hbl, hb2⟩ := C12_map_round_trip_partial src dst [] hs hd hm [] (mapSize src []) rfl (by rw [mapStoreSize_eq hn]; exact Nat.le_refl _)
  rw [writeMap_app (by rfl) (show OStr.Fits (.mem [] _) _ from Nat.le_refl _) hn] at hb
  have hb' : b = mapBytes src [] := by
    simp only [OStr.app, List.nil_append, Prod.mk.injEq, OStr.mem.injEq] at hb
    exact hb.1.1.symm
  obtain ⟨res, hr1, hr2, hr3⟩ := hb2 [] (8 + strStoreSize name) (by omega)
  refine ⟨_, saveToBuffer_eq (by omega) hn, ?_, res, ?_, hr2, hr3⟩
  · rw [recStoreSize_eq (by omega) hn]
    simp only [List.length_append, enc_length, strBytes_length, mapBytes_length, recSize]
  · unfold readFromBuffer readRec
    simp only [List.append_assoc]
    rw [u64_append (by omega)]
    simp only [Option.bind_some]
    rw [readStr_append (by rfl) hname hnl (by rw [mapBytes_length]; omega)]
    simp only [Option.bind_some]
    rw [hb', List.append_nil, mapStoreSize_eq hn] at hr1
    rw [show 0 + 8 + strStoreSize name = 8 + strStoreSize name by omega, hr1]
    simp only [Option.map_some]
    have hv := verify_in (a := []) (b := []) (pos := 0) (sz := recSize name src) (q := 8 + strStoreSize name + mapSize src []) (by rfl) hmod
      (by simp only [List.length_nil]; omega) (by omega)
    simp only [List.nil_append] at hv
    rw [hv]

/-! ## C13: the announced size is the number of bytes written -/

/-- For every value, also the ones which cannot be read back, and every stream (real or only counting). -/
theorem C13_field_size (v : Val) (s : OStr) (ha : s.pos % 8 = 0) (hf : ∀ out room, s = .mem out room → storeSize v ≤ room) :
    (writeField s v).2 = true ∧ (writeField s v).1.pos = s.pos + storeSize v ∧ storeSize v % 8 = 0 := by
  have hf' : s.Fits (fieldSize v) := by
    cases s with
    | mem out room => have := hf out room rfl; rw [storeSize_eq] at this; exact this
    | size n => trivial
  rw [writeField_app ha hf', storeSize_eq]
  exact ⟨rfl, by rw [app_pos, fieldBytes_length], (fieldSize_mod v).1⟩

/-- Full statement: for every map.  Missing: names of 4 GB and more, which the counting stream refuses. -/
theorem C13_map_size_partial (m : FMap) (pre : Name) (s : OStr) (ha : s.pos % 8 = 0) (hf : ∀ out room, s = .mem out room → mapStoreSize m pre ≤ room)
    (hn : ∀ e ∈ m, matchPrefix e.1 pre = true → strStoreSize e.1 ≤ 0xffffffff) :
    (writeMap s m pre).2 = true ∧ (writeMap s m pre).1.pos = s.pos + mapStoreSize m pre ∧ mapStoreSize m pre % 8 = 0 := by
  rw [mapStoreSize_eq hn] at *
  have hf' : s.Fits (mapSize m pre) := by
    cases s with
    | mem out room => exact hf out room rfl
    | size n => trivial
  rw [writeMap_app ha hf' hn]
  exact ⟨rfl, by rw [app_pos, mapBytes_length], mapSize_mod m pre⟩

example : ∃ s : OStr, s.pos % 8 = 0 ∧ s.isReal = true ∧ s.Fits (storeSize (.buffer [1, 2])) :=
  ⟨.mem [] 24, rfl, rfl, by rw [storeSize_eq]; exact (by decide : fieldSize (.buffer [1, 2]) ≤ 24)⟩

/-- Nothing is written behind the end of the memory, whatever the room is. -/
theorem write_bound (s : OStr) (b : List Byte) (out : List Byte) (room n : Nat) (h : s = .mem out room) (hn : out.length + room = n) :
    ∃ out' room', s.write b = .mem out' room' ∧ out'.length + room' = n ∧ out <+: out' := by
  subst h
  unfold OStr.write
  simp only
  split
  · exact ⟨_, _, rfl, hn, List.prefix_rfl⟩
  · refine ⟨_, _, rfl, ?_, List.prefix_append _ _⟩
    rw [List.length_append]; omega

/-! ## C49: strings -/

/-- Full statement: every string is read back.  Missing: a string which is the last item of the stream
(`C49_string_at_end_counterexample`); a further item needs at least 4 bytes. -/
theorem C49_string_round_trip_partial (str : Name) (hs : 0 ∉ str) (hl : strStoreSize str < 2 ^ 32) (out : List Byte) (room : Nat)
    (ha : out.length % 8 = 0) (hr : strStoreSize str ≤ room) :
    ∃ b, OStr.writeStr (.mem out room) str = (.mem (out ++ b) (room - strStoreSize str), true) ∧ b.length = strStoreSize str ∧
      ∀ rest p, 4 ≤ rest.length → p % 8 = 0 → IStr.readStr ⟨b ++ rest, p⟩ = some (str, ⟨rest, p + strStoreSize str⟩, true) := by
  refine ⟨strBytes str, ?_, strBytes_length str, fun rest p h4 hp => readStr_append hp hs hl h4⟩
  rw [writeStr_app (s := .mem out room) ha hr (by omega), OStr.app, strBytes_length]

example : (0 : Byte) ∉ ([100, 97] : Name) ∧ strStoreSize [100, 97] < 2 ^ 32 := by decide

/-- A string stored at the end of a stream is never read back: `read_str` fails for all of them. -/
theorem C49_string_at_end_counterexample (str : Name) (hl : strStoreSize str < 2 ^ 32) (p : Nat) :
    ∃ b, OStr.writeStr (.mem [] (strStoreSize str)) str = (.mem b 0, true) ∧ IStr.readStr ⟨b, p⟩ = some ([], ⟨b.drop 4, p + 4⟩, false) := by
  have hmod := strStoreSize_mod str
  have hlen := strBytes_length str
  refine ⟨strBytes str, ?_, ?_⟩
  · rw [writeStr_app (by rfl) (show OStr.Fits (.mem [] _) _ from Nat.le_refl _) (by omega), OStr.app, hlen, Nat.sub_self, List.nil_append]
  · have e : ∃ r, strBytes str = enc 4 (strStoreSize str / 8) ++ r := by
      unfold strBytes; exact ⟨_, List.append_assoc _ _ _⟩
    obtain ⟨r, hr⟩ := e
    rw [hr] at hlen ⊢
    rw [List.length_append, enc_length] at hlen
    unfold IStr.readStr
    rw [u32_append (by omega)]
    simp only [Option.bind_some]
    rw [if_pos (by omega), List.drop_left' (by rw [enc_length])]

end Verif.Record
