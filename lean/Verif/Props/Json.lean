import Verif.JsonStore

/-! # C15, C54: JSON output -/

namespace Verif.Json
open Verif.Bytes Verif.Record

/-! ## C15: strings -/

/-- Full statement: the JSON form of every string is a JSON string denoting it.  Missing: bytes from 128 on
(`C15_bytes_counterexample`). -/
theorem C15_string_partial (F : Fmt) {s : List Byte} (h : ∀ b ∈ s, b.toNat < 128) : IsJson (asJson F (.str s)) (.str (s.map BitVec.toNat)) :=
  quoted_json h

/-- Also in arrays of strings. -/
theorem C15_strings_partial (F : Fmt) {l : List (List Byte)} (h : ∀ s ∈ l, ∀ b ∈ s, b.toNat < 128) :
    IsJson (asJson F (.arrstr l)) (.arr (l.map fun s => .str (s.map BitVec.toNat))) :=
  bracket_json (fun s hs => quoted_json (h s hs))

/-- All characters of the text are printable ASCII, whatever the string is. -/
theorem C15_printable (F : Fmt) (s : List Byte) : ∀ b ∈ asJson F (.str s), 32 ≤ b.toNat ∧ b.toNat < 127 := by
  have hall : ∀ x : Fin 256, ((esc (BitVec.ofNat 8 x.val)).all fun b => 32 ≤ b.toNat && b.toNat < 127) = true := by
    set_option maxRecDepth 20000 in decide
  have hplain : ∀ x : Fin 256, let b := BitVec.ofNat 8 x.val; needReformat [b] = false → 32 ≤ b.toNat ∧ b.toNat < 127 := by
    set_option maxRecDepth 20000 in decide
  intro b hb
  simp only [asJson, quoted, List.mem_append, List.mem_singleton] at hb
  rcases hb with (rfl | hb) | rfl
  · decide
  · cases hn : needReformat s with
    | true =>
      rw [hn, if_pos rfl] at hb
      obtain ⟨x, hx, hb⟩ := List.mem_flatMap.mp hb
      have := hall ⟨x.toNat, x.isLt⟩
      simp only [BitVec.ofNat_toNat, BitVec.setWidth_eq] at this
      simpa using List.all_eq_true.mp this b hb
    | false =>
      rw [hn] at hb
      have h2 := hplain ⟨b.toNat, b.isLt⟩
      simp only [BitVec.ofNat_toNat, BitVec.setWidth_eq] at h2
      apply h2
      have := List.any_eq_false.mp hn b (by simpa using hb)
      unfold needReformat
      simpa using this
  · decide

example : asJson ⟨fun _ => [], fun _ => []⟩ (.str (lit "a\n/\"")) = lit "\"a\\n\\/\\\"\"" := by decide

/-- A byte from 128 on is written as eight digits and read as five characters. -/
theorem C15_bytes_counterexample : ∃ t, ∀ F, asJson F (.str [0xe4]) = [34] ++ t ++ [34] ∧ decodeChars t = some [0xffff, 102, 102, 101, 52] :=
  ⟨lit "\\uffffffe4", fun F => ⟨show quoted [0xe4] = _ by decide, by decide⟩⟩

/-! ## C54: records and hierarchies -/

/-- Full statement: the JSON text of every record or hierarchy is valid JSON and shows name, fields, versions, history and
childs.  Missing: names of items with special characters, names of fields with control characters or bytes from 128 on, strings with bytes from 128 on, doubles which are not numbers, raw data. -/
theorem C54_json_partial {F : Fmt} {x : Item} (h : Good F x) (o : Opts) (top : Bool) :
    ∃ w t j, saveToJson F o top x = some (w ++ t) ∧ Ws w ∧ IsJson t j ∧ MeansItem F o top x j := by
  obtain ⟨w, t, j, e, hw, hj, hm⟩ := save_spec (o := o) x ⟨[], 0, [], [], top⟩ h
  exact ⟨w, t, j, by unfold saveToJson; rw [e]; rfl, hw, hj, hm⟩

/-- Single fields of every kind. -/
theorem C54_field_partial {F : Fmt} {v : Val} (h : Writable F v) : ∃ j, Means F v j ∧ IsJson (asJson F v) j := asJson_means h

/-- A hierarchy with fields, history and a child. -/
example : Good ⟨fun _ => lit "1.5", fun _ => []⟩
    (.node (lit "top") [(lit "a", .int 5), (lit "b", .double 7), (lit "c", .str (lit "x/y"))] 3 2 1 (some ([(2, [(lit "a", .int 4)])], false)) [.node (lit "sub") [] 0 0 0 none []]) := by
  refine ⟨by unfold Printable; decide, ?_, ?_, ⟨by unfold Printable; decide, by simp, by simp, trivial⟩, trivial⟩
  · intro e he
    simp only [List.mem_cons, List.not_mem_nil, or_false] at he
    rcases he with rfl | rfl | rfl
    · exact ⟨by decide, fun _ => trivial⟩
    · exact ⟨by decide, fun _ => ⟨[], [49], [46, 53], [], rfl, Or.inl rfl, ⟨by simp, by unfold isDigit; decide⟩, Or.inr (by decide),
        Or.inr ⟨[53], rfl, by simp, by unfold isDigit; decide⟩, Or.inl rfl⟩⟩
    · exact ⟨by decide, fun _ => by unfold Writable Ascii; decide⟩
  · intro h hh x hx e he
    cases hh
    simp only [List.mem_cons, List.not_mem_nil, or_false] at hx
    subst hx
    simp only [List.mem_cons, List.not_mem_nil, or_false] at he
    subst he
    exact ⟨by decide, fun _ => trivial⟩

example : saveToJson ⟨fun _ => [], fun _ => []⟩ ⟨3, false, true, false, 0, 0⟩ true
    (.node (lit "top") [(lit "a", .bool 1)] 3 2 1 (some ([(2, [(lit "a", .bool 0)])], true)) [.node (lit "sub") [] 0 0 0 none []]) =
      some (lit "{\"_name\":\"top\",\"a\":true,\"_version\":3,\"history\":[{\"a\":false}],\"_childs\":[{\"_name\":\"sub\"}]}") := by
  simp [saveToJson, save, saveList, saveFields, saveVersions, saveHistOpt, saveHistory, saveHist, histPart, St.createNode, St.setField, St.closeNode, St.closeChilds, St.beforeChild,
    asJson, decNat, nl, ind, colon, shown, badChars, lit]

/-! ### What is not JSON -/

/-- Bytes of a JSON text outside of strings. -/
def outside : List Byte := lit "nultrefas0123456789+-.E[]{},: \n\t\r"

theorem ws_outside {w : List Byte} (h : Ws w) : ∀ b ∈ w, b ∈ outside := by
  intro b hb
  rcases h b hb with rfl | rfl | rfl | rfl <;> decide

theorem digit_outside {t : List Byte} (h : Digits t) : ∀ b ∈ t, b ∈ outside := by
  have key : ∀ x : Fin 256, 48 ≤ x.val ∧ x.val ≤ 57 → BitVec.ofNat 8 x.val ∈ outside := by set_option maxRecDepth 20000 in decide
  intro b hb
  have := key ⟨b.toNat, b.isLt⟩ (h.2 b hb)
  simpa using this

theorem num_outside {t : List Byte} (h : JNum t) : ∀ b ∈ t, b ∈ outside := by
  obtain ⟨s, i, f, e, rfl, h1, h2, _, h4, h5⟩ := h
  intro b hb
  simp only [List.mem_append] at hb
  rcases hb with ((hb | hb) | hb) | hb
  · rcases h1 with rfl | rfl
    · cases hb
    · simp only [List.mem_singleton] at hb; subst hb; decide
  · exact digit_outside h2 b hb
  · rcases h4 with rfl | ⟨d, rfl, hd⟩
    · cases hb
    · rcases List.mem_cons.mp hb with rfl | hb
      · decide
      · exact digit_outside hd b hb
  · rcases h5 with rfl | ⟨x, y, d, rfl, hx, hy, hd⟩
    · cases hb
    · simp only [List.mem_cons, List.mem_append] at hb
      rcases hb with rfl | hb | hb
      · rcases hx with rfl | rfl <;> decide
      · rcases hy with rfl | rfl | rfl
        · cases hb
        · simp only [List.mem_singleton] at hb; subst hb; decide
        · simp only [List.mem_singleton] at hb; subst hb; decide
      · exact digit_outside hd b hb

mutual
theorem json_outside : ∀ {t : List Byte} {j : JV}, IsJson t j → 34 ∉ t → ∀ b ∈ t, b ∈ outside
  | _, _, .null, _ => by decide
  | _, _, .true, _ => by decide
  | _, _, .false, _ => by decide
  | _, _, .num h, _ => num_outside h
  | _, _, .str _, hq => by simp at hq
  | _, _, .arr0 hw, _ => by
    intro b hb
    simp only [List.mem_append, List.mem_singleton] at hb
    rcases hb with (rfl | hb) | rfl
    · decide
    · exact ws_outside hw b hb
    · decide
  | _, _, .arr h, hq => by
    intro b hb
    simp only [List.mem_append, List.mem_singleton, not_or] at hb hq
    rcases hb with (rfl | hb) | rfl
    · decide
    · exact elems_outside h hq.1.2 b hb
    · decide
  | _, _, .obj0 hw, _ => by
    intro b hb
    simp only [List.mem_append, List.mem_singleton] at hb
    rcases hb with (rfl | hb) | rfl
    · decide
    · exact ws_outside hw b hb
    · decide
  | _, _, .obj h, hq => by
    exfalso
    simp only [List.mem_append, List.mem_singleton, not_or] at hq
    cases h with
    | one => simp at hq
    | cons => simp at hq
theorem elems_outside : ∀ {t : List Byte} {l : List JV}, IsElems t l → 34 ∉ t → ∀ b ∈ t, b ∈ outside
  | _, _, .one h1 h2 h3, hq => by
    intro b hb
    simp only [List.mem_append, not_or] at hb hq
    rcases hb with (hb | hb) | hb
    · exact ws_outside h1 b hb
    · exact json_outside h2 hq.1.2 b hb
    · exact ws_outside h3 b hb
  | _, _, .cons h1 h2 h3 h4, hq => by
    intro b hb
    simp only [List.mem_append, List.mem_singleton, not_or] at hb hq
    rcases hb with (((hb | hb) | hb) | rfl) | hb
    · exact ws_outside h1 b hb
    · exact json_outside h2 hq.1.1.1.2 b hb
    · exact ws_outside h3 b hb
    · decide
    · exact elems_outside h4 hq.2 b hb
end

theorem decode_noquote : ∀ {k : List Byte} {s : List Nat}, decodeChars k = some s → 92 ∉ k → 34 ∉ k
  | [], _, _, _ => by simp
  | b :: rest, s, h, hb => by
    simp only [List.mem_cons, not_or] at hb
    by_cases hp : 32 ≤ b.toNat ∧ b.toNat < 128 ∧ b ≠ 34 ∧ b ≠ 92
    · rw [decode_plain hp, Option.map_eq_some_iff] at h
      obtain ⟨r, h1, _⟩ := h
      simp only [List.mem_cons, not_or]
      exact ⟨fun e => hp.2.2.1 e.symm, decode_noquote h1 hb.2⟩
    · rw [decodeChars.eq_4 b rest (fun _ _ _ _ _ e => absurd e.symm hb.1) (fun _ _ e => absurd e.symm hb.1), if_neg hp] at h
      cases h

theorem count_zero {l : List Byte} (h : 34 ∉ l) : l.count 34 = 0 := List.count_eq_zero.mpr h

theorem ws_count {w : List Byte} (h : Ws w) : w.count 34 = 0 := by
  apply count_zero
  intro hm
  rcases h _ hm with h | h | h | h <;> revert h <;> decide

mutual
/-- Without backslashes the number of quotes is even. -/
theorem json_even : ∀ {t : List Byte} {j : JV}, IsJson t j → 92 ∉ t → t.count 34 % 2 = 0
  | _, _, .null, _ => by decide
  | _, _, .true, _ => by decide
  | _, _, .false, _ => by decide
  | _, _, .num h, _ => by
    rw [count_zero]
    intro hm
    have := num_outside h _ hm
    revert this; decide
  | _, _, .str h, hb => by
    simp only [List.mem_append, not_or] at hb
    have := count_zero (decode_noquote h hb.1.2)
    simp only [List.count_append, this, List.count_singleton_self]
  | _, _, .arr0 hw, _ => by
    simp only [List.count_append, ws_count hw]; decide
  | _, _, .arr h, hb => by
    simp only [List.mem_append, not_or] at hb
    have := elems_even h hb.1.2
    have h1 : List.count 34 [(91 : Byte)] = 0 := by decide
    have h2 : List.count 34 [(93 : Byte)] = 0 := by decide
    simp only [List.count_append, h1, h2]; omega
  | _, _, .obj0 hw, _ => by
    simp only [List.count_append, ws_count hw]; decide
  | _, _, .obj h, hb => by
    simp only [List.mem_append, not_or] at hb
    have := members_even h hb.1.2
    have h1 : List.count 34 [(123 : Byte)] = 0 := by decide
    have h2 : List.count 34 [(125 : Byte)] = 0 := by decide
    simp only [List.count_append, h1, h2]; omega
theorem elems_even : ∀ {t : List Byte} {l : List JV}, IsElems t l → 92 ∉ t → t.count 34 % 2 = 0
  | _, _, .one h1 h2 h3, hb => by
    simp only [List.mem_append, not_or] at hb
    have := json_even h2 hb.1.2
    simp only [List.count_append, ws_count h1, ws_count h3]; omega
  | _, _, .cons h1 h2 h3 h4, hb => by
    simp only [List.mem_append, not_or] at hb
    have := json_even h2 hb.1.1.1.2
    have := elems_even h4 hb.2
    have e1 : List.count 34 [(44 : Byte)] = 0 := by decide
    simp only [List.count_append, ws_count h1, ws_count h3, e1]; omega
theorem members_even : ∀ {t : List Byte} {l : List (List Nat × JV)}, IsMembers t l → 92 ∉ t → t.count 34 % 2 = 0
  | _, _, .one h1 h2 h3 h4 h5 h6, hb => by
    simp only [List.mem_append, not_or] at hb
    have := json_even h5 hb.1.2
    have hk := count_zero (decode_noquote h2 hb.1.1.1.1.1.1.2)
    have e1 : List.count 34 [(58 : Byte)] = 0 := by decide
    have e2 : List.count 34 [(34 : Byte)] = 1 := by decide
    simp only [List.count_append, ws_count h1, ws_count h3, ws_count h4, ws_count h6, hk, e1, e2]; omega
  | _, _, .cons h1 h2 h3 h4 h5 h6 h7, hb => by
    simp only [List.mem_append, not_or] at hb
    have := json_even h5 hb.1.1.1.2
    have := members_even h7 hb.2
    have hk := count_zero (decode_noquote h2 hb.1.1.1.1.1.1.1.1.2)
    have e1 : List.count 34 [(58 : Byte)] = 0 := by decide
    have e2 : List.count 34 [(34 : Byte)] = 1 := by decide
    have e3 : List.count 34 [(44 : Byte)] = 0 := by decide
    simp only [List.count_append, ws_count h1, ws_count h3, ws_count h4, ws_count h6, hk, e1, e2, e3]; omega
end

/-- The text of an item with a quote in its name is not JSON. -/
theorem C54_name_counterexample : ∀ F, ∃ t, saveToJson F ⟨3, false, false, false, 0, 0⟩ false (.node (lit "a\"b") [] 0 0 0 none []) = some t ∧ ∀ j, ¬ IsJson t j := by
  intro F
  refine ⟨lit "{\"_name\":\"a\"b\"}", ?_, ?_⟩
  · simp [saveToJson, save, saveList, saveFields, saveVersions, saveHistOpt, St.createNode, St.setField, St.closeNode, St.closeChilds, nl, ind, colon, lit]
  · intro j hj
    have := json_even hj (by decide)
    revert this; decide

/-- Raw data is not written as JSON. -/
theorem C54_buffer_counterexample : ∀ F j, ¬ IsJson (asJson F (.buffer [5])) j := by
  intro F j hj
  have e : asJson F (.buffer [5]) = lit "[0x05]" := by show bracket [lit "0x" ++ hexDigits 2 5] = _; decide
  rw [e] at hj
  have := json_outside hj (by decide) 120 (by decide)
  revert this; decide

/-- An infinite double is not written as JSON. -/
theorem C54_double_counterexample : ∀ F w j, F.g w = lit "inf" → ¬ IsJson (asJson F (.double w)) j := by
  intro F w j he hj
  have e : asJson F (.double w) = lit "inf" := he
  rw [e] at hj
  have := json_outside hj (by decide) 105 (by decide)
  revert this; decide

end Verif.Json
