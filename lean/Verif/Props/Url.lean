import Verif.UrlItems

/-! # C16, C17: item addresses and URLs -/

namespace Verif.Url
open Verif.Bytes Verif.Json Verif.Text

/-! ## C16 -/

/-- A composed item name is decomposed into node and item. -/
theorem C16_item {node : Int} {item : List Byte} (h0 : 0 ≤ node) (h1 : node < 2 ^ 31) (hq : 63 ∉ item) (hz : 0 ∉ item) :
    decomposeItem (composeItem node item) = some (some (node, item)) := by
  unfold composeItem
  rw [if_neg (by omega), cstr_id hz]
  exact decomposeItem_compose h0 h1 hq

/-- Nothing is composed for a negative node, and nothing decomposed from it. -/
theorem C16_negative {node : Int} (h : node < 0) (item : List Byte) : decomposeItem (composeItem node item) = some none := by
  unfold composeItem
  rw [if_pos h]
  decide

/-- Port names: the number follows the name. -/
theorem C16_port {node id : Int} {port : List Byte} (h0 : 0 ≤ node) (h1 : node < 2 ^ 31) (hp : port ≠ []) (hq : 63 ∉ port) (hz : 0 ∉ port) :
    ∃ t, (if 0 ≤ id then Digits t ∧ (natVal t : Int) = id else t = []) ∧ decomposeItem (composePort node port id) = some (some (node, port ++ t)) := by
  unfold composePort
  rw [if_neg (by rintro (h | h); omega; exact hp h)]
  unfold composeItem
  rw [if_neg (by omega), cstr_id hz]
  by_cases hi : 0 ≤ id
  · rw [if_pos hi]
    obtain ⟨n, rfl⟩ := Int.eq_ofNat_of_zero_le hi
    obtain ⟨g1, g2, _, _⟩ := decNat_spec n
    refine ⟨decNat n, by rw [if_pos hi]; exact ⟨g1, by rw [g2]⟩, ?_⟩
    rw [decInt_nat, List.append_assoc]
    apply decomposeItem_compose h0 h1
    intro hm
    rcases List.mem_append.mp hm with hm | hm
    · exact hq hm
    · exact decNat_free n (by unfold isDigit; decide) hm
  · rw [if_neg (show ¬ id ≥ 0 from hi)]
    refine ⟨[], by rw [if_neg hi], ?_⟩
    simp only [List.append_nil]
    exact decomposeItem_compose h0 h1 hq

/-- Addresses: server and item come back; the local server is recognised. -/
theorem C16_address {m : Mgr} {server item : List Byte} (hs : IsServer server) (hi : IsItem item) :
    decomposeAddr m (composeAddr m server item) = some (some (decide (server = m.localAddr ∨ server = lit "localhost"),
      if server = m.localAddr ∨ server = lit "localhost" then m.localAddr else server, item)) := by
  rw [composeAddr_server (server_noslash hs) (server_ne hs) hi.2, decomposeAddr_server hs]
  · by_cases e : item = []
    · subst e; rfl
    · rw [if_neg e]; rfl
  · intro t ht
    split at ht
    · cases ht
    · cases ht; exact hi.1

/-- The same with the protocol given in the server name. -/
theorem C16_address_protocol {m : Mgr} {server item : List Byte} (hs : IsServer server) (hi : IsItem item) :
    composeAddr m (lit "dabc://" ++ server) item = composeAddr m server item := by
  rw [composeAddr_server (server_noslash hs) (server_ne hs) hi.2]
  have hne : lit "dabc://" ++ server ≠ [] := by simp [lit]
  unfold composeAddr
  dsimp only
  rw [if_neg hne, if_neg hne, if_pos (find_prefix (List.prefix_append _ _))]
  cases item with
  | nil => simp [opt]
  | cons c r =>
    have hc : c ≠ 47 := by simpa using hi.2
    show _ ++ (if c = 47 then [] else [47]) ++ _ = _
    have e : lit "/" = [47] := by decide
    rw [if_neg hc]
    simp [opt, e]

/-- Without server the address of this node is used. -/
theorem C16_address_local {m : Mgr} {item : List Byte} (hs : IsServer m.localAddr) (hi : IsItem item) :
    decomposeAddr m (composeAddr m [] item) = some (some (true, m.localAddr, item)) := by
  have e : composeAddr m [] item = composeAddr m m.localAddr item := by
    unfold composeAddr
    simp [server_ne hs]
  rw [e, C16_address hs hi]
  simp

example : composeItem 3 (lit "Module/Input0") = lit "dabc://node3/Module/Input0" := by
  simp [composeItem, decInt, decNat, cstr, lit]
example : decomposeItem (lit "dabc://node3/Module/Input0") = some (some (3, lit "Module/Input0")) := by decide
example : IsServer (lit "lxg0526:8090") :=
  ⟨lit "lxg0526", some (lit "8090"), by decide, by decide, by decide, by decide, by
    intro t ht
    cases ht
    exact ⟨⟨⟨by decide, by unfold isDigit; decide⟩, by decide⟩, by decide⟩⟩
example : IsItem (lit "Module/Input0") := by unfold IsItem; decide

theorem without_colon {t : List Byte} (h : 58 ∉ t) : Without (lit "://") t := by
  rintro ⟨a, b, e⟩
  exact h (by rw [← e]; simp [lit])

/-- An item name with a question mark is cut. -/
theorem C16_item_counterexample : decomposeItem (composeItem 0 (lit "a?b")) = some (some (0, lit "a")) := by
  have e : composeItem 0 (lit "a?b") = lit "dabc://node0/a?b" := by simp [composeItem, decInt, decNat, cstr, lit]
  have hs : setUrl (lit "dabc://node0/a?b") = some ⟨true, lit "dabc", lit "node0", 0, lit "a", lit "b"⟩ :=
    setUrl_parts (p := ⟨some (lit "dabc"), lit "node0", none, some (lit "a"), some (lit "b")⟩)
      ⟨by decide, by intro t ht; cases ht; exact without_colon (by decide), (by intro h; cases h), by decide, (by intro t ht; cases ht), by intro t ht; cases ht; decide⟩
  rw [e]
  unfold decomposeItem
  rw [hs]
  decide

/-- A server whose name begins like a node name is replaced by a node of the application. -/
theorem C16_node_counterexample : ∀ m : Mgr, m.nodeAddr 5 ≠ m.localAddr → m.nodeAddr 5 ≠ lit "localhost" → m.nodeId ≠ 5 →
    decomposeAddr m (composeAddr m (lit "node5x:1237") (lit "a")) = some (some (false, m.nodeAddr 5, lit "a")) := by
  intro m h1 h2 h3
  have e : composeAddr m (lit "node5x:1237") (lit "a") = lit "dabc://node5x:1237/a" := by
    rw [composeAddr_server (by decide) (by decide) (by decide)]; decide
  have hs : setUrl (lit "dabc://node5x:1237/a") = some ⟨true, lit "dabc", lit "node5x", 1237, lit "a", []⟩ :=
    setUrl_server (host := lit "node5x") (port := some (lit "1237")) (file := some (lit "a")) (by decide) (by decide)
      (by intro t ht; cases ht; exact ⟨⟨by decide, by unfold isDigit; decide⟩, by decide⟩) (by intro t ht; cases ht; decide)
  rw [e]
  unfold decomposeAddr
  rw [hs]
  have hw : Url.hostWithPort ⟨true, lit "dabc", lit "node5x", 1237, lit "a", []⟩ 0 = lit "node5x:1237" := by
    simp [Url.hostWithPort, decInt, decNat, lit]
  dsimp only [Option.bind_some]
  rw [hw]
  have hn : strToInt 32 (lit "5x:1237") = .val 5 := by decide
  have hd : (lit "node5x:1237").drop 4 = lit "5x:1237" := by decide
  have ht : (lit "node5x:1237").take 4 = lit "node" := by decide
  rw [hd, hn, ht]
  have hl : lit "dabc" ≠ [] := by decide
  simp [h1, h2, h3, hl]

/-! ## C17 -/

/-- Parsing gives the parts. -/
theorem C17_parts {p : Parts} (h : p.Ok) : setUrl p.text = some p.expected := setUrl_parts h

/-- The seven replacement loops decode the options like one pass from left to right. -/
theorem C17_decode (s : List Byte) : replaceSpecial s = decode code s := replaceSpecial_decode s

/-- Characters written as codes come back. -/
theorem C17_codes {s : List Byte} (h : 37 ∉ s) : replaceSpecial (encode s) = s := by
  rw [C17_decode]
  induction s with
  | nil => rfl
  | cons b s ih =>
    simp only [List.mem_cons, not_or] at h
    have e : encode (b :: s) = (match codes.find? fun e => e.2 = b with | some e => [37, e.1.1, e.1.2] | none => [b]) ++ encode s := rfl
    rw [e]
    cases hf : codes.find? fun e => e.2 = b with
    | none =>
      show decode code (b :: encode s) = _
      rw [decode_other (fun _ _ _ e _ => absurd e.symm h.1), ih h.2]
    | some c =>
      have h1 := List.mem_of_find?_eq_some hf
      have h2 : c.2 = b := by simpa using List.find?_some hf
      have key : ∀ c ∈ codes, code c.1.1 c.1.2 = some c.2 := by decide
      show decode code (37 :: c.1.1 :: c.1.2 :: encode s) = _
      rw [decode_code (key c h1), ih h.2, h2]

/-- The value of the first option with the name is found. -/
theorem C17_option {u : Url} {a b : List (List Byte)} {p name v : List Byte} (ho : u.options = joined (a ++ p :: b)) (ht : ∀ x ∈ a ++ p :: b, OptText x) (hn : name ≠ [])
    (ha : ∀ x ∈ a, ¬ Named name x) (hp : Says name p v) (dflt : List Byte) : getOption u name (-1) = some v ∧ getOptionStr u name dflt = v := by
  have hl : optLoop name (-1) 0 u.options = some v := by
    rw [ho, optLoop_find (by decide) hn 0 ht, List.findSome?_append, List.findSome?_cons, optVal_says hp]
    have : a.findSome? (optVal name) = none := List.findSome?_eq_none_iff.mpr (fun x hx => optVal_other (ha x hx))
    rw [this]; rfl
  have hg : getOption u name (-1) = some v := by
    unfold getOption
    rw [if_neg, if_neg (fun h => hn h.2), hl]
    intro e
    rw [e, optLoop_nil] at hl
    cases hl
  exact ⟨hg, by unfold getOptionStr; rw [hg]; rfl⟩

/-- Without an option of the name there is nothing. -/
theorem C17_missing {u : Url} {ps : List (List Byte)} {name : List Byte} (ho : u.options = joined ps) (ht : ∀ x ∈ ps, OptText x) (hn : name ≠ [])
    (ha : ∀ x ∈ ps, ¬ Named name x) (dflt : List Byte) : getOption u name (-1) = none ∧ getOptionStr u name dflt = dflt := by
  have hg : getOption u name (-1) = none := by
    unfold getOption
    split
    · rfl
    · rw [if_neg (fun h => hn h.2), ho, optLoop_find (by decide) hn 0 ht]
      exact List.findSome?_eq_none_iff.mpr (fun x hx => optVal_other (ha x hx))
  exact ⟨hg, by unfold getOptionStr; rw [hg]; rfl⟩

/-- Options by number. -/
theorem C17_number {u : Url} {ps : List (List Byte)} (ho : u.options = joined ps) (ht : ∀ x ∈ ps, OptText x) (k : Nat) : (getOption u [] k).getD [] = ps.getD k [] := by
  have := optLoop_number (name := []) k 0 (Nat.zero_le _) ht
  rw [Nat.sub_zero] at this
  unfold getOption
  split
  · rename_i h
    rw [← ho, h, optLoop_nil] at this
    exact this
  · rw [if_neg (by omega), ho, this]

/-- Integer options. -/
theorem C17_int {u : Url} {a b : List (List Byte)} {p name t : List Byte} {neg : Bool} (ho : u.options = joined (a ++ p :: b)) (ht : ∀ x ∈ a ++ p :: b, OptText x) (hn : name ≠ [])
    (ha : ∀ x ∈ a, ¬ Named name x) (hp : Says name p ((if neg then lit "-" else []) ++ t)) (hd : Digits t) (hv : natVal t < 2 ^ 31) (dflt : Int) :
    getOptionInt u name dflt = some (if neg then -(natVal t : Int) else natVal t) := by
  have hg := (C17_option ho ht hn ha hp []).2
  unfold getOptionInt
  dsimp only
  rw [hg]
  cases neg with
  | false =>
    simp only [Bool.false_eq_true, if_false, List.nil_append]
    rw [if_neg hd.1, strToInt_digits hd hv]
  | true =>
    have e : lit "-" ++ t = 45 :: t := rfl
    simp only [if_true]
    rw [e, if_neg (by simp), strToInt_neg hd (Nat.le_of_lt hv)]

/-- Boolean options. -/
theorem C17_bool {u : Url} {a b : List (List Byte)} {p name : List Byte} {v : Bool} (ho : u.options = joined (a ++ p :: b)) (ht : ∀ x ∈ a ++ p :: b, OptText x) (hn : name ≠ [])
    (ha : ∀ x ∈ a, ¬ Named name x) (hp : Says name p (if v then lit "true" else lit "false")) (dflt : Bool) : getOptionBool u name dflt = v := by
  have hg := (C17_option ho ht hn ha hp []).2
  unfold getOptionBool
  dsimp only
  rw [hg]
  cases v <;> rfl

example : Parts.Ok ⟨some (lit "http"), lit "lxi", some (lit "8080"), some (lit "a/b"), some (lit "n=1&m='x&y'")⟩ :=
  ⟨by decide, by intro t ht; cases ht; exact without_colon (by decide), (by intro h; cases h), by decide,
    by intro t ht; cases ht; exact ⟨⟨by decide, by unfold isDigit; decide⟩, by decide⟩, by intro t ht; cases ht; decide⟩
example : OptText (lit "m='x&y'") :=
  .plain (by decide) (by decide) (by decide) (.plain (by decide) (by decide) (by decide) (.quoted (q := 39) (c := lit "x&y") (Or.inl rfl) (by decide) .nil))
example : Says (lit "m") (lit "m='x&y'") (lit "x&y") := Or.inr ⟨lit "'x&y'", by decide, Or.inl ⟨39, Or.inl rfl, by decide⟩⟩

/-- A quote escaped with a backslash ends the quotation: the flag is reset just before it is tested. -/
theorem C17_escape_counterexample : getOption ⟨true, [], [], 0, [], lit "a='x\\'y&z'"⟩ (lit "a") (-1) = some (lit "'x\\'y") := by
  have h : optLoop (lit "a") (-1) 0 (lit "a='x\\'y&z'") = some (lit "'x\\'y") := by
    rw [optLoop]; decide
  unfold getOption
  rw [if_neg (by decide), if_neg (by decide), h]

/-- Without protocol a `://` in the options is taken for the end of the protocol. -/
theorem C17_protocol_counterexample : setUrl (lit "host/f?x=http://y") = some ⟨true, lit "host/f?x=http", lit "y", 0, [], []⟩ := by
  decide

end Verif.Url
