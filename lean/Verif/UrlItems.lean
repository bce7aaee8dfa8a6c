import Verif.UrlOptions

/-! # Lemmas on item names and addresses -/

namespace Verif.Url
open Verif.Bytes Verif.Json Verif.Text

theorem natVal_append (t : List Byte) (d : Byte) : natVal (t ++ [d]) = natVal t * 10 + (d.toNat - 48) := by
  unfold natVal
  rw [List.foldl_append]
  rfl

theorem foldl_pos : ∀ (t : List Byte) (a : Nat), 0 < a → 0 < t.foldl (fun a b => a * 10 + (b.toNat - 48)) a
  | [], _, h => h
  | b :: t, a, h => foldl_pos t (a * 10 + (b.toNat - 48)) (Nat.lt_of_lt_of_le (Nat.mul_pos h (by decide)) (Nat.le_add_right _ _))

theorem canonical_pos {t : List Byte} (h : Canonical t) : 0 < natVal t := by
  obtain ⟨⟨hne, hd⟩, hh⟩ := h
  cases t with
  | nil => exact absurd rfl hne
  | cons b t =>
    show 0 < t.foldl (fun a b => a * 10 + (b.toNat - 48)) (0 * 10 + (b.toNat - 48))
    apply foldl_pos
    have h1 : 48 ≤ b.toNat := (hd b (by simp)).1
    have h2 : b.toNat ≠ 48 := by
      intro e
      exact hh (by rw [List.head?_cons, ← BitVec.ofNat_toNat' b, e]; rfl)
    omega
where
  BitVec.ofNat_toNat' (b : Byte) : BitVec.ofNat 8 b.toNat = b := by simp

theorem decNat_canonical {t : List Byte} (h : Canonical t) : decNat (natVal t) = t := by
  obtain ⟨n, hn⟩ : ∃ n, t.length = n := ⟨_, rfl⟩
  induction n generalizing t with
  | zero => exact absurd (List.length_eq_zero_iff.mp hn) h.1.1
  | succ n ih =>
    obtain ⟨d, hd⟩ : ∃ d, t = t.dropLast ++ [d] := ⟨t.getLast h.1.1, (List.dropLast_concat_getLast h.1.1).symm⟩
    generalize t.dropLast = r at hd
    subst hd
    have hdig := h.1.2 d (by simp)
    unfold isDigit at hdig
    rw [natVal_append]
    have hb : ∀ k, k = d.toNat - 48 → BitVec.ofNat 8 (48 + k) = d := by
      rintro k rfl
      have : 48 + (d.toNat - 48) = d.toNat := by omega
      rw [this]; simp
    by_cases hr : r = []
    · subst hr
      rw [decNat, if_pos (by simp [natVal]; omega), List.nil_append]
      rw [hb _ (by simp [natVal])]
    · have hc : Canonical r := by
        refine ⟨⟨hr, fun b hb => h.1.2 b (by simp [hb])⟩, ?_⟩
        have := h.2
        cases r with
        | nil => exact absurd rfl hr
        | cons b r => simpa using this
      have hp := canonical_pos hc
      rw [decNat, if_neg (by omega), hb _ (by omega)]
      have e : (natVal r * 10 + (d.toNat - 48)) / 10 = natVal r := by omega
      rw [e, ih hc (by simpa using hn)]

theorem decInt_nat (n : Nat) : decInt n = decNat n := by
  unfold decInt
  rw [if_neg (by omega)]
  rfl

theorem decNat_free (n : Nat) {b : Byte} (h : ¬ isDigit b) : b ∉ decNat n := fun hm => h ((decNat_spec n).1.2 b hm)

/-- Any item below `dabc://server/`. -/
theorem setUrl_server {host : List Byte} {port file : Option (List Byte)} (h1 : host ≠ []) (h2 : ∀ b ∈ host, b ≠ 47 ∧ b ≠ 63 ∧ b ≠ 58)
    (h3 : ∀ t, port = some t → Digits t ∧ natVal t < 2 ^ 31) (h4 : ∀ t, file = some t → 63 ∉ t) :
    setUrl (lit "dabc://" ++ host ++ opt (lit ":") port ++ opt (lit "/") file) = some ⟨true, lit "dabc", host, ((port.map natVal).getD 0 : Nat), file.getD [], []⟩ := by
  have hok : Parts.Ok ⟨some (lit "dabc"), host, port, file, none⟩ := by
    refine ⟨?_, ?_, by simp, h2, h3, h4⟩
    · simp [Parts.text, lit]
    · rintro t ht
      cases ht
      rintro ⟨a, b, hab⟩
      have hm : (58 : Byte) ∈ lit "dabc" := by rw [← hab]; simp [lit]
      revert hm; decide
  have := setUrl_parts hok
  have et : Parts.text ⟨some (lit "dabc"), host, port, file, none⟩ = lit "dabc://" ++ host ++ opt (lit ":") port ++ opt (lit "/") file := by
    show lit "dabc" ++ lit "://" ++ host ++ opt (lit ":") port ++ opt (lit "/") file ++ [] = _
    rw [List.append_nil, show lit "dabc" ++ lit "://" = lit "dabc://" by decide]
  rw [et] at this
  rw [this]
  unfold Parts.expected
  congr 1
  cases file with
  | none => rfl
  | some t =>
    simp only [fileOf, if_neg (show ¬ (host = [] ∧ port = none) from fun h => h1 h.1)]
    rfl

theorem decomposeItem_compose {node : Int} {item : List Byte} (h0 : 0 ≤ node) (h1 : node < 2 ^ 31) (h2 : 63 ∉ item) :
    decomposeItem (lit "dabc://node" ++ decInt node ++ [47] ++ item) = some (some (node, item)) := by
  obtain ⟨n, rfl⟩ := Int.eq_ofNat_of_zero_le h0
  rw [decInt_nat]
  obtain ⟨g1, g2, _, _⟩ := decNat_spec n
  have hs := setUrl_server (host := lit "node" ++ decNat n) (port := none) (file := some item) (by simp [lit])
    (by
      intro b hb
      rcases List.mem_append.mp hb with hb | hb
      · have : ∀ x ∈ lit "node", x ≠ 47 ∧ x ≠ 63 ∧ x ≠ 58 := by decide
        exact this b hb
      · have hd := g1.2 b hb
        exact ⟨digit_ne hd (n := 47) (by decide) (by decide), digit_ne hd (n := 63) (by decide) (by decide), digit_ne hd (n := 58) (by decide) (by decide)⟩)
    (by simp) (by rintro t ht; cases ht; exact h2)
  have et : lit "dabc://" ++ (lit "node" ++ decNat n) ++ opt (lit ":") none ++ opt (lit "/") (some item) = lit "dabc://node" ++ decNat n ++ [47] ++ item := by
    have e : lit "dabc://node" = lit "dabc://" ++ lit "node" := by decide
    have e' : lit "/" = [47] := by decide
    rw [e]; simp [opt, e']
  rw [et] at hs
  unfold decomposeItem
  rw [hs]
  dsimp only [Option.bind_some]
  have e1 : (lit "node" ++ decNat n).take 4 = lit "node" := List.take_left (l₁ := lit "node")
  have e2 : (lit "node" ++ decNat n).drop 4 = decNat n := List.drop_left (l₁ := lit "node")
  rw [if_neg (by decide), if_neg (by decide), if_neg (by decide), e1, if_neg (by simp), e2, strToInt_digits g1 (by rw [g2]; omega)]
  dsimp only
  rw [g2, if_neg (by omega)]
  rfl

theorem find_zero {pat s : List Byte} (h : find pat s = some 0) : pat <+: s := by
  cases s with
  | nil =>
    unfold find at h
    split at h
    · rename_i e; subst e; exact List.nil_prefix
    · cases h
  | cons c s =>
    unfold find at h
    split at h
    · rename_i hp; exact List.isPrefixOf_iff_prefix.mp hp
    · obtain ⟨k, _, hk⟩ := Option.map_eq_some_iff.mp h
      cases hk

theorem find_prefix {pat s : List Byte} (h : pat <+: s) : find pat s = some 0 := by
  cases s with
  | nil =>
    have := List.prefix_nil.mp h
    subst this; rfl
  | cons c s =>
    unfold find
    rw [if_pos (List.isPrefixOf_iff_prefix.mpr h)]

theorem server_noslash {s : List Byte} (h : IsServer s) : 47 ∉ s := by
  obtain ⟨host, port, rfl, h1, h2, _, h3⟩ := h
  have e : lit ":" = [58] := by decide
  rw [e]
  exact hostport_free (fun hm => (h2 _ hm).1 rfl) (fun t ht => ⟨(h3 t ht).1.1, (h3 t ht).2⟩) (by decide) (by unfold isDigit; decide)

theorem server_ne {s : List Byte} (h : IsServer s) : s ≠ [] := by
  obtain ⟨host, port, rfl, h1, _⟩ := h
  simp [h1]

/-- Decomposing the address of an item (or of the server itself). -/
theorem decomposeAddr_server {m : Mgr} {s : List Byte} {file : Option (List Byte)} (h : IsServer s) (hf : ∀ t, file = some t → 63 ∉ t) :
    decomposeAddr m (lit "dabc://" ++ s ++ opt (lit "/") file) =
      some (some (decide (s = m.localAddr ∨ s = lit "localhost"), if s = m.localAddr ∨ s = lit "localhost" then m.localAddr else s, file.getD [])) := by
  obtain ⟨host, port, rfl, h1, h2, h4, h3⟩ := h
  have hs := setUrl_server (file := file) h1 h2 (fun t ht => ⟨(h3 t ht).1.1, (h3 t ht).2⟩) hf
  rw [← List.append_assoc, show (lit "dabc://" ++ host ++ opt (lit ":") port ++ opt (lit "/") file) = lit "dabc://" ++ host ++ opt (lit ":") port ++ opt (lit "/") file from rfl]
  unfold decomposeAddr
  rw [hs]
  dsimp only [Option.bind_some]
  have hw : Url.hostWithPort ⟨true, lit "dabc", host, ((port.map natVal).getD 0 : Nat), file.getD [], []⟩ 0 = host ++ opt (lit ":") port := by
    unfold Url.hostWithPort
    dsimp only
    cases port with
    | none => simp [opt]
    | some t =>
      have hp := canonical_pos (h3 t rfl).1
      simp only [Option.map_some, Option.getD_some, opt]
      rw [if_neg (show ¬ ((natVal t : Nat) : Int) ≤ 0 by omega), if_pos (by omega), decInt_nat, decNat_canonical (h3 t rfl).1, List.append_assoc]
      rfl
  rw [if_neg (by decide), if_neg (by decide), if_neg (by decide), hw, if_neg h4]
  dsimp only [Option.bind_some]
  rw [if_neg (show ¬ ((-1 : Int) ≥ 0) by omega)]
  have hn : ((-1 : Int) ≥ 0 ∧ m.nodeId = -1) ↔ False := ⟨fun h => absurd h.1 (by omega), False.elim⟩
  simp only [hn, false_or, decide_eq_true_eq]

theorem composeAddr_server {m : Mgr} {s item : List Byte} (h : 47 ∉ s) (hne : s ≠ []) (hi : item.head? ≠ some 47) :
    composeAddr m s item = lit "dabc://" ++ s ++ opt (lit "/") (if item = [] then none else some item) := by
  unfold composeAddr
  dsimp only
  have hnp : find (lit "dabc://") s ≠ some 0 := by
    intro hp
    obtain ⟨t, ht⟩ := find_zero hp
    apply h
    rw [← ht]
    simp [lit]
  rw [if_neg hne, if_neg hne, if_neg hnp]
  cases item with
  | nil => simp [opt]
  | cons c r =>
    have hc : c ≠ 47 := by simpa using hi
    have e : lit "/" = [47] := by decide
    show _ ++ (if c = 47 then [] else [47]) ++ _ = _
    rw [if_neg hc]
    simp [opt, e]

end Verif.Url
