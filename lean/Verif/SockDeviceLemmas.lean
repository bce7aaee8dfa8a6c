import Verif.Spec.SockDevice

namespace Verif.SockDevice

open Verif.Bytes Spec

/-! ## Strings -/

theorem cstr_append {l : List Byte} (h : (0 : Byte) ∉ l) (r : List Byte) :
    cstr (l ++ 0 :: r) = some l := by
  induction l with
  | nil => simp [cstr]
  | cons b l ih =>
    have hb : b ≠ 0 := fun e => h (List.mem_cons.mpr (Or.inl e.symm))
    have hl : (0 : Byte) ∉ l := fun e => h (List.mem_cons.mpr (Or.inr e))
    rw [List.cons_append, cstr, if_neg hb, ih hl]
    rfl

theorem cstr_some {l id : List Byte} (h : cstr l = some id) :
    (0 : Byte) ∉ id ∧ ∃ r, l = id ++ 0 :: r := by
  induction l generalizing id with
  | nil => simp [cstr] at h
  | cons b l ih =>
    by_cases hb : b = 0
    · subst hb
      simp [cstr] at h
      subst h
      exact ⟨by simp, l, rfl⟩
    · simp only [cstr, if_neg hb, Option.map_eq_some_iff] at h
      obtain ⟨x, hx, rfl⟩ := h
      obtain ⟨h0, r, rfl⟩ := ih hx
      refine ⟨?_, r, rfl⟩
      intro hm
      rcases List.mem_cons.mp hm with he | he
      · exact hb he.symm
      · exact h0 he

theorem cstr_none {l : List Byte} : cstr l = none ↔ (0 : Byte) ∉ l := by
  induction l with
  | nil => simp [cstr]
  | cons b l ih =>
    by_cases hb : b = 0
    · subst hb; simp [cstr]
    · have : ¬ (0 : Byte) = b := fun e => hb e.symm
      rw [cstr, if_neg hb, Option.map_eq_none_iff, ih, List.mem_cons, not_or]
      exact ⟨fun h => ⟨this, h⟩, fun h => h.2⟩

theorem header_dec : dec (enc 4 headerConnect) = headerConnect :=
  dec_enc_of_lt (by unfold headerConnect; omega)

theorem clientMsg_take (j : Byte) (id : Id) : (clientMsg j id).take 4 = enc 4 headerConnect := by
  rw [clientMsg, List.take_append_of_le_length (by simp)]
  exact List.take_of_length_le (by simp)

theorem clientMsg_drop (j : Byte) (id : Id) :
    (clientMsg j id).drop 4 = strncpy 95 ((cstr (id ++ [0])).getD []) ++ [j] := by
  rw [clientMsg, List.drop_append_of_le_length (by simp)]
  rw [List.drop_of_length_le (by simp)]
  rfl

theorem strncpy_length (n : Nat) (s : List Byte) : (strncpy n s).length = n := by
  simp [strncpy]
  omega

theorem clientMsg_length (j : Byte) (id : Id) : (clientMsg j id).length = 100 := by
  simp [clientMsg, strncpy_length, msgSize]

/-- A request for a short id is understood. -/
theorem clientMsg_cstr {id : Id} (h0 : (0 : Byte) ∉ id) (hl : id.length ≤ 94) (j : Byte) :
    cstr ((clientMsg j id).drop 4) = some id := by
  rw [clientMsg_drop, cstr_append h0 []]
  obtain ⟨k, hk⟩ : ∃ k, 95 - id.length = k + 1 := ⟨94 - id.length, by omega⟩
  have : strncpy 95 id ++ [j] = id ++ 0 :: (List.replicate k 0 ++ [j]) := by
    rw [strncpy, List.take_of_length_le (by omega), hk, List.replicate_succ]
    simp
  simp only [Option.getD_some]
  rw [this]
  exact cstr_append h0 _

/-- A request for a long id is never understood. -/
theorem clientMsg_long {id : Id} (h0 : (0 : Byte) ∉ id) (hl : 96 ≤ id.length) (j : Byte) :
    cstr ((clientMsg j id).drop 4) ≠ some id := by
  rw [clientMsg_drop, cstr_append h0 []]
  intro h
  obtain ⟨_, r, hr⟩ := cstr_some h
  have := congrArg List.length hr
  simp only [Option.getD_some, List.length_append, strncpy_length, List.length_cons,
    List.length_nil] at this
  omega

theorem isAccepted_server (junk : List Byte) (acc : Bool) : isAccepted (serverMsg junk acc) = acc := by
  cases acc
  · simp [isAccepted, serverMsg, txtAccepted, txtDenied, msgSize]
  · simp [isAccepted, serverMsg, txtAccepted, msgSize]

/-! ## Records -/

/-- All addresses of records are different. -/
def Keys (s : Dev) : Prop := (s.recs.map Prod.fst).Nodup

theorem rec?_some {s : Dev} {p : Nat} {r : Rec} (h : s.rec? p = some r) : (p, r) ∈ s.recs := by
  simp only [Dev.rec?, Option.map_eq_some_iff] at h
  obtain ⟨x, hx, rfl⟩ := h
  have h1 := List.mem_of_find?_eq_some hx
  have h2 := List.find?_some hx
  simp only [beq_iff_eq] at h2
  rw [← h2]
  exact h1

theorem rec?_none {s : Dev} {p : Nat} (h : s.rec? p = none) : ∀ r ∈ s.recs, r.1 ≠ p := by
  simp only [Dev.rec?, Option.map_eq_none_iff, List.find?_eq_none, beq_iff_eq] at h
  exact h

theorem find_map_key {l : List (Nat × Rec)} (hk : (l.map Prod.fst).Nodup) {p : Nat} {r : Rec}
    (h : (p, r) ∈ l) : l.find? (·.1 == p) = some (p, r) := by
  induction l with
  | nil => simp at h
  | cons x l ih =>
    simp only [List.map_cons, List.nodup_cons] at hk
    rcases List.mem_cons.mp h with rfl | h'
    · simp
    · have hne : ¬ x.1 = p := by
        intro e
        exact hk.1 (by rw [e]; exact List.mem_map_of_mem (f := Prod.fst) h')
      rw [List.find?_cons_of_neg (by simpa using hne)]
      exact ih hk.2 h'

theorem rec?_of_mem {s : Dev} (hk : Keys s) {p : Nat} {r : Rec} (h : (p, r) ∈ s.recs) :
    s.rec? p = some r := by
  simp only [Dev.rec?, find_map_key hk h, Option.map_some]

theorem find_some {s : Dev} {id : Id} {pr : Nat × Rec} (h : s.find id = some pr) :
    pr ∈ s.recs ∧ pr.2.id = id := by
  have h1 := List.mem_of_find?_eq_some h
  have h2 := List.find?_some h
  simp only [beq_iff_eq] at h2
  exact ⟨h1, h2⟩

theorem find_none {s : Dev} {id : Id} (h : s.find id = none) : ∀ r ∈ s.recs, r.2.id ≠ id := by
  simp only [Dev.find, List.find?_eq_none, beq_iff_eq] at h
  exact h

/-- Counting after one address was removed. -/
theorem countP_remove (f : Nat × Rec → Bool) {l : List (Nat × Rec)}
    (hk : (l.map Prod.fst).Nodup) {p : Nat} {r : Rec} (h : (p, r) ∈ l) :
    (l.filter fun q => q.1 != p).countP f + (if f (p, r) then 1 else 0) = l.countP f := by
  induction l with
  | nil => simp at h
  | cons x l ih =>
    simp only [List.map_cons, List.nodup_cons] at hk
    rcases List.mem_cons.mp h with rfl | h'
    · have hno : ∀ q ∈ l, (q.1 != p) = true := by
        intro q hq
        simp only [bne_iff_ne, ne_eq]
        intro e
        exact hk.1 (by simp only; rw [← e]; exact List.mem_map_of_mem (f := Prod.fst) hq)
      rw [List.filter_cons_of_neg (by simp), List.filter_eq_self.mpr hno, List.countP_cons]
    · have hne : x.1 ≠ p := by
        intro e
        exact hk.1 (by rw [e]; exact List.mem_map_of_mem (f := Prod.fst) h')
      rw [List.filter_cons_of_pos (by simpa using hne), List.countP_cons, List.countP_cons]
      have := ih hk.2 h'
      omega

end Verif.SockDevice
