import Verif.PublTreeLemmas

namespace Verif.PublTree
open Verif.Bytes Verif.Json Verif.Text Verif.Url Verif.FileName

/-! ## The last slash -/

theorem rfind_char {c : Byte} : ∀ {s : Str} {n : Nat}, rfind [c] s = some n → ∃ x y, s = x ++ c :: y ∧ x.length = n ∧ c ∉ y
  | [], n, h => by simp [rfind] at h
  | d :: s, n, h => by
    unfold rfind at h
    split at h
    · rename_i k hk
      cases h
      obtain ⟨x, y, rfl, hx, hy⟩ := rfind_char hk
      exact ⟨d :: x, y, rfl, by simp [hx], hy⟩
    · rename_i hk
      split at h
      · cases h
        rename_i hp
        simp at hp
        subst hp
        exact ⟨[], s, rfl, rfl, fun hm => by
          have := rfind_none hk
          exact this hm⟩
      · cases h
where
  rfind_none {c : Byte} : ∀ {s : Str}, rfind [c] s = none → c ∉ s
  | [], _ => by simp
  | d :: s, h => by
    unfold rfind at h
    split at h
    · cases h
    · rename_i hk
      split at h
      · cases h
      · rename_i hp
        simp at hp
        have := rfind_none hk
        simp [this, hp]

theorem rfind_no {c : Byte} {s : Str} (h : rfind [c] s = none) : c ∉ s := rfind_char.rfind_none h

theorem rfind_has {c : Byte} {x y : Str} (h : c ∉ y) : rfind [c] (x ++ c :: y) = some x.length := by
  cases hr : rfind [c] (x ++ c :: y) with
  | none => exact absurd (rfind_no hr) (by simp)
  | some n =>
    obtain ⟨a, b, e, h1, h2⟩ := rfind_char hr
    have : x = a ∧ y = b := by
      rcases List.append_eq_append_iff.1 e with ⟨u, h3, h4⟩ | ⟨u, h3, h4⟩
      · cases u with
        | nil => simp at h4; exact ⟨by simp [h3], h4⟩
        | cons d u =>
          simp at h4
          exact absurd (by rw [h4.2]; simp) h
      · cases u with
        | nil => simp at h4; exact ⟨by simp [h3], h4.symm⟩
        | cons d u =>
          simp at h4
          exact absurd (by rw [h4.2]; simp) h2
    rw [this.1, h1]

/-- What the code cuts off a name: one name at most. -/
theorem cut_spec {s : Str} {pos : Nat} (h : rfind [slash] s.dropLast = some pos) :
    (∃ x, s.take (pos + 1) = x ++ [slash] ∧ x.length = pos) ∧ pos + 1 < s.length ∧
    comps s = comps (s.take (pos + 1)) ++ comps (s.drop (pos + 1)) ∧
    (comps (s.drop (pos + 1)) = [] ∨ ∃ n, comps (s.drop (pos + 1)) = [n]) ∧ s.drop (pos + 1) ≠ [] := by
  obtain ⟨x, y, e, hx, hy⟩ := rfind_char h
  have hs : s ≠ [] := by rintro rfl; simp at e
  have es : s = x ++ slash :: (y ++ [s.getLast hs]) := by
    conv => lhs; rw [← List.dropLast_append_getLast hs, e]
    simp
  generalize s.getLast hs = z at es
  subst es
  have e1 : (x ++ slash :: (y ++ [z])).take (pos + 1) = x ++ [slash] := by
    rw [← hx, List.take_append, List.take_of_length_le (by omega)]
    simp
  have e2 : (x ++ slash :: (y ++ [z])).drop (pos + 1) = y ++ [z] := by
    rw [← hx, List.drop_append]
    simp
  rw [e1, e2]
  refine ⟨⟨x, rfl, hx⟩, by simp; omega, by rw [comps_append, comps_end], ?_, by simp⟩
  by_cases hz : z = slash
  · subst hz
    rw [comps_end]
    by_cases h0 : y = []
    · left; subst h0; rfl
    · right; exact ⟨y, comps_one hy h0⟩
  · right
    refine ⟨y ++ [z], comps_one ?_ (by simp)⟩
    simp [hy, Ne.symm hz]

theorem no_cut {s : Str} (h : rfind [slash] s.dropLast = none) : comps s = [] ∨ ∃ n, comps s = [n] := by
  by_cases hs : s = []
  · left; subst hs; rfl
  have hd := rfind_no h
  have es := List.dropLast_append_getLast hs
  generalize s.getLast hs = z at es
  generalize s.dropLast = y at hd es
  subst es
  by_cases hz : z = slash
  · subst hz
    rw [comps_end]
    by_cases h0 : y = []
    · left; subst h0; rfl
    · right; exact ⟨y, comps_one hd h0⟩
  · right
    exact ⟨y ++ [z], comps_one (by simp [hd, Ne.symm hz]) (by simp)⟩

theorem comps_addSub (a b : Str) : comps (addSub a b) = comps a ++ comps b := by
  unfold addSub
  split
  · rw [comps_append]
  · rename_i h
    by_cases hb : b = []
    · subst hb; simp [comps_nil]
    by_cases ha : a = []
    · subst ha; simp [comps_nil]
    have hl : a.getLast? = some slash := by
      by_contra hc; exact h ⟨hb, ha, hc⟩
    obtain ⟨x, rfl⟩ := List.getLast?_eq_some_iff.1 hl
    rw [List.append_assoc]
    show comps (x ++ slash :: b) = _
    rw [comps_append, comps_end]

/-! ## What `IdentifyItem` finds -/

/-- Nobody knows an item under these names. -/
def Unknown (p : Publ) (q : List Str) : Prop :=
  walk q ⟨p.loc, []⟩ = none ∧ ∀ e ∈ p.entries, e.isLocal = false → walk q ⟨e.rem, []⟩ = none

/-- The name `s` is cut into the longest part `a` which is known and the rest `b`. -/
structure Cut (p : Publ) (asp : Bool) (s : Str) (r : Ident) (a b : Str) (loc : Bool) (h : Ref) : Prop where
  split : s = a ++ b
  edge : b = [] ∨ a.getLast? = some slash
  hit : if loc then getFolder p.loc a = some h else getFolder p.loc a = none ∧ findRemote p.entries a = some h
  best : ∀ q, comps a <+: q → q ≠ comps a → q <+: comps s → Unknown p q
  isLocal : r.isLocal = loc
  ok : r.ok = (found asp loc h a).ok
  producer : r.producer = (found asp loc h a).producer
  request : comps r.request = comps (found asp loc h a).request ++ comps b
  exact : asp = false → r.request = b

theorem findRemote_none {es : List Entry} {s : Str} (h : findRemote es s = none) : ∀ e ∈ es, e.isLocal = false → getFolder e.rem s = none := by
  intro e he hl
  unfold findRemote at h
  rw [List.head?_eq_none_iff] at h
  cases hg : getFolder e.rem s with
  | none => rfl
  | some x =>
    have : x ∈ (es.filter fun e => !e.isLocal).filterMap fun e => getFolder e.rem s :=
      List.mem_filterMap.2 ⟨e, List.mem_filter.2 ⟨he, by simp [hl]⟩, hg⟩
    rw [h] at this; cases this

theorem findRemote_some {es : List Entry} {s : Str} {x : Ref} (h : findRemote es s = some x) :
    ∃ e ∈ es, e.isLocal = false ∧ getFolder e.rem s = some x := by
  unfold findRemote at h
  obtain ⟨e, he, hx⟩ := List.mem_filterMap.1 (List.mem_of_mem_head? h)
  obtain ⟨h1, h2⟩ := List.mem_filter.1 he
  exact ⟨e, h1, by simpa using h2, hx⟩

theorem unknown_of {p : Publ} {s : Str} (h1 : getFolder p.loc s = none) (h2 : findRemote p.entries s = none) : Unknown p (comps s) :=
  ⟨by rw [← getFolder_eq]; exact h1, fun e he hl => by rw [← getFolder_eq]; exact findRemote_none h2 e he hl⟩

theorem found_request (loc : Bool) (h : Ref) (a : Str) : (found false loc h a).request = [] := rfl

theorem prefix_short {q a c : List Str} (hc : c = [] ∨ ∃ n, c = [n]) (h : q <+: a ++ c) : q <+: a ∨ q = a ++ c := by
  rcases hc with rfl | ⟨n, rfl⟩
  · left; simpa using h
  · rcases List.prefix_concat_iff.1 h with h | h
    · right; exact h
    · left; exact h

theorem identify_cut (p : Publ) (asp : Bool) : ∀ (n : Nat) (s : Str), s.length < n → (asp = true → s ≠ []) →
    (∃ a b loc h, Cut p asp s (identify p asp n s) a b loc h) ∨
    ((identify p asp n s).producer = [] ∧ (identify p asp n s).isLocal = true ∧ ((identify p asp n s).ok = true → asp = true) ∧
      ∀ q, q ≠ [] → q <+: comps s → Unknown p q)
  | 0, s, hn, _ => absurd hn (by omega)
  | n + 1, s, hn, hasp => by
    unfold identify
    rw [if_neg (fun hc => hasp hc.1 hc.2)]
    cases hl : getFolder p.loc s with
    | some h =>
      left
      refine ⟨s, [], true, h, ⟨by simp, .inl rfl, by simpa using hl, fun q h1 h2 h3 => absurd (h3.eq_of_length_le h1.length_le) h2, rfl, rfl, rfl, by simp [comps_nil], ?_⟩⟩
      intro ha; subst ha; rfl
    | none =>
      dsimp only
      cases hr : findRemote p.entries s with
      | some h =>
        left
        refine ⟨s, [], false, h, ⟨by simp, .inl rfl, by simpa using ⟨hl, hr⟩, fun q h1 h2 h3 => absurd (h3.eq_of_length_le h1.length_le) h2, rfl, rfl, rfl, by simp [comps_nil], ?_⟩⟩
        intro ha; subst ha; rfl
      | none =>
        dsimp only
        have hun := unknown_of hl hr
        have short : (comps s = [] ∨ ∃ n, comps s = [n]) → ∀ q, q ≠ [] → q <+: comps s → Unknown p q := by
          intro hc q hq hp
          rcases prefix_short (a := []) hc (by simpa using hp) with h | h
          · exact absurd (List.prefix_nil.1 h) hq
          · rw [h]; simpa using hun
        by_cases hlen : s.length < 2
        · rw [if_pos hlen]
          right
          refine ⟨rfl, rfl, id, short ?_⟩
          apply no_cut
          match s, hlen with
          | [], _ => rfl
          | [c], _ => rfl
        · rw [if_neg hlen]
          cases hpos : rfind [slash] s.dropLast with
          | none =>
            right
            exact ⟨rfl, rfl, (by simp), short (no_cut hpos)⟩
          | some pos =>
            obtain ⟨⟨x, hx, hxl⟩, hlt, hcomp, hsub, hne⟩ := cut_spec hpos
            dsimp only
            by_cases h0 : pos = 0 ∧ asp = true
            · rw [if_pos h0]
              right
              refine ⟨rfl, rfl, (by simp), short ?_⟩
              have : x = [] := List.length_eq_zero_iff.1 (by omega)
              subst this
              have e : comps (s.take (pos + 1)) = [] := by rw [hx]; rfl
              rw [hcomp, e]
              simpa using hsub
            · rw [if_neg h0]
              have hs1 : s.take (pos + 1) ≠ [] := by rw [hx]; simp
              have hle : (s.take (pos + 1)).length < n := by
                rw [hx]
                simp
                omega
              have ih := identify_cut p asp n (s.take (pos + 1)) hle (fun _ => hs1)
              generalize hrr : identify p asp n (s.take (pos + 1)) = r at ih ⊢
              rcases ih with ⟨a, b, loc, h, hc⟩ | ⟨h1, h2, h3, h4⟩
              · left
                have ha : a ≠ [] := by
                  rintro rfl
                  rcases hc.edge with hb | hb
                  · exact hs1 (by rw [hc.split, hb]; rfl)
                  · cases hb
                have hok : r.ok = true := by
                  rw [hc.ok]
                  unfold found
                  cases asp <;> simp [ha]
                rw [if_pos hok]
                have hb : b = [] ∨ ∃ b0, b = b0 ++ [slash] := by
                  by_cases hb : b = []
                  · exact .inl hb
                  · right
                    have e : (a ++ b).getLast? = some slash := by rw [← hc.split, hx]; simp
                    rw [List.getLast?_append_of_ne_nil _ hb] at e
                    exact (List.getLast?_eq_some_iff.1 e)
                have hcb : comps (b ++ s.drop (pos + 1)) = comps b ++ comps (s.drop (pos + 1)) := by
                  rcases hb with rfl | ⟨b0, rfl⟩
                  · simp [comps_nil]
                  · rw [List.append_assoc]
                    show comps (b0 ++ slash :: s.drop (pos + 1)) = _
                    rw [comps_append, comps_end]
                refine ⟨a, b ++ s.drop (pos + 1), loc, h, ⟨?_, ?_, hc.hit, ?_, hc.isLocal, ?_, hc.producer, ?_, ?_⟩⟩
                · rw [← List.append_assoc, ← hc.split, List.take_append_drop]
                · right
                  rcases hc.edge with hb' | hb'
                  · have : a = s.take (pos + 1) := by rw [hc.split, hb']; simp
                    rw [this, hx]; simp
                  · exact hb'
                · intro q h1 h2 h3
                  rw [hcomp] at h3
                  rcases prefix_short hsub h3 with h | h
                  · exact hc.best q h1 h2 h
                  · rw [h, ← hcomp]; exact hun
                · rw [← hc.ok]
                · rw [hcb, ← List.append_assoc, ← hc.request]
                  exact comps_addSub _ _
                · intro hf
                  show addSub r.request _ = _
                  rw [hc.exact hf]
                  unfold addSub
                  rw [if_neg]
                  rintro ⟨_, g2, g3⟩
                  rcases hb with rfl | ⟨b0, rfl⟩
                  · exact g2 rfl
                  · exact g3 (by simp)
              · right
                have key : ∀ q, q ≠ [] → q <+: comps s → Unknown p q := by
                  intro q hq hp
                  rw [hcomp] at hp
                  rcases prefix_short hsub hp with h | h
                  · exact h4 q hq h
                  · rw [h, ← hcomp]; exact hun
                split
                · exact ⟨h1, h2, h3, key⟩
                · exact ⟨h1, h2, h3, key⟩

/-- An item of which some part is known is found. -/
theorem identify_known (p : Publ) (asp : Bool) (s : Str) {q : List Str} (hq : q ≠ []) (hp : q <+: comps s) (hk : ¬Unknown p q) :
    ∃ a b loc h, Cut p asp s (identifyItem p asp s) a b loc h := by
  have hs : s ≠ [] := by
    rintro rfl
    exact hq (List.prefix_nil.1 hp)
  rcases identify_cut p asp (s.length + 1) s (by omega) (fun _ => hs) with h | ⟨_, _, _, h⟩
  · exact h
  · exact absurd (h q hq hp) hk

theorem Cut.comps_split {p : Publ} {asp : Bool} {s : Str} {r : Ident} {a b : Str} {loc : Bool} {h : Ref} (c : Cut p asp s r a b loc h) :
    comps s = comps a ++ comps b := by
  rcases c.edge with hb | ha
  · rw [c.split, hb]; simp [comps_nil]
  · obtain ⟨x, rfl⟩ := List.getLast?_eq_some_iff.1 ha
    rw [c.split, List.append_assoc]
    show comps (x ++ slash :: b) = _
    rw [comps_append, comps_end]

end Verif.PublTree
