import Verif.UrlLemmas

/-! # Lemmas on the special symbols, the parts of URLs and the options -/

namespace Verif.Url
open Verif.Bytes Verif.Json Verif.Text

/-! ## Special symbols -/

theorem decode_code {f : Byte → Byte → Option Byte} {x y c : Byte} {r : List Byte} (h : f x y = some c) : decode f (37 :: x :: y :: r) = c :: decode f r := by
  rw [show decode f (37 :: x :: y :: r) = _ from decode.eq_2 f x y r, h]

theorem decode_other {f : Byte → Byte → Option Byte} {b : Byte} {r : List Byte} (h : ∀ x y r', b = 37 → r = x :: y :: r' → f x y = none) :
    decode f (b :: r) = b :: decode f r := by
  by_cases hb : b = 37
  · subst hb
    match r, h with
    | [], _ => rfl
    | [x], _ => rfl
    | x :: y :: r, h =>
      rw [show decode f (37 :: x :: y :: r) = _ from decode.eq_2 f x y r, h x y r rfl rfl]
  · rw [decode.eq_3 f b r (fun x y r' e _ => hb e)]

/-- Only one code. -/
def one (x y rep : Byte) : Byte → Byte → Option Byte := fun a b => if a = x ∧ b = y then some rep else none

theorem prefix_iff {x y b : Byte} {r : List Byte} : [37, x, y].isPrefixOf (b :: r) = true ↔ b = 37 ∧ ∃ r', r = x :: y :: r' := by
  rw [List.isPrefixOf_iff_prefix]
  constructor
  · rintro ⟨t, ht⟩
    simp only [List.cons_append, List.nil_append, List.cons.injEq] at ht
    exact ⟨ht.1.symm, t, ht.2.symm⟩
  · rintro ⟨rfl, r', rfl⟩
    exact ⟨r', rfl⟩

theorem one_other {x y rep b : Byte} {r : List Byte} (h : [37, x, y].isPrefixOf (b :: r) = false) : decode (one x y rep) (b :: r) = b :: decode (one x y rep) r := by
  apply decode_other
  rintro a c r' rfl rfl
  unfold one
  rw [if_neg]
  rintro ⟨rfl, rfl⟩
  rw [(prefix_iff).mpr ⟨rfl, r', rfl⟩] at h
  cases h

theorem one_none {x y rep : Byte} : ∀ {s : List Byte}, find [37, x, y] s = none → decode (one x y rep) s = s
  | [], _ => rfl
  | b :: r, h => by
    unfold find at h
    cases hp : [37, x, y].isPrefixOf (b :: r) with
    | true => rw [hp] at h; simp at h
    | false =>
      rw [hp] at h
      simp only [Bool.false_eq_true, if_false, Option.map_eq_none_iff] at h
      rw [one_other hp, one_none h]

theorem one_some {x y rep : Byte} : ∀ {s : List Byte} {pos : Nat}, find [37, x, y] s = some pos →
    decode (one x y rep) s = s.take pos ++ rep :: decode (one x y rep) (s.drop (pos + 3))
  | [], _, h => by simp [find] at h
  | b :: r, pos, h => by
    unfold find at h
    cases hp : [37, x, y].isPrefixOf (b :: r) with
    | true =>
      rw [hp, if_pos rfl] at h
      cases h
      obtain ⟨rfl, r', rfl⟩ := prefix_iff.mp hp
      rw [decode_code (c := rep) (by simp [one])]
      rfl
    | false =>
      rw [hp] at h
      simp only [Bool.false_eq_true, if_false, Option.map_eq_some_iff] at h
      obtain ⟨k, hk, rfl⟩ := h
      rw [one_other hp, one_some hk]
      rfl

theorem one_replaced {x y rep : Byte} (h37 : rep ≠ 37) (hx : rep ≠ x) (hy : rep ≠ y) (t : List Byte) : ∀ {s : List Byte} {pos : Nat}, find [37, x, y] s = some pos →
    decode (one x y rep) (s.take pos ++ rep :: t) = s.take pos ++ rep :: decode (one x y rep) t
  | [], _, h => by simp [find] at h
  | b :: r, pos, h => by
    unfold find at h
    cases hp : [37, x, y].isPrefixOf (b :: r) with
    | true =>
      rw [hp, if_pos rfl] at h
      cases h
      show decode (one x y rep) (rep :: t) = rep :: _
      exact decode_other (fun _ _ _ e _ => absurd e h37)
    | false =>
      rw [hp] at h
      simp only [Bool.false_eq_true, if_false, Option.map_eq_some_iff] at h
      obtain ⟨k, hk, rfl⟩ := h
      rw [List.take_succ_cons, List.cons_append, one_other, one_replaced h37 hx hy t hk]
      · rfl
      · cases hq : [37, x, y].isPrefixOf (b :: (List.take k r ++ rep :: t)) with
        | false => rfl
        | true =>
          exfalso
          obtain ⟨rfl, r', hr⟩ := prefix_iff.mp hq
          match k, r, hr with
          | 0, _, hr => simp at hr; exact hx hr.1
          | k + 1, [], hr => simp at hr; exact hx hr.1
          | 1, c :: r, hr => simp at hr; exact hy hr.2.1
          | k + 2, [c], hr => simp at hr; exact hy hr.2.1
          | k + 2, c :: d :: r, hr =>
            simp only [List.take_succ_cons, List.cons_append, List.cons.injEq] at hr
            obtain ⟨rfl, rfl, _⟩ := hr
            rw [prefix_iff.mpr ⟨rfl, r, rfl⟩] at hp
            cases hp

theorem replaceCode_one {x y rep : Byte} (h37 : rep ≠ 37) (hx : rep ≠ x) (hy : rep ≠ y) (s : List Byte) : replaceCode x y rep s = decode (one x y rep) s := by
  rw [replaceCode]
  split
  · rename_i h
    exact (one_none h).symm
  · rename_i pos h
    have := find_le h
    rw [replaceCode_one h37 hx hy, one_some h, List.append_assoc]
    exact one_replaced h37 hx hy _ h
termination_by s.length
decreasing_by
  simp only [List.length_append, List.length_take, List.length_drop, List.length_cons, List.length_nil] at *
  omega

/-- A code added. -/
def addCode (f : Byte → Byte → Option Byte) (x y rep : Byte) : Byte → Byte → Option Byte := fun a b => if a = x ∧ b = y then some rep else f a b

theorem decode_head {f : Byte → Byte → Option Byte} {u : Byte} {r w : List Byte} (hu : ∀ a b c, f a b = some c → c ≠ u) (h : decode f r = u :: w) : ∃ r', r = u :: r' ∧ w = decode f r' := by
  cases r with
  | nil => cases h
  | cons b r =>
    by_cases hc : ∃ x y r', b = 37 ∧ r = x :: y :: r' ∧ ∃ c, f x y = some c
    · obtain ⟨x, y, r', rfl, rfl, c, hc⟩ := hc
      rw [decode_code hc] at h
      cases h
      exact absurd rfl (hu x y _ hc)
    · rw [decode_other] at h
      · cases h; exact ⟨r, rfl, rfl⟩
      · intro x y r' e e'
        cases hf : f x y with
        | none => rfl
        | some c => exact absurd ⟨x, y, r', e, e', c, hf⟩ hc

theorem decode_decode {f : Byte → Byte → Option Byte} {x y rep : Byte} (hx37 : x ≠ 37) (hy37 : y ≠ 37) (hf : f x y = none)
    (ho : ∀ a b c, f a b = some c → c ≠ 37 ∧ c ≠ x ∧ c ≠ y) (s : List Byte) : decode (one x y rep) (decode f s) = decode (addCode f x y rep) s := by
  match s with
  | [] => rfl
  | b :: r =>
    by_cases hc : ∃ u v r', b = 37 ∧ r = u :: v :: r' ∧ ∃ c, f u v = some c
    · obtain ⟨u, v, r', rfl, rfl, c, hc⟩ := hc
      have hne : addCode f x y rep u v = some c := by
        unfold addCode
        rw [if_neg, hc]
        rintro ⟨rfl, rfl⟩
        rw [hf] at hc; cases hc
      rw [decode_code hc, decode_code hne, decode_other (fun _ _ _ e _ => absurd e (ho u v c hc).1), decode_decode hx37 hy37 hf ho r']
    · have hb : decode f (b :: r) = b :: decode f r := by
        apply decode_other
        intro u v r' e e'
        cases hff : f u v with
        | none => rfl
        | some c => exact absurd ⟨u, v, r', e, e', c, hff⟩ hc
      by_cases hn : b = 37 ∧ ∃ r', r = x :: y :: r'
      · obtain ⟨rfl, r', rfl⟩ := hn
        rw [hb, decode_other (fun _ _ _ e _ => absurd e hx37), decode_other (fun _ _ _ e _ => absurd e hy37), decode_code (c := rep) (by simp [one]),
          decode_code (c := rep) (by simp [addCode]), decode_decode hx37 hy37 hf ho r']
      · rw [hb, one_other, decode_other, decode_decode hx37 hy37 hf ho r]
        · intro u v r' e e'
          unfold addCode
          rw [if_neg]
          · cases hff : f u v with
            | none => rfl
            | some c => exact absurd ⟨u, v, r', e, e', c, hff⟩ hc
          · rintro ⟨rfl, rfl⟩
            exact hn ⟨e, r', e'⟩
        · cases hq : [37, x, y].isPrefixOf (b :: decode f r) with
          | false => rfl
          | true =>
            exfalso
            obtain ⟨rfl, w, hw⟩ := prefix_iff.mp hq
            obtain ⟨r1, rfl, hw2⟩ := decode_head (fun a b c h => (ho a b c h).2.1) hw
            obtain ⟨r2, rfl, _⟩ := decode_head (fun a b c h => (ho a b c h).2.2) hw2.symm
            exact hn ⟨rfl, r2, rfl⟩
termination_by s.length

theorem decode_none (s : List Byte) : decode (fun _ _ => none) s = s := by
  induction s with
  | nil => rfl
  | cons b r ih => rw [decode_other (fun _ _ _ _ _ => rfl), ih]

/-- Table of codes as function. -/
def table (l : List ((Byte × Byte) × Byte)) : Byte → Byte → Option Byte := fun x y => l.lookup (x, y)

theorem table_mem {l : List ((Byte × Byte) × Byte)} {a b c : Byte} (h : table l a b = some c) : ((a, b), c) ∈ l := by
  unfold table at h
  induction l with
  | nil => cases h
  | cons e l ih =>
    rw [List.lookup_cons] at h
    split at h
    · rename_i he
      simp only [beq_iff_eq] at he
      obtain ⟨k, v⟩ := e
      cases h
      dsimp only at he
      subst he
      exact List.mem_cons_self
    · exact List.mem_cons_of_mem _ (ih h)

theorem step {l : List ((Byte × Byte) × Byte)} {x y rep : Byte} (h : (l.all fun e => e.2 ≠ 37 && e.2 ≠ x && e.2 ≠ y && e.1 ≠ (x, y)) = true)
    (hx : x ≠ 37) (hy : y ≠ 37) (h37 : rep ≠ 37) (hx' : rep ≠ x) (hy' : rep ≠ y) (s : List Byte) :
    replaceCode x y rep (decode (table l) s) = decode (table (((x, y), rep) :: l)) s := by
  rw [replaceCode_one h37 hx' hy', decode_decode hx hy]
  · congr 1
    funext a b
    unfold addCode table
    rw [List.lookup_cons]
    by_cases e : a = x ∧ b = y
    · obtain ⟨rfl, rfl⟩ := e
      simp
    · rw [if_neg e]
      have : ((a, b) == (x, y)) = false := by
        simpa using e
      rw [this]
  · cases ht : table l x y with
    | none => rfl
    | some c =>
      have := List.all_eq_true.mp h _ (table_mem ht)
      simp at this
  · intro a b c hc
    have := List.all_eq_true.mp h _ (table_mem hc)
    simp only [Bool.and_eq_true, decide_eq_true_eq] at this
    exact ⟨this.1.1.1, this.1.1.2, this.1.2⟩

theorem replaceSpecial_decode (s : List Byte) : replaceSpecial s = decode code s := by
  unfold replaceSpecial
  dsimp only
  have h0 : s = decode (table []) s := (decode_none s).symm
  conv => lhs; rw [h0]
  rw [step (by decide) (by decide) (by decide) (by decide) (by decide) (by decide),
    step (by decide) (by decide) (by decide) (by decide) (by decide) (by decide),
    step (by decide) (by decide) (by decide) (by decide) (by decide) (by decide),
    step (by decide) (by decide) (by decide) (by decide) (by decide) (by decide),
    step (by decide) (by decide) (by decide) (by decide) (by decide) (by decide),
    step (by decide) (by decide) (by decide) (by decide) (by decide) (by decide),
    step (by decide) (by decide) (by decide) (by decide) (by decide) (by decide)]
  congr 1
  funext a b
  have key : ∀ (l l' : List ((Byte × Byte) × Byte)), l.Perm l' → (l.map Prod.fst).Nodup → ∀ k, l.lookup k = l'.lookup k := by
    intro l l' hp
    induction hp with
    | nil => intro _ _; rfl
    | cons x _ ih =>
      obtain ⟨x1, x2⟩ := x
      intro hn k
      simp only [List.map_cons, List.nodup_cons] at hn
      rw [List.lookup_cons, List.lookup_cons, ih hn.2]
    | swap x y l =>
      obtain ⟨x1, x2⟩ := x
      obtain ⟨y1, y2⟩ := y
      intro hn k
      simp only [List.map_cons, List.nodup_cons, List.mem_cons, not_or] at hn
      simp only [List.lookup_cons]
      by_cases e1 : (k == x1) = true
      · by_cases e2 : (k == y1) = true
        · simp only [beq_iff_eq] at e1 e2
          exact absurd (e2.symm.trans e1) hn.1.1
        · simp only [e1, Bool.eq_false_iff.mpr e2]
      · by_cases e2 : (k == y1) = true
        · simp only [e2, Bool.eq_false_iff.mpr e1]
        · simp only [Bool.eq_false_iff.mpr e1, Bool.eq_false_iff.mpr e2]
    | trans h1 _ ih1 ih2 =>
      intro hn k
      rw [ih1 hn k, ih2 ((h1.map Prod.fst).nodup_iff.mp hn) k]
  exact key _ codes (by decide) (by decide) (a, b)

/-! ## Parts -/

theorem opt_none (pre : List Byte) : opt pre none = [] := rfl

theorem drop_past (a b : List Byte) (c : Byte) : List.drop (a.length + 1) (a ++ c :: b) = b := by rw [List.drop_append]; simp

theorem setPort_none {u : Url} (h : 58 ∉ u.host) : setPort u = some u := by
  unfold setPort
  rw [find_single_none h]

theorem setPort_some {u : Url} {host t : List Byte} (hh : 58 ∉ host) (ht : Digits t) (hv : natVal t < 2 ^ 31) (he : u.host = host ++ 58 :: t) :
    setPort u = some { u with host := host, port := natVal t } := by
  unfold setPort
  rw [he, find_single hh]
  have e1 : List.drop (host.length + 1) (host ++ 58 :: t) = t := by
    rw [List.drop_append]; simp
  have e2 : List.take host.length (host ++ 58 :: t) = host := by simp
  simp only [e1, e2]
  rw [strToInt_digits ht (by simpa using hv)]

/-- Host and port. -/
theorem setPort_parts {u : Url} {host : List Byte} {port : Option (List Byte)} (hh : 58 ∉ host) (hp : ∀ t, port = some t → Digits t ∧ natVal t < 2 ^ 31)
    (he : u.host = host ++ opt [58] port) (h0 : u.port = 0) : setPort u = some { u with host := host, port := ((port.map natVal).getD 0 : Nat) } := by
  cases port with
  | none =>
    have : u.host = host := by simpa [opt] using he
    rw [setPort_none (by rw [this]; exact hh)]
    cases u
    simp_all [fileOf]
  | some t =>
    rw [setPort_some hh (hp t rfl).1 (hp t rfl).2 (by simpa [opt] using he)]
    rfl

theorem hostport_free {host : List Byte} {port : Option (List Byte)} {b : Byte} (hh : b ∉ host) (hp : ∀ t, port = some t → Digits t ∧ natVal t < 2 ^ 31) (hb : b ≠ 58)
    (hd : ¬ isDigit b) : b ∉ host ++ opt [58] port := by
  intro hm
  rcases List.mem_append.mp hm with hm | hm
  · exact hh hm
  · cases port with
    | none => cases hm
    | some t =>
      simp only [opt, List.cons_append, List.nil_append, List.mem_cons] at hm
      rcases hm with rfl | hm
      · exact hb rfl
      · exact hd ((hp t rfl).1.2 b hm)

theorem setFile_parts {u : Url} {host : List Byte} {port file : Option (List Byte)} (hh : ∀ b ∈ host, b ≠ 47 ∧ b ≠ 58) (hp : ∀ t, port = some t → Digits t ∧ natVal t < 2 ^ 31)
    (h0 : u.port = 0) (hu : u.host = []) (hf : u.file = []) :
    setFile u (host ++ opt [58] port ++ opt [47] file) = some { u with host := host, port := ((port.map natVal).getD 0 : Nat), file := fileOf host port file } := by
  have h58 : 58 ∉ host := fun hm => (hh _ hm).2 rfl
  have h47 : 47 ∉ host ++ opt [58] port := hostport_free (fun hm => (hh _ hm).1 rfl) hp (by decide) (by unfold isDigit; decide)
  unfold setFile
  cases file with
  | none =>
    rw [opt_none, List.append_nil, find_single_none h47]
    dsimp only
    rw [setPort_parts (u := { u with host := host ++ opt [58] port }) (host := host) (port := port) h58 hp rfl h0]
    cases u
    simp_all [fileOf]
  | some t =>
    have e : host ++ opt [58] port ++ opt [47] (some t) = (host ++ opt [58] port) ++ 47 :: t := rfl
    rw [e, find_single h47]
    dsimp only
    by_cases hz : (host ++ opt [58] port).length = 0
    · rw [if_pos hz]
      have hz' := List.length_eq_zero_iff.mp hz
      obtain ⟨rfl, hpo⟩ := List.append_eq_nil_iff.mp hz'
      cases port with
      | some _ => simp [opt] at hpo
      | none =>
        rw [setPort_none (by simp [hu])]
        cases u
        simp_all [opt, fileOf]
    · rw [if_neg hz]
      have e1 : List.take (host ++ opt [58] port).length (host ++ opt [58] port ++ 47 :: t) = host ++ opt [58] port := List.take_left
      have e2 : List.drop ((host ++ opt [58] port).length + 1) (host ++ opt [58] port ++ 47 :: t) = t := drop_past _ _ _
      rw [e1, e2, setPort_parts (u := { u with host := host ++ opt [58] port, file := t }) (host := host) (port := port) h58 hp rfl h0]
      have : ¬ (host = [] ∧ port = none) := by
        rintro ⟨rfl, rfl⟩
        exact hz rfl
      simp only [fileOf, if_neg this]

/-- What follows the protocol. -/
theorem rest_parts {u : Url} {host : List Byte} {port file options : Option (List Byte)} (hh : ∀ b ∈ host, b ≠ 47 ∧ b ≠ 63 ∧ b ≠ 58)
    (hp : ∀ t, port = some t → Digits t ∧ natVal t < 2 ^ 31) (hfile : ∀ t, file = some t → 63 ∉ t) (h0 : u.port = 0) (hu : u.host = []) (hf : u.file = []) (ho : u.options = []) :
    setRest u (host ++ opt [58] port ++ opt [47] file ++ opt [63] options) =
      some { u with host := host, port := ((port.map natVal).getD 0 : Nat), options := decode code (options.getD []), file := fileOf host port file } := by
  have hh' : ∀ b ∈ host, b ≠ 47 ∧ b ≠ 58 := fun b hb => ⟨(hh b hb).1, (hh b hb).2.2⟩
  have h63 : 63 ∉ host ++ opt [58] port ++ opt [47] file := by
    intro hm
    rcases List.mem_append.mp hm with hm | hm
    · exact hostport_free (fun hm => (hh _ hm).2.1 rfl) hp (by decide) (by unfold isDigit; decide) hm
    · cases file with
      | none => cases hm
      | some t =>
        simp only [opt, List.cons_append, List.nil_append, List.mem_cons] at hm
        rcases hm with e | hm
        · revert e; decide
        · exact hfile t rfl hm
  unfold setRest
  cases options with
  | none =>
    rw [opt_none, List.append_nil]
    have hdec : decode code ((none : Option (List Byte)).getD []) = [] := rfl
    rw [hdec]
    split
    · rename_i hz
      obtain ⟨hz, hz2⟩ := List.append_eq_nil_iff.mp hz
      obtain ⟨rfl, hz3⟩ := List.append_eq_nil_iff.mp hz
      cases port with
      | some _ => simp [opt] at hz3
      | none =>
        cases file with
        | some _ => simp [opt] at hz2
        | none => cases u; simp_all [fileOf]
    · rw [find_single_none h63]
      have := setFile_parts (file := file) hh' hp h0 hu hf
      refine this.trans ?_
      cases u
      simp_all
  | some o =>
    have e : host ++ opt [58] port ++ opt [47] file ++ opt [63] (some o) = (host ++ opt [58] port ++ opt [47] file) ++ 63 :: o := rfl
    rw [e, if_neg (by simp), find_single h63]
    dsimp only
    have e1 : List.take (host ++ opt [58] port ++ opt [47] file).length (host ++ opt [58] port ++ opt [47] file ++ 63 :: o) = host ++ opt [58] port ++ opt [47] file := List.take_left
    have e2 : List.drop ((host ++ opt [58] port ++ opt [47] file).length + 1) (host ++ opt [58] port ++ opt [47] file ++ 63 :: o) = o := drop_past _ _ _
    rw [e1, e2, replaceSpecial_decode]
    exact setFile_parts (u := { u with options := decode code o }) (file := file) hh' hp h0 hu hf

theorem setUrl_parts {p : Parts} (h : p.Ok) : setUrl p.text = some p.expected := by
  obtain ⟨proto, host, port, file, options⟩ := p
  have hr := fun (u : Url) => rest_parts (u := u) (options := options) h.host h.port h.file
  have ht : Parts.text ⟨proto, host, port, file, options⟩ = (match proto with | none => [] | some t => t ++ [58, 47, 47]) ++ (host ++ opt [58] port ++ opt [47] file ++ opt [63] options) := by
    unfold Parts.text
    cases proto <;> simp only [List.append_assoc] <;> rfl
  have hne := h.nonempty
  have hnp := h.noprotocol
  rw [ht] at hne hnp
  rw [ht]
  unfold setUrl
  rw [if_neg hne]
  cases proto with
  | none =>
    have hf := find_none (hnp rfl)
    have e : lit "://" = [58, 47, 47] := by decide
    rw [e] at hf
    rw [hf]
    exact hr ⟨true, [], [], 0, [], []⟩ rfl rfl rfl rfl
  | some t =>
    have hf := find_protocol (r := host ++ opt [58] port ++ opt [47] file ++ opt [63] options) (show ¬ [58, 47, 47] <:+: t from h.protocol t rfl)
    dsimp only
    rw [hf]
    dsimp only
    have e1 : List.take t.length (t ++ [58, 47, 47] ++ (host ++ opt [58] port ++ opt [47] file ++ opt [63] options)) = t := by
      rw [List.append_assoc, List.take_append]; simp
    have e2 : List.drop (t.length + 3) (t ++ [58, 47, 47] ++ (host ++ opt [58] port ++ opt [47] file ++ opt [63] options)) = host ++ opt [58] port ++ opt [47] file ++ opt [63] options := by
      rw [List.drop_append]; simp
    rw [e1, e2]
    exact hr ⟨true, t, [], 0, [], []⟩ rfl rfl rfl rfl

end Verif.Url
