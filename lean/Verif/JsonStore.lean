import Verif.JsonLemmas

/-! # The text made by `HStore` -/

namespace Verif.Json
open Verif.Bytes Verif.Record

/-! ## Grammar -/

theorem ws_append {a b : List Byte} (ha : Ws a) (hb : Ws b) : Ws (a ++ b) := by
  intro x hx
  rcases List.mem_append.mp hx with h | h
  · exact ha x h
  · exact hb x h

theorem members_ws {w : List Byte} (hw : Ws w) : ∀ {t : List Byte} {ms : List (List Nat × JV)}, IsMembers t ms → IsMembers (t ++ w) ms
  | _, _, .one h1 h2 h3 h4 h5 h6 => by
    have := IsMembers.one h1 h2 h3 h4 h5 (ws_append h6 hw)
    simpa [List.append_assoc] using this
  | _, _, .cons h1 h2 h3 h4 h5 h6 hr => by
    have := IsMembers.cons h1 h2 h3 h4 h5 h6 (members_ws hw hr)
    simpa [List.append_assoc] using this

theorem members_snoc {w k key w1 w2 t' v} (a1 : Ws w) (a2 : decodeChars k = some key) (a3 : Ws w1) (a4 : Ws w2) (a5 : IsJson t' v) :
    ∀ {t : List Byte} {ms : List (List Nat × JV)}, IsMembers t ms → IsMembers (t ++ [44] ++ (w ++ [34] ++ k ++ [34] ++ w1 ++ [58] ++ w2 ++ t')) (ms ++ [(key, v)])
  | _, _, .one h1 h2 h3 h4 h5 h6 => by
    have := IsMembers.cons h1 h2 h3 h4 h5 h6 (IsMembers.one a1 a2 a3 a4 a5 ws_nil)
    simpa [List.append_assoc] using this
  | _, _, .cons h1 h2 h3 h4 h5 h6 hr => by
    have := IsMembers.cons h1 h2 h3 h4 h5 h6 (members_snoc a1 a2 a3 a4 a5 hr)
    simpa [List.append_assoc] using this

theorem elems_ws {w : List Byte} (hw : Ws w) : ∀ {t : List Byte} {l : List JV}, IsElems t l → IsElems (t ++ w) l
  | _, _, .one h1 h2 h3 => by
    have := IsElems.one h1 h2 (ws_append h3 hw)
    simpa [List.append_assoc] using this
  | _, _, .cons h1 h2 h3 hr => by
    have := IsElems.cons h1 h2 h3 (elems_ws hw hr)
    simpa [List.append_assoc] using this

theorem elems_snoc {w t' v} (a1 : Ws w) (a2 : IsJson t' v) : ∀ {t : List Byte} {l : List JV}, IsElems t l → IsElems (t ++ [44] ++ (w ++ t')) (l ++ [v])
  | _, _, .one h1 h2 h3 => by
    have := IsElems.cons h1 h2 h3 (IsElems.one a1 a2 ws_nil)
    simpa [List.append_assoc] using this
  | _, _, .cons h1 h2 h3 hr => by
    have := IsElems.cons h1 h2 h3 (elems_snoc a1 a2 hr)
    simpa [List.append_assoc] using this

theorem nl_ws (c : Nat) : Ws (nl c) := by
  unfold nl Ws
  split
  · simp
  · split <;> simp

theorem ind_ws (c n : Nat) : Ws (ind c n) := by
  unfold ind
  split
  · exact ws_nil
  · intro b hb
    exact Or.inl (List.eq_of_mem_replicate hb)

theorem colon_ws (c : Nat) : ∃ w1 w2, colon c = w1 ++ [58] ++ w2 ∧ Ws w1 ∧ Ws w2 := by
  unfold colon
  split
  · exact ⟨[], [32], rfl, ws_nil, by simp [Ws]⟩
  · split
    · exact ⟨[], [], rfl, ws_nil, ws_nil⟩
    · exact ⟨[32], [32], rfl, by simp [Ws], by simp [Ws]⟩

/-! ## Inside of a node -/

/-- Text of the members written so far. -/
def Body (n : Int) (body : List Byte) (ms : List (List Nat × JV)) : Prop := (n = 0 ∧ body = [] ∧ ms = []) ∨ (0 < n ∧ IsMembers body ms)

theorem body_snoc {c m : Nat} {n : Int} {body k v : List Byte} {key : List Nat} {j : JV} {ms : List (List Nat × JV)} (h : Body n body ms)
    (hk : decodeChars k = some key) (hv : IsJson v j) :
    IsMembers (body ++ ((if n > 0 then [44] else []) ++ nl c ++ ind c m ++ [34] ++ k ++ [34] ++ colon c ++ v)) (ms ++ [(key, j)]) := by
  obtain ⟨w1, w2, e, h1, h2⟩ := colon_ws c
  have hw := ws_append (nl_ws c) (ind_ws c m)
  rw [e]
  rcases h with ⟨rfl, rfl, rfl⟩ | ⟨hn, hm⟩
  · have := IsMembers.one hw hk h1 h2 hv ws_nil
    simpa [List.append_assoc] using this
  · have := members_snoc hw hk h1 h2 hv hm
    rw [if_pos hn]
    simpa [List.append_assoc] using this

/-- The store is in a node, after the members. -/
def At (b0 : List Byte) (lvl : Nat) (fs : List Int) (ks : List Nat) (top : Bool) (ms : List (List Nat × JV)) (s : St) : Prop :=
  ∃ n body, s = ⟨b0 ++ body, lvl, n :: fs, 0 :: ks, top⟩ ∧ Body n body ms

theorem setField_at {c lvl : Nat} {b0 k v : List Byte} {fs : List Int} {ks : List Nat} {top : Bool} {ms : List (List Nat × JV)} {s : St} {key : List Nat} {j : JV}
    (h : At b0 lvl fs ks top ms s) (hk : decodeChars k = some key) (hv : IsJson v j) :
    ∃ s', s.setField c k v = some s' ∧ At b0 lvl fs ks top (ms ++ [(key, j)]) s' := by
  obtain ⟨n, body, rfl, hb⟩ := h
  have hn : 0 ≤ n := by rcases hb with h | h <;> omega
  have hm := body_snoc (c := c) (m := lvl * 4 - 2) hb hk hv
  refine ⟨_, by simp only [St.setField]; rw [if_neg (by omega)], n + 1, _, ?_, Or.inr ⟨by omega, hm⟩⟩
  simp [List.append_assoc]

theorem All2.append {α β : Type} {R : α → β → Prop} : ∀ {a b : List α} {c d : List β}, All2 R a c → All2 R b d → All2 R (a ++ b) (c ++ d)
  | [], _, c, d, h, h' => by
    have : c = [] := h
    subst this; exact h'
  | x :: a, b, c, d, h, h' => by
    obtain ⟨y, ys, rfl, h1, h2⟩ := h
    exact ⟨y, ys ++ d, rfl, h1, All2.append h2 h'⟩

theorem shown_eq (n : Name) : shown n = Appears n := by
  have : badChars = hidden := by decide
  unfold shown Appears
  rw [this]
  congr 1
  induction n with
  | nil => rfl
  | cons b n ih => simp only [List.any_cons, List.all_cons, Bool.not_or, ih]

theorem appears_printable {n : Name} (h : Appears n = true) (ha : ∀ b ∈ n, 32 ≤ b.toNat ∧ b.toNat < 128) : Printable n := by
  intro b hb
  simp only [Appears, Bool.and_eq_true, List.all_eq_true] at h
  have hh := h.2 b hb
  refine ⟨(ha b hb).1, (ha b hb).2, ?_, ?_⟩ <;> rintro rfl <;> revert hh <;> decide

theorem saveFields_at {F : Fmt} {c lvl : Nat} {b0 : List Byte} {fs : List Int} {ks : List Nat} {top : Bool} : ∀ {l : List (Name × Val)} {ms : List (List Nat × JV)} {s : St},
    At b0 lvl fs ks top ms s → (∀ e ∈ l, FieldOk F e) →
    ∃ s' ms', saveFields F c l s = some s' ∧ At b0 lvl fs ks top (ms ++ ms') s' ∧ MeansFields F l ms'
  | [], ms, s, h, _ => ⟨s, [], rfl, by simpa using h, rfl⟩
  | (n, v) :: l, ms, s, h, hg => by
    unfold saveFields MeansFields
    rw [shown_eq]
    cases hn : Appears n with
    | false =>
      simp only [Bool.false_eq_true, if_false]
      obtain ⟨s', ms', h1, h2, h3⟩ := saveFields_at (l := l) h (fun e he => hg e (by simp [he]))
      exact ⟨s', ms', h1, h2, by simpa [hn, MeansFields] using h3⟩
    | true =>
      simp only [if_true]
      obtain ⟨g1, g2⟩ := hg (n, v) (by simp)
      obtain ⟨j, hj1, hj2⟩ := asJson_means (g2 hn)
      obtain ⟨s1, e1, a1⟩ := setField_at (c := c) h (decode_printable (appears_printable hn g1)) hj2
      obtain ⟨s', ms', h1, h2, h3⟩ := saveFields_at (l := l) a1 (fun e he => hg e (by simp [he]))
      refine ⟨s', (chars n, j) :: ms', by rw [e1]; exact h1, by simpa [List.append_assoc] using h2, ?_⟩
      simp only [List.filter_cons, hn, if_true]
      exact ⟨_, _, rfl, ⟨rfl, hj1⟩, h3⟩

theorem printable_lit {s : String} (h : (lit s).all (fun b => 32 ≤ b.toNat && b.toNat < 128 && b ≠ 34 && b ≠ 92) = true) : decodeChars (lit s) = some (chars (lit s)) := by
  apply decode_printable
  intro b hb
  have := List.all_eq_true.mp h b hb
  simpa [and_assoc] using this

theorem saveVersions_at {o : Opts} {lvl : Nat} {b0 : List Byte} {fs : List Int} {ks : List Nat} {top : Bool} {v1 v2 v3 : Nat} {ms : List (List Nat × JV)} {s : St}
    (h : At b0 lvl fs ks top ms s) : ∃ s' ms', saveVersions o v1 v2 v3 s = some s' ∧ At b0 lvl fs ks false (ms ++ ms') s' ∧ MeansVersions o top v1 v2 v3 ms' := by
  have hnum : ∀ n, IsJson (decNat n) (.num (decNat n)) := fun n => .num (decNat_num n).1
  have htop : s.top = top := by obtain ⟨n, body, rfl, _⟩ := h; rfl
  have first : ∃ s1 a, (if s.top then (s.setField o.compact (lit "_version") (decNat v1)).map fun s => { s with top := false } else some s) = some s1 ∧
      At b0 lvl fs ks false (ms ++ a) s1 ∧ (if top then ∃ m, a = [m] ∧ NumMember "_version" v1 m else a = []) := by
    rw [htop]
    cases top with
    | false => exact ⟨s, [], rfl, by simpa using h, rfl⟩
    | true =>
      obtain ⟨s1, e1, a1⟩ := setField_at (c := o.compact) h (printable_lit (s := "_version") (by decide)) (hnum v1)
      refine ⟨{ s1 with top := false }, [(chars (lit "_version"), .num (decNat v1))], by rw [e1]; rfl, ?_, _, rfl, rfl, _, rfl, (decNat_num v1).2⟩
      obtain ⟨n, body, rfl, hb⟩ := a1
      exact ⟨n, body, rfl, hb⟩
  obtain ⟨s1, a, e1, at1, ha⟩ := first
  unfold saveVersions
  rw [e1]
  simp only [Option.bind_some]
  cases hv : o.version with
  | false => exact ⟨s1, a ++ [], rfl, by simpa using at1, a, [], rfl, ha, by simp [hv]⟩
  | true =>
    simp only [if_true]
    obtain ⟨s2, e2, at2⟩ := setField_at (c := o.compact) at1 (printable_lit (s := "node_ver") (by decide)) (hnum v1)
    obtain ⟨s3, e3, at3⟩ := setField_at (c := o.compact) at2 (printable_lit (s := "dns_ver") (by decide)) (hnum v2)
    obtain ⟨s4, e4, at4⟩ := setField_at (c := o.compact) at3 (printable_lit (s := "chld_ver") (by decide)) (hnum v3)
    refine ⟨s4, a ++ [(chars (lit "node_ver"), .num (decNat v1)), (chars (lit "dns_ver"), .num (decNat v2)), (chars (lit "chld_ver"), .num (decNat v3))], by rw [e2]; simp only [Option.bind_some]; rw [e3]; simp only [Option.bind_some]; exact e4, by simpa [List.append_assoc] using at4, a, _, rfl, ha, ?_⟩
    rw [if_pos hv]
    exact ⟨_, _, _, rfl, ⟨rfl, _, rfl, (decNat_num v1).2⟩, ⟨rfl, _, rfl, (decNat_num v2).2⟩, ⟨rfl, _, rfl, (decNat_num v3).2⟩⟩

/-! ## Arrays of nodes -/

/-- The store is in a node, with the given elements in the array begun last. -/
def Arr (c : Nat) (base : String) (b0 : List Byte) (lvl : Nat) (fs : List Int) (ks : List Nat) (top : Bool) (ms : List (List Nat × JV)) (js : List JV) (s : St) : Prop :=
  (js = [] ∧ At b0 lvl fs ks top ms s) ∨
  (js ≠ [] ∧ ∃ (n : Int) (body t : List Byte), s = ⟨b0 ++ (body ++ ((if n > 0 then [44] else []) ++ nl c ++ ind c (lvl * 4 - 2) ++ [34] ++ lit base ++ [34] ++ colon c ++ ([91] ++ t))),
      lvl, -1 :: fs, js.length :: ks, top⟩ ∧ Body n body ms ∧ IsElems t js)

theorem beforeChild_arr {c : Nat} {base : String} {b0 : List Byte} {lvl : Nat} {fs : List Int} {ks : List Nat} {top : Bool} {ms : List (List Nat × JV)} {js : List JV} {s : St}
    (h : Arr c base b0 lvl fs ks top ms js s) : ∃ s1, s.beforeChild c (lit base) = some s1 ∧ s1.lvl = lvl ∧ s1.top = top ∧
      ∀ w t j top', Ws w → IsJson t j → Arr c base b0 lvl fs ks top' ms (js ++ [j]) { s1 with buf := s1.buf ++ (w ++ t), top := top' } := by
  rcases h with ⟨rfl, n, body, rfl, hb⟩ | ⟨hne, n, body, t, rfl, hb, he⟩
  · refine ⟨_, rfl, rfl, rfl, ?_⟩
    intro w t j top' hw hj
    refine Or.inr ⟨by simp, n, body, nl c ++ w ++ t, ?_, hb, ?_⟩
    · simp [List.append_assoc]
    · have := IsElems.one (ws_append (nl_ws c) hw) hj ws_nil
      simpa [List.append_assoc] using this
  · refine ⟨_, rfl, rfl, rfl, ?_⟩
    intro w t' j top' hw hj
    refine Or.inr ⟨by simp, n, body, t ++ [44] ++ ((nl c ++ w) ++ t'), ?_, hb, elems_snoc (ws_append (nl_ws c) hw) hj he⟩
    have hl : js.length ≠ 0 := by simpa using hne
    simp [List.append_assoc, hne]

theorem closeChilds_arr {c : Nat} {base : String} (hbase : decodeChars (lit base) = some (chars (lit base))) {b0 : List Byte} {lvl : Nat} {fs : List Int} {ks : List Nat} {top : Bool}
    {ms : List (List Nat × JV)} {js : List JV} {s : St} (h : Arr c base b0 lvl fs ks top ms js s) :
    ∃ s', s.closeChilds c = some s' ∧ At b0 lvl fs ks top (ms ++ arrMember base js) s' := by
  rcases h with ⟨rfl, n, body, rfl, hb⟩ | ⟨hne, n, body, t, rfl, hb, he⟩
  · exact ⟨_, rfl, n, body, rfl, by simpa [arrMember] using hb⟩
  · have hl : 0 < js.length := List.length_pos_iff.mpr hne
    have hj : IsJson ([91] ++ (t ++ (nl c ++ ind c (lvl * 4 - 2))) ++ [93]) (.arr js) := .arr (elems_ws (ws_append (nl_ws c) (ind_ws c _)) he)
    have hm := body_snoc (c := c) (m := lvl * 4 - 2) hb hbase hj
    have hmem : arrMember base js = [(chars (lit base), .arr js)] := by
      cases js with
      | nil => exact absurd rfl hne
      | cons => rfl
    rw [← hmem] at hm
    refine ⟨_, by simp only [St.closeChilds]; rw [if_pos hl], 1, _, ?_, Or.inr ⟨by omega, hm⟩⟩
    simp [List.append_assoc]

theorem closeNode_arr {c : Nat} {base : String} (hbase : decodeChars (lit base) = some (chars (lit base))) {b0 : List Byte} {lvl : Nat} {fs : List Int} {ks : List Nat} {top : Bool}
    {ms : List (List Nat × JV)} {js : List JV} {s : St} (h : Arr c base b0 (lvl + 1) fs ks top ms js s) :
    ∃ t, s.closeNode c = some ⟨b0 ++ t, lvl, fs, ks, top⟩ ∧ IsJson ([123] ++ t) (.obj (ms ++ arrMember base js)) := by
  obtain ⟨s', e, n, body, rfl, hb⟩ := closeChilds_arr hbase h
  unfold St.closeNode
  rw [e]
  refine ⟨body ++ (nl c ++ ind c (lvl * 4) ++ [125]), by simp [List.append_assoc], ?_⟩
  have hw := ws_append (nl_ws c) (ind_ws c (lvl * 4))
  rcases hb with ⟨_, rfl, hms⟩ | ⟨_, hm⟩
  · rw [hms]
    have := IsJson.obj0 hw
    simpa [List.append_assoc] using this
  · have := IsJson.obj (members_ws hw hm)
    simpa [List.append_assoc] using this

/-! ## History -/

theorem createNode_none {c : Nat} (s : St) :
    ∃ s', s.createNode c none = some s' ∧ At (s.buf ++ (ind c (s.lvl * 4) ++ [123])) (s.lvl + 1) s.flds s.chs s.top [] s' :=
  ⟨_, rfl, 0, [], by simp, Or.inl ⟨rfl, rfl, rfl⟩⟩

theorem createNode_some {c : Nat} (s : St) {name : List Byte} (h : Printable name) :
    ∃ s', s.createNode c (some name) = some s' ∧
      At (s.buf ++ (ind c (s.lvl * 4) ++ [123])) (s.lvl + 1) s.flds s.chs s.top [(chars (lit "_name"), .str (chars name))] s' := by
  obtain ⟨s', e, a⟩ := createNode_none (c := c) s
  simp only [St.createNode, Option.some.injEq] at e
  obtain ⟨s2, e2, a2⟩ := setField_at (c := c) a (printable_lit (s := "_name") (by decide)) (IsJson.str (decode_printable h))
  refine ⟨s2, ?_, a2⟩
  simp only [St.createNode]
  rw [e]
  exact e2

theorem saveHist_arr {F : Fmt} {o : Opts} {lvl : Nat} {b0 : List Byte} {fs : List Int} {ks : List Nat} {top : Bool} {ms : List (List Nat × JV)} :
    ∀ {l : List (Nat × List (Name × Val))} {js : List JV} {s : St}, Arr o.compact "history" b0 lvl fs ks top ms js s → (∀ x ∈ l, ∀ e ∈ x.2, FieldOk F e) →
    ∃ s' r, saveHist F o l s = some s' ∧ Arr o.compact "history" b0 lvl fs ks top ms (js ++ r.map .obj) s' ∧
      All2 (fun e m => MeansFields F e.2 m) (l.filter fun e => o.ver = 0 ∨ o.ver < e.1) r
  | [], js, s, h, _ => ⟨s, [], rfl, by simpa using h, rfl⟩
  | (v, f) :: l, js, s, h, hg => by
    unfold saveHist
    by_cases hv : o.ver > 0 ∧ v ≤ o.ver
    · rw [if_pos hv]
      obtain ⟨s', r, h1, h2, h3⟩ := saveHist_arr (l := l) h (fun x hx => hg x (by simp [hx]))
      refine ⟨s', r, h1, h2, ?_⟩
      rw [List.filter_cons, if_neg (by simp only [decide_eq_true_eq]; omega)]
      exact h3
    · rw [if_neg hv]
      obtain ⟨s1, e1, hl1, ht1, k1⟩ := beforeChild_arr h
      obtain ⟨s2, e2, a2⟩ := createNode_none (c := o.compact) s1
      obtain ⟨s3, m3, e3, a3, f3⟩ := saveFields_at (F := F) (c := o.compact) a2 (hg (v, f) (by simp))
      obtain ⟨t, e4, j4⟩ := closeNode_arr (c := o.compact) (base := "history") (printable_lit (by decide)) (Or.inl ⟨rfl, a3⟩)
      have key := k1 (ind o.compact (s1.lvl * 4)) ([123] ++ t) _ top (ind_ws _ _) j4
      have hs : ({ s1 with buf := s1.buf ++ (ind o.compact (s1.lvl * 4) ++ ([123] ++ t)), top := top } : St) =
          ⟨s1.buf ++ (ind o.compact (s1.lvl * 4) ++ [123]) ++ t, s1.lvl, s1.flds, s1.chs, s1.top⟩ := by
        simp [List.append_assoc, ht1]
      rw [hs] at key
      obtain ⟨s', r, h1, h2, h3⟩ := saveHist_arr (l := l) key (fun x hx => hg x (by simp [hx]))
      refine ⟨s', m3 :: r, ?_, by simpa [List.append_assoc, arrMember] using h2, ?_⟩
      · rw [e1]; simp only [Option.bind_some]
        rw [e2]; simp only [Option.bind_some]
        rw [e3]; simp only [Option.bind_some]
        rw [e4]; simp only [Option.bind_some]
        exact h1
      · rw [List.filter_cons, if_pos (by simp only [decide_eq_true_eq]; omega)]
        exact ⟨_, _, rfl, by simpa using f3, h3⟩

theorem histPart_newest (o : Opts) (l : List (Nat × List (Name × Val))) : histPart o l = newest o l := by
  unfold histPart newest
  by_cases h : o.hlimit = 0
  · rw [if_pos h, if_neg (by omega)]
  · rw [if_neg h]
    by_cases hl : l.length > o.hlimit
    · rw [if_pos ⟨by omega, hl⟩]
    · rw [if_neg (by omega)]
      have : l.length - o.hlimit = 0 := by omega
      rw [this]; rfl

theorem saveHistory_at {F : Fmt} {o : Opts} {lvl : Nat} {b0 : List Byte} {fs : List Int} {ks : List Nat} {top : Bool} {ms : List (List Nat × JV)} {s : St}
    {h : List (Nat × List (Name × Val)) × Bool} (hh : o.history = true)
    (ha : At b0 lvl fs ks top ms s) (hg : ∀ x ∈ h.1, ∀ e ∈ x.2, FieldOk F e) :
    ∃ s' ms', saveHistory F o h s = some s' ∧ At b0 lvl fs ks top (ms ++ ms') s' ∧ MeansHistory F o (some h) ms' := by
  unfold saveHistory
  simp only [histPart_newest]
  have hsub : ∀ x ∈ newest o h.1, x ∈ h.1 := by
    intro x hx
    unfold newest at hx
    split at hx
    · exact hx
    · exact List.mem_of_mem_drop hx
  have first : ∃ s1 a, (if (h.2 || (newest o h.1).any fun e => decide (e.1 < o.ver)) = true then some s else s.setField o.compact (lit "history_gap") (lit "true")) = some s1 ∧
      At b0 lvl fs ks top (ms ++ a) s1 ∧ a = (if h.2 = true ∨ ∃ e ∈ newest o h.1, e.1 < o.ver then [] else [(chars (lit "history_gap"), .bool true)]) := by
    have hiff : (h.2 || (newest o h.1).any fun e => decide (e.1 < o.ver)) = true ↔ (h.2 = true ∨ ∃ e ∈ newest o h.1, e.1 < o.ver) := by
      simp [List.any_eq_true]
    by_cases hc : h.2 = true ∨ ∃ e ∈ newest o h.1, e.1 < o.ver
    · rw [if_pos (hiff.mpr hc), if_pos hc]
      exact ⟨s, [], rfl, by simpa using ha, rfl⟩
    · rw [if_neg (fun hh => hc (hiff.mp hh)), if_neg hc]
      obtain ⟨s1, e1, a1⟩ := setField_at (c := o.compact) ha (printable_lit (s := "history_gap") (by decide)) IsJson.true
      exact ⟨s1, _, e1, a1, rfl⟩
  obtain ⟨s1, a, e1, at1, hae⟩ := first
  rw [e1]
  simp only [Option.bind_some]
  obtain ⟨s2, r, e2, at2, hr⟩ := saveHist_arr (F := F) (o := o) (l := newest o h.1) (Or.inl ⟨rfl, at1⟩) (fun x hx => hg x (hsub x hx))
  rw [e2]
  simp only [Option.bind_some]
  obtain ⟨s3, e3, at3⟩ := closeChilds_arr (printable_lit (s := "history") (by decide)) at2
  refine ⟨s3, a ++ arrMember "history" (r.map .obj), e3, by simpa [List.append_assoc] using at3, ?_⟩
  unfold MeansHistory
  simp only [hh, Bool.true_eq_false, if_false]
  exact ⟨r, by rw [hae], hr⟩

/-! ## Items -/

mutual
theorem save_spec {F : Fmt} {o : Opts} : ∀ (x : Item) (s : St), Good F x → ∃ w t j, save F o x s = some ⟨s.buf ++ (w ++ t), s.lvl, s.flds, s.chs, false⟩ ∧ Ws w ∧ IsJson t j ∧
    MeansItem F o s.top x j
  | .node name fields v1 v2 v3 hist ch, s, ⟨g1, g2, g3, g4⟩ => by
    obtain ⟨s1, e1, a1⟩ := createNode_some (c := o.compact) s g1
    obtain ⟨s2, m2, e2, a2, f2⟩ := saveFields_at (F := F) (c := o.compact) a1 g2
    obtain ⟨s3, m3, e3, a3, f3⟩ := saveVersions_at (o := o) (v1 := v1) (v2 := v2) (v3 := v3) a2
    have hist_ok : ∃ s4 m4, saveHistOpt F o hist s3 = some s4 ∧
        At (s.buf ++ (ind o.compact (s.lvl * 4) ++ [123])) (s.lvl + 1) s.flds s.chs false ([(chars (lit "_name"), JV.str (chars name))] ++ m2 ++ m3 ++ m4) s4 ∧
        MeansHistory F o hist m4 := by
      cases hist with
      | none => exact ⟨s3, [], rfl, by simpa using a3, rfl⟩
      | some h =>
        cases hh : o.history with
        | false => exact ⟨s3, [], by simp [saveHistOpt, hh], by simpa using a3, by simp [MeansHistory, hh]⟩
        | true =>
          obtain ⟨s4, m4, e4, a4, f4⟩ := saveHistory_at hh a3 (g3 h rfl)
          exact ⟨s4, m4, by simpa [saveHistOpt, hh] using e4, a4, f4⟩
    obtain ⟨s4, m4, e4, a4, f4⟩ := hist_ok
    have childs_ok : ∃ s5 cs, (if o.noChilds then some s4 else saveList F o ch s4) = some s5 ∧
        Arr o.compact "_childs" (s.buf ++ (ind o.compact (s.lvl * 4) ++ [123])) (s.lvl + 1) s.flds s.chs false
          ([(chars (lit "_name"), JV.str (chars name))] ++ m2 ++ m3 ++ m4) cs s5 ∧
        (if o.noChilds then cs = [] else MeansList F o ch cs) := by
      cases hc : o.noChilds with
      | true => exact ⟨s4, [], by simp, Or.inl ⟨rfl, a4⟩, by simp⟩
      | false =>
        obtain ⟨s5, cs, e5, a5, f5⟩ := saveList_spec ch _ s4 [] g4 (Or.inl ⟨rfl, a4⟩)
        exact ⟨s5, cs, by simpa using e5, by simpa using a5, by simpa using f5⟩
    obtain ⟨s5, cs, e5, a5, f5⟩ := childs_ok
    obtain ⟨t, e6, j6⟩ := closeNode_arr (printable_lit (s := "_childs") (by decide)) a5
    refine ⟨ind o.compact (s.lvl * 4), [123] ++ t, _, ?_, ind_ws _ _, j6, m2, m3, m4, cs, rfl, f2, f3, f4, f5⟩
    rw [save, e1]; simp only [Option.bind_some]
    rw [e2]; simp only [Option.bind_some]
    rw [e3]; simp only [Option.bind_some]
    rw [e4]; simp only [Option.bind_some]
    rw [e5]; simp only [Option.bind_some]
    rw [e6]
    simp [List.append_assoc]
theorem saveList_spec {F : Fmt} {o : Opts} {b0 : List Byte} {lvl : Nat} {fs : List Int} {ks : List Nat} : ∀ (l : List Item) (ms : List (List Nat × JV)) (s : St) (js : List JV), GoodL F l →
    Arr o.compact "_childs" b0 lvl fs ks false ms js s →
    ∃ s' r, saveList F o l s = some s' ∧ Arr o.compact "_childs" b0 lvl fs ks false ms (js ++ r) s' ∧ MeansList F o l r
  | [], ms, s, js, _, h => ⟨s, [], rfl, by simpa using h, rfl⟩
  | x :: xs, ms, s, js, ⟨g1, g2⟩, h => by
    obtain ⟨s1, e1, hl1, ht1, k1⟩ := beforeChild_arr h
    obtain ⟨w, t, j, e2, hw, hj, hmj⟩ := save_spec x s1 g1
    obtain ⟨s', r, e3, a3, f3⟩ := saveList_spec xs ms _ (js ++ [j]) g2 (k1 w t j false hw hj)
    refine ⟨s', j :: r, ?_, by simpa [List.append_assoc] using a3, j, r, rfl, by rw [← ht1]; exact hmj, f3⟩
    rw [saveList, e1]; simp only [Option.bind_some]
    rw [e2]; simp only [Option.bind_some]
    exact e3
end

end Verif.Json
