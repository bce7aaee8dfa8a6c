import Verif.Spec.PublTree
import Verif.FileNameLemmas
import Mathlib.Data.List.Induction

namespace Verif.PublTree
open Verif.Bytes Verif.Json Verif.Text Verif.Url Verif.FileName

/-! ## Pieces of a text -/

theorem pieces_cons (sep : Byte → Bool) (c : Byte) (s : Str) : pieces sep (c :: s) =
    if sep c then [] :: pieces sep s else match pieces sep s with | [] => [[c]] | t :: ts => (c :: t) :: ts := rfl

theorem pieces_eq (sep : Byte → Bool) : ∀ s : Str, pieces sep s = s.takeWhile (fun c => !sep c) ::
    (match s.dropWhile (fun c => !sep c) with | [] => [] | _ :: r => pieces sep r)
  | [] => rfl
  | c :: s => by
    rw [pieces_cons]
    by_cases h : sep c = true
    · rw [if_pos h, List.takeWhile_cons, List.dropWhile_cons, if_neg (by simp [h]), if_neg (by simp [h])]
    · have h' : sep c = false := by simpa using h
      rw [if_neg h, List.takeWhile_cons, List.dropWhile_cons, if_pos (by simp [h']), if_pos (by simp [h']), pieces_eq sep s]

theorem pieces_append (sep : Byte → Bool) (c : Byte) (hc : sep c = true) : ∀ a b : Str, pieces sep (a ++ c :: b) = pieces sep a ++ pieces sep b
  | [], b => by
    show pieces sep (c :: b) = [[]] ++ pieces sep b
    rw [pieces_cons, if_pos hc]; rfl
  | x :: a, b => by
    show pieces sep (x :: (a ++ c :: b)) = _
    rw [pieces_cons, pieces_cons, pieces_append sep c hc a b]
    by_cases h : sep x = true
    · rw [if_pos h, if_pos h]; rfl
    · rw [if_neg h, if_neg h]
      have : pieces sep a ≠ [] := by rw [pieces_eq]; simp
      cases hp : pieces sep a with
      | nil => exact absurd hp this
      | cons t ts => rfl

theorem pieces_none (sep : Byte → Bool) : ∀ s : Str, (∀ c ∈ s, sep c = false) → pieces sep s = [s]
  | [], _ => rfl
  | c :: s, h => by
    rw [pieces_cons, if_neg (by simp [h c (by simp)]), pieces_none sep s (fun x hx => h x (by simp [hx]))]

theorem comps_nil : comps [] = [] := rfl

theorem comps_append (a b : Str) : comps (a ++ slash :: b) = comps a ++ comps b := by
  unfold comps
  rw [pieces_append _ slash (by decide), List.filter_append]

theorem comps_slash (s : Str) : comps (slash :: s) = comps s := by
  have := comps_append [] s
  simpa [comps_nil] using this

theorem comps_end (a : Str) : comps (a ++ [slash]) = comps a := by
  have := comps_append a []
  simpa [comps_nil] using this

theorem comps_one {s : Str} (h : slash ∉ s) (h0 : s ≠ []) : comps s = [s] := by
  unfold comps
  rw [pieces_none _ s (fun c hc => by simpa using fun e : c = slash => h (e ▸ hc))]
  simp [h0]

theorem comps_drop : ∀ s : Str, comps (s.dropWhile (· = slash)) = comps s
  | [] => rfl
  | c :: s => by
    by_cases h : c = slash
    · subst h; simp only [List.dropWhile_cons, decide_true, if_true]; rw [comps_drop s, comps_slash]
    · simp [h]

theorem take_of_tok {s : Str} : s.drop (s.takeWhile (· ≠ slash)).length = s.dropWhile (· ≠ slash) := by
  induction s with
  | nil => rfl
  | cons c s ih => by_cases h : c = slash <;> simp [h]; simpa using ih

theorem head_dropWhile : ∀ s : Str, (s.dropWhile (· ≠ slash)) = [] ∨ (s.dropWhile (· ≠ slash)).head? = some slash
  | [] => .inl rfl
  | c :: s => by
    by_cases h : c = slash
    · right; simp [h]
    · simpa [h] using head_dropWhile s

/-- The first name of a path which begins with a name. -/
theorem comps_tok {s : Str} (h : s ≠ []) (h1 : s.head? ≠ some slash) :
    comps s = s.takeWhile (· ≠ slash) :: comps (s.drop (s.takeWhile (· ≠ slash)).length).tail := by
  rw [take_of_tok]
  have e : s = s.takeWhile (· ≠ slash) ++ s.dropWhile (· ≠ slash) := List.takeWhile_append_dropWhile.symm
  have hn : slash ∉ s.takeWhile (· ≠ slash) := by
    intro hm
    have := List.all_takeWhile (p := fun c : Byte => decide (c ≠ slash)) (l := s)
    have := List.all_eq_true.1 this slash hm
    simp at this
  have h0 : s.takeWhile (· ≠ slash) ≠ [] := by
    cases s with
    | nil => exact absurd rfl h
    | cons c s => simp at h1; simp [h1]
  rcases head_dropWhile s with hd | hd
  · rw [hd] at e ⊢
    rw [e]
    simp only [List.append_nil, List.tail_nil, comps_nil]
    have e2 : s.takeWhile (· ≠ slash) = s := by rw [List.append_nil] at e; exact e.symm
    rw [e2] at hn h0 ⊢
    rw [e2, comps_one hn h0]
  · cases hr : s.dropWhile (· ≠ slash) with
    | nil => rw [hr] at hd; cases hd
    | cons c r =>
      rw [hr] at hd e
      have : c = slash := by simpa using hd
      subst this
      conv => lhs; rw [e]
      rw [comps_append, comps_one hn h0]
      rfl

/-! ## The search -/

theorem top_top (t : Tree) : (Ref.mk t []).top = ⟨t, []⟩ := rfl

theorem search_none (n : Nat) (b : Bool) (s : Str) : search n b none s = none := by
  cases n <;> rfl

theorem search_eq : ∀ (n : Nat) (first : Bool) (r : Ref) (s : Str), s.length + (if first then 1 else 0) < n →
    search n first (some r) s = walk (comps s) (if s.head? = some slash ∧ first = true then r.top else r)
  | 0, _, _, _, h => absurd h (by omega)
  | n + 1, first, r, s, h => by
    unfold search
    by_cases h0 : s = []
    · subst h0; simp [comps_nil, walk]
    rw [if_neg h0]
    by_cases h1 : s.head? = some slash ∧ first = true
    · rw [if_pos h1, if_pos h1]
      have hs : s = slash :: s.tail := by
        cases s with
        | nil => exact absurd rfl h0
        | cons c s => simp at h1; simp [h1.1]
      rw [search_eq n false r.top s.tail (by rw [h1.2] at h; rw [hs] at h; simp at h ⊢; omega)]
      simp only [Bool.false_eq_true, and_false, if_false]
      conv => rhs; rw [hs, comps_slash]
    rw [if_neg h1, if_neg h1]
    have hlen : s.length < n + 1 := by split at h <;> omega
    rw [← comps_drop s]
    have hle : (s.dropWhile (· = slash)).length ≤ s.length := List.Sublist.length_le (List.dropWhile_sublist _)
    have hhd : (s.dropWhile (· = slash)).head? ≠ some slash := by
      intro hc
      have := List.head?_dropWhile_not (· = slash) s
      rw [hc] at this
      simp at this
    generalize s.dropWhile (· = slash) = q at hle hhd
    dsimp only
    by_cases hq : q = []
    · subst hq; rfl
    rw [if_neg hq]
    have htok := comps_tok hq hhd
    by_cases h2 : q = [dot, dot]
    · rw [if_pos h2]; subst h2
      have e : comps [dot, dot] = [[dot, dot]] := by decide
      rw [e]; simp only [walk, goto]
      rw [if_neg (by decide), if_pos trivial]
      cases r.parent <;> rfl
    rw [if_neg h2]
    by_cases h3 : q.take 3 = [dot, dot, slash]
    · rw [if_pos h3]
      have e : q = [dot, dot] ++ slash :: q.drop 3 := by
        have := List.take_append_drop 3 q
        rw [h3] at this; exact this.symm
      have e2 : comps q = [dot, dot] :: comps (q.drop 3) := by
        conv => lhs; rw [e, comps_append]
        have : comps [dot, dot] = [[dot, dot]] := by decide
        rw [this]; rfl
      rw [e2]
      show _ = (goto r [dot, dot]).bind (walk (comps (q.drop 3)))
      unfold goto
      rw [if_neg (by decide), if_pos rfl]
      cases hp : r.parent with
      | none => rw [search_none]; rfl
      | some p =>
        rw [search_eq n false p _ (by rw [e] at hle; simp at hle ⊢; omega)]
        simp
    rw [if_neg h3]
    by_cases h4 : q = [dot]
    · rw [if_pos h4]; subst h4
      have e : comps [dot] = [[dot]] := by decide
      rw [e]; simp [walk, goto]
    rw [if_neg h4]
    by_cases h5 : q.take 2 = [dot, slash]
    · rw [if_pos h5]
      have e : q = [dot] ++ slash :: q.drop 2 := by
        have := List.take_append_drop 2 q
        rw [h5] at this; exact this.symm
      have e2 : comps q = [dot] :: comps (q.drop 2) := by
        conv => lhs; rw [e, comps_append]
        have : comps [dot] = [[dot]] := by decide
        rw [this]; rfl
      rw [e2]
      show _ = (goto r [dot]).bind (walk (comps (q.drop 2)))
      unfold goto
      rw [if_pos rfl, search_eq n false r _ (by rw [e] at hle; simp at hle ⊢; omega)]
      simp
    rw [if_neg h5, htok]
    have hd := @take_of_tok q
    have hcat : q = q.takeWhile (· ≠ slash) ++ q.dropWhile (· ≠ slash) := List.takeWhile_append_dropWhile.symm
    have hend := head_dropWhile q
    generalize htk : q.takeWhile (· ≠ slash) = tok at hd hcat ⊢
    rw [hd]
    generalize q.dropWhile (· ≠ slash) = rest at hcat hend ⊢
    have n1 : tok ≠ [dot] := by
      intro e; subst e
      rcases hend with he | he
      · subst he; exact h4 (by simpa using hcat)
      · cases rest with
        | nil => cases he
        | cons c rest => simp at he; subst he; exact h5 (by rw [hcat]; simp)
    have n2 : tok ≠ [dot, dot] := by
      intro e; subst e
      rcases hend with he | he
      · subst he; exact h2 (by simpa using hcat)
      · cases rest with
        | nil => cases he
        | cons c rest => simp at he; subst he; exact h3 (by rw [hcat]; simp)
    have n0 : tok ≠ [] := by
      intro e; subst e
      rcases hend with he | he
      · subst he; exact hq (by simpa using hcat)
      · exact hhd (by rw [hcat]; simpa using he)
    show _ = (goto r tok).bind (walk (comps rest.tail))
    unfold goto
    rw [if_neg n1, if_neg n2]
    by_cases hr : rest = []
    · subst hr
      rw [if_pos rfl]
      simp only [List.tail_nil, comps_nil]
      cases r.child tok <;> rfl
    · rw [if_neg hr]
      cases hc : r.child tok with
      | none => rw [search_none]; rfl
      | some c =>
        have : 0 < tok.length := List.length_pos_iff.2 n0
        have hl : q.length = tok.length + rest.length := by rw [hcat]; simp
        rw [search_eq n false c _ (by simp; omega)]
        simp

theorem getFolder_eq (t : Tree) (s : Str) : getFolder t s = walk (comps s) ⟨t, []⟩ := by
  unfold getFolder
  rw [search_eq _ _ _ _ (by simp)]
  simp [top_top]

theorem walk_append (a b : List Str) : ∀ r : Ref, walk (a ++ b) r = (walk a r).bind (walk b) := by
  induction a with
  | nil => intro r; rfl
  | cons n a ih =>
    intro r
    show (goto r n).bind (walk (a ++ b)) = ((goto r n).bind (walk a)).bind (walk b)
    cases goto r n with
    | none => rfl
    | some x => exact ih x

theorem walk_prefix_none {a c : List Str} {r : Ref} (h : walk a r = none) (hp : a <+: c) : walk c r = none := by
  obtain ⟨b, rfl⟩ := hp
  rw [walk_append, h]; rfl

theorem walk_plain {ns : List Str} (h : ∀ n ∈ ns, Plain n) : ∀ r : Ref, walk ns r = down r.cur r.up ns := by
  induction ns with
  | nil => intro r; rfl
  | cons n ns ih =>
    intro r
    have hn := h n (by simp)
    show (goto r n).bind (walk ns) = _
    unfold goto down
    rw [if_neg hn.2.2.1, if_neg hn.2.2.2]
    unfold Ref.child
    cases r.cur.kids.find? (fun t => t.name = n) with
    | none => rfl
    | some k => exact ih (fun x hx => h x (by simp [hx])) ⟨k, r.cur :: r.up⟩

/-- A path of plain names leads to the item with these names. -/
theorem getFolder_plain {t : Tree} {s : Str} (h : ∀ n ∈ comps s, Plain n) : getFolder t s = item t (comps s) := by
  rw [getFolder_eq, walk_plain h]; rfl

theorem comps_join : ∀ {ns : List Str}, (∀ n ∈ ns, n ≠ [] ∧ slash ∉ n) → comps (join ns) = ns
  | [], _ => rfl
  | [n], h => comps_one (h n (by simp)).2 (h n (by simp)).1
  | n :: m :: ns, h => by
    show comps (n ++ slash :: join (m :: ns)) = _
    rw [comps_append, comps_one (h n (by simp)).2 (h n (by simp)).1, comps_join (fun x hx => h x (by simp [hx]))]
    rfl

theorem pieces_mem (sep : Byte → Bool) : ∀ (s t : Str), t ∈ pieces sep s → ∀ c ∈ t, sep c = false ∧ c ∈ s
  | [], t, h, c, hc => by simp [pieces] at h; subst h; cases hc
  | x :: s, t, h, c, hc => by
    unfold pieces at h
    by_cases hx : sep x = true
    · rw [if_pos hx] at h
      rcases List.mem_cons.1 h with rfl | h
      · cases hc
      · have := pieces_mem sep s t h c hc
        exact ⟨this.1, by simp [this.2]⟩
    · rw [if_neg hx] at h
      cases hp : pieces sep s with
      | nil =>
        rw [hp] at h; simp at h; subst h; simp at hc; subst hc
        exact ⟨by simpa using hx, by simp⟩
      | cons u us =>
        rw [hp] at h
        rcases List.mem_cons.1 h with rfl | h
        · rcases List.mem_cons.1 hc with rfl | hc
          · exact ⟨by simpa using hx, by simp⟩
          · have := pieces_mem sep s u (by rw [hp]; simp) c hc
            exact ⟨this.1, by simp [this.2]⟩
        · have := pieces_mem sep s t (by rw [hp]; simp [h]) c hc
          exact ⟨this.1, by simp [this.2]⟩

theorem comps_names {s n : Str} (h : n ∈ comps s) : n ≠ [] ∧ slash ∉ n := by
  unfold comps at h
  obtain ⟨h1, h2⟩ := List.mem_filter.1 h
  exact ⟨by simpa using h2, fun hc => by simpa using (pieces_mem _ s n h1 slash hc).1⟩

/-! ## Items and the items above them -/

theorem down_append (t : Tree) (up : List Tree) (a b : List Str) :
    down t up (a ++ b) = (down t up a).bind fun r => down r.cur r.up b := by
  induction a generalizing t up with
  | nil => rfl
  | cons n a ih =>
    show down t up (n :: (a ++ b)) = _
    simp only [down]
    cases t.kids.find? (fun k => k.name = n) with
    | none => rfl
    | some k => exact ih k (t :: up)

theorem item_snoc (t : Tree) (ns : List Str) (n : Str) : item t (ns ++ [n]) = (item t ns).bind fun r => r.child n := by
  unfold item
  rw [down_append]
  congr 1
  funext r
  simp only [down, Ref.child]
  cases r.cur.kids.find? (fun k => k.name = n) <;> rfl

theorem child_spec {r c : Ref} {n : Str} (h : r.child n = some c) : c.cur.name = n ∧ c.up = r.chain := by
  unfold Ref.child at h
  obtain ⟨k, hk, rfl⟩ := Option.map_eq_some_iff.1 h
  exact ⟨by simpa using List.find?_some hk, rfl⟩

theorem producer_nearest (t : Tree) : ∀ (ns : List Str) (r : Ref) (rel : List Str), item t ns = some r →
    ((producerLoop false r.chain rel none = none ∧ ∀ k, k ≤ ns.length → ∃ x, item t (ns.take k) = some x ∧ x.cur.info.producer = none) ∨
      ∃ j pr, NearestProducer t ns j pr ∧ producerLoop false r.chain rel none = some (pr, join (ns.drop j ++ rel))) := by
  intro ns
  induction ns using List.reverseRecOn with
  | nil =>
    intro r rel h
    have : r = ⟨t, []⟩ := by simpa [item, down] using h.symm
    subst this
    cases hp : t.info.producer with
    | none =>
      left
      exact ⟨by simp [Ref.chain, producerLoop, hp], fun k hk => ⟨⟨t, []⟩, by
        have : k = 0 := by simpa using hk
        subst this; rfl, hp⟩⟩
    | some pr =>
      right
      exact ⟨0, pr, ⟨by simp, ⟨⟨t, []⟩, rfl, hp⟩, fun k h1 h2 => absurd h2 (by simp; omega)⟩, by simp [Ref.chain, producerLoop, hp]⟩
  | append_singleton ns n ih =>
    intro r rel h
    rw [item_snoc] at h
    obtain ⟨q, hq, hc⟩ := Option.bind_eq_some_iff.1 h
    obtain ⟨hn, hup⟩ := child_spec hc
    have hlen : (ns ++ [n]).length = ns.length + 1 := by simp
    have hfull : item t ((ns ++ [n]).take (ns.length + 1)) = some r := by
      rw [← hlen, List.take_length, item_snoc, hq]; exact hc
    cases hp : r.cur.info.producer with
    | some pr =>
      right
      refine ⟨ns.length + 1, pr, ⟨by simp, ⟨r, hfull, hp⟩, fun k h1 h2 => absurd h2 (by simp; omega)⟩, ?_⟩
      rw [← hlen, List.drop_length]
      simp [Ref.chain, producerLoop, hp]
    | none =>
      have e : producerLoop false r.chain rel none = producerLoop false q.chain (n :: rel) none := by
        show producerLoop false (r.cur :: r.up) rel none = _
        rw [hup]
        simp [producerLoop, hp, hn]
      have htake : ∀ k, k ≤ ns.length → (ns ++ [n]).take k = ns.take k := fun k hk => List.take_append_of_le_length hk
      rw [e]
      rcases ih q (n :: rel) hq with ⟨h1, h2⟩ | ⟨j, pr, ⟨h1, h2, h3⟩, h4⟩
      · left
        refine ⟨h1, fun k hk => ?_⟩
        by_cases hk' : k ≤ ns.length
        · rw [htake k hk']; exact h2 k hk'
        · have : k = ns.length + 1 := by simp at hk; omega
          subst this; exact ⟨r, hfull, hp⟩
      · right
        refine ⟨j, pr, ⟨by simp; omega, by rw [htake j h1]; exact h2, fun k hk1 hk2 => ?_⟩, ?_⟩
        · by_cases hk' : k ≤ ns.length
          · rw [htake k hk']; exact h3 k hk1 hk'
          · have : k = ns.length + 1 := by simp at hk2; omega
            subst this; exact ⟨r, hfull, hp⟩
        · rw [h4, List.drop_append_of_le_length h1]
          simp

theorem producer_top (t : Tree) : ∀ (ns : List Str) (r : Ref) (rel : List Str) (got : Option (Str × Str)), item t ns = some r →
    ((producerLoop true r.chain rel got = got ∧ ∀ k, k ≤ ns.length → ∃ x, item t (ns.take k) = some x ∧ x.cur.info.producer = none) ∨
      ∃ j pr, TopProducer t ns j pr ∧ producerLoop true r.chain rel got = some (pr, join (ns.drop j ++ rel))) := by
  intro ns
  induction ns using List.reverseRecOn with
  | nil =>
    intro r rel got h
    have : r = ⟨t, []⟩ := by simpa [item, down] using h.symm
    subst this
    cases hp : t.info.producer with
    | none =>
      left
      exact ⟨by simp [Ref.chain, producerLoop, hp], fun k hk => ⟨⟨t, []⟩, by
        have : k = 0 := by simpa using hk
        subst this; rfl, hp⟩⟩
    | some pr =>
      right
      exact ⟨0, pr, ⟨by simp, ⟨⟨t, []⟩, rfl, hp⟩, fun k h1 => absurd h1 (by omega)⟩, by simp [Ref.chain, producerLoop, hp]⟩
  | append_singleton ns n ih =>
    intro r rel got h
    rw [item_snoc] at h
    obtain ⟨q, hq, hc⟩ := Option.bind_eq_some_iff.1 h
    obtain ⟨hn, hup⟩ := child_spec hc
    have hlen : (ns ++ [n]).length = ns.length + 1 := by simp
    have hfull : item t ((ns ++ [n]).take (ns.length + 1)) = some r := by
      rw [← hlen, List.take_length, item_snoc, hq]; exact hc
    have htake : ∀ k, k ≤ ns.length → (ns ++ [n]).take k = ns.take k := fun k hk => List.take_append_of_le_length hk
    have e : producerLoop true r.chain rel got =
        producerLoop true q.chain (n :: rel) (match r.cur.info.producer with | some p => some (p, join rel) | none => got) := by
      show producerLoop true (r.cur :: r.up) rel got = _
      rw [hup]
      cases hp : r.cur.info.producer <;> simp [producerLoop, hp, hn]
    rw [e]
    rcases ih q (n :: rel) (match r.cur.info.producer with | some p => some (p, join rel) | none => got) hq with ⟨h1, h2⟩ | ⟨j, pr, ⟨h1, h2, h3⟩, h4⟩
    · cases hp : r.cur.info.producer with
      | some pr =>
        right
        rw [hp] at h1
        refine ⟨ns.length + 1, pr, ⟨by simp, ⟨r, hfull, hp⟩, fun k hk => ?_⟩, ?_⟩
        · have : k ≤ ns.length := by omega
          rw [htake k this]; exact h2 k this
        · rw [← hlen, List.drop_length]
          simpa using h1
      | none =>
        left
        rw [hp] at h1
        refine ⟨h1, fun k hk => ?_⟩
        by_cases hk' : k ≤ ns.length
        · rw [htake k hk']; exact h2 k hk'
        · have : k = ns.length + 1 := by simp at hk; omega
          subst this; exact ⟨r, hfull, hp⟩
    · right
      refine ⟨j, pr, ⟨by simp; omega, by rw [htake j h1]; exact h2, fun k hk => ?_⟩, ?_⟩
      · rw [htake k (by omega)]; exact h3 k hk
      · rw [h4, List.drop_append_of_le_length h1]
        simp

theorem auth_nearest (t : Tree) : ∀ (ns : List Str) (r : Ref), item t ns = some r →
    ((authLoop r.chain = none ∧ ∀ k, k ≤ ns.length → ∃ x, item t (ns.take k) = some x ∧ x.cur.info.auth = none) ∨
      ∃ j a, NearestAuth t ns j a ∧ authLoop r.chain = some a) := by
  intro ns
  induction ns using List.reverseRecOn with
  | nil =>
    intro r h
    have : r = ⟨t, []⟩ := by simpa [item, down] using h.symm
    subst this
    cases hp : t.info.auth with
    | none =>
      left
      exact ⟨by simp [Ref.chain, authLoop, hp], fun k hk => ⟨⟨t, []⟩, by
        have : k = 0 := by simpa using hk
        subst this; rfl, hp⟩⟩
    | some a =>
      right
      exact ⟨0, a, ⟨by simp, ⟨⟨t, []⟩, rfl, hp⟩, fun k h1 h2 => absurd h2 (by simp; omega)⟩, by simp [Ref.chain, authLoop, hp]⟩
  | append_singleton ns n ih =>
    intro r h
    rw [item_snoc] at h
    obtain ⟨q, hq, hc⟩ := Option.bind_eq_some_iff.1 h
    obtain ⟨hn, hup⟩ := child_spec hc
    have hlen : (ns ++ [n]).length = ns.length + 1 := by simp
    have hfull : item t ((ns ++ [n]).take (ns.length + 1)) = some r := by
      rw [← hlen, List.take_length, item_snoc, hq]; exact hc
    cases hp : r.cur.info.auth with
    | some a =>
      right
      refine ⟨ns.length + 1, a, ⟨by simp, ⟨r, hfull, hp⟩, fun k h1 h2 => absurd h2 (by simp; omega)⟩, ?_⟩
      simp [Ref.chain, authLoop, hp]
    | none =>
      have e : authLoop r.chain = authLoop q.chain := by
        show authLoop (r.cur :: r.up) = _
        rw [hup]
        simp [authLoop, hp]
      have htake : ∀ k, k ≤ ns.length → (ns ++ [n]).take k = ns.take k := fun k hk => List.take_append_of_le_length hk
      rw [e]
      rcases ih q hq with ⟨h1, h2⟩ | ⟨j, a, ⟨h1, h2, h3⟩, h4⟩
      · left
        refine ⟨h1, fun k hk => ?_⟩
        by_cases hk' : k ≤ ns.length
        · rw [htake k hk']; exact h2 k hk'
        · have : k = ns.length + 1 := by simp at hk; omega
          subst this; exact ⟨r, hfull, hp⟩
      · right
        refine ⟨j, a, ⟨by simp; omega, by rw [htake j h1]; exact h2, fun k hk1 hk2 => ?_⟩, h4⟩
        by_cases hk' : k ≤ ns.length
        · rw [htake k hk']; exact h3 k hk1 hk'
        · have : k = ns.length + 1 := by simp at hk2; omega
          subst this; exact ⟨r, hfull, hp⟩

end Verif.PublTree
