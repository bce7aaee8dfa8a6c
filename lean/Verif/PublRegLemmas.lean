import Verif.Spec.PublReg
import Verif.HierStoreLemmas

/-! # Folders of the publisher -/

namespace Verif.PublReg
open Verif.Hierarchy
variable {D X : Type}

/-! ## Childs by name -/

def find (n : String) (ch : List (T D X)) : Option (T D X) := ch.find? (fun c => c.name = n)

theorem find_nil (n : String) : find n ([] : List (T D X)) = none := rfl

theorem find_cons (n : String) (c : T D X) (cs : List (T D X)) : find n (c :: cs) = if c.name = n then some c else find n cs := by
  unfold find
  by_cases h : c.name = n
  · rw [if_pos h, List.find?_cons_of_pos (by simpa using h)]
  · rw [if_neg h, List.find?_cons_of_neg (by simpa using h)]

theorem find_name {n : String} : ∀ {ch : List (T D X)} {c : T D X}, find n ch = some c → c.name = n ∧ c ∈ ch
  | [], c, h => by cases h
  | x :: xs, c, h => by
    rw [find_cons] at h
    split at h
    · rename_i hx; cases h; exact ⟨hx, by simp⟩
    · have := find_name h; exact ⟨this.1, by simp [this.2]⟩

theorem find_append (n : String) (a b : List (T D X)) : find n (a ++ b) = (find n a).or (find n b) := by
  unfold find; rw [List.find?_append]

theorem find_none {n : String} : ∀ {ch : List (T D X)}, find n ch = none ↔ n ∉ ch.map T.name
  | [] => by simp [find]
  | x :: xs => by
    rw [find_cons]
    by_cases h : x.name = n
    · simp [h]
    · rw [if_neg h, find_none]
      simp only [List.map_cons, List.mem_cons, not_or]
      exact ⟨fun hh => ⟨fun e => h e.symm, hh⟩, fun hh => hh.2⟩

theorem find_setFirst {n : String} {c c' : T D X} (hc : c'.name = n) : ∀ {ch : List (T D X)}, find n ch = some c → find n (setFirst n c' ch) = some c'
  | [], h => by cases h
  | x :: xs, h => by
    rw [find_cons] at h
    unfold setFirst
    by_cases hx : x.name = n
    · rw [if_pos hx, find_cons, if_pos hc]
    · rw [if_neg hx] at h
      rw [if_neg hx, find_cons, if_neg hx]
      exact find_setFirst hc h

theorem find_setFirst_ne {n m : String} {c' : T D X} (hc : c'.name = n) (hm : m ≠ n) : ∀ {ch : List (T D X)}, find m (setFirst n c' ch) = find m ch
  | [] => rfl
  | x :: xs => by
    unfold setFirst
    by_cases hx : x.name = n
    · rw [if_pos hx, find_cons, find_cons, if_neg (by rw [hc]; exact hm.symm), if_neg (by rw [hx]; exact hm.symm)]
    · rw [if_neg hx, find_cons, find_cons, find_setFirst_ne hc hm]

theorem map_setFirst {n : String} {c' : T D X} (hc : c'.name = n) : ∀ (ch : List (T D X)), (setFirst n c' ch).map T.name = ch.map T.name
  | [] => rfl
  | x :: xs => by
    unfold setFirst
    by_cases hx : x.name = n
    · rw [if_pos hx]; simp [hc, hx]
    · rw [if_neg hx]; simp [map_setFirst hc xs]

theorem mem_setFirst {n : String} {c' x : T D X} : ∀ {ch : List (T D X)}, x ∈ setFirst n c' ch → x = c' ∨ x ∈ ch
  | [], h => by cases h
  | y :: ys, h => by
    unfold setFirst at h
    split at h
    · rcases List.mem_cons.mp h with h | h
      · exact .inl h
      · exact .inr (by simp [h])
    · rcases List.mem_cons.mp h with h | h
      · exact .inr (by simp [h])
      · rcases mem_setFirst h with h | h
        · exact .inl h
        · exact .inr (by simp [h])

theorem setFirst_ne_nil {n : String} {c' : T D X} {ch : List (T D X)} (h : ch ≠ []) : setFirst n c' ch ≠ [] := by
  cases ch with
  | nil => exact absurd rfl h
  | cons x xs => unfold setFirst; split <;> simp

def del (n : String) (ch : List (T D X)) : List (T D X) := ch.eraseP fun c => c.name = n

theorem del_cons (n : String) (c : T D X) (cs : List (T D X)) : del n (c :: cs) = if c.name = n then cs else c :: del n cs := by
  unfold del
  by_cases h : c.name = n
  · rw [if_pos h, List.eraseP_cons_of_pos (by simpa using h)]
  · rw [if_neg h, List.eraseP_cons_of_neg (by simpa using h)]

theorem find_del_ne {n m : String} (hm : m ≠ n) : ∀ {ch : List (T D X)}, find m (del n ch) = find m ch
  | [] => rfl
  | x :: xs => by
    rw [del_cons, find_cons]
    by_cases hx : x.name = n
    · rw [if_pos hx, if_neg (by rw [hx]; exact hm.symm)]
    · rw [if_neg hx, find_cons, find_del_ne hm]

theorem find_del {n : String} : ∀ {ch : List (T D X)}, (ch.map T.name).Nodup → find n (del n ch) = none
  | [], _ => rfl
  | x :: xs, h => by
    rw [List.map_cons, List.nodup_cons] at h
    rw [del_cons]
    by_cases hx : x.name = n
    · rw [if_pos hx, find_none, ← hx]; exact h.1
    · rw [if_neg hx, find_cons, if_neg hx, find_del h.2]

theorem del_sublist (n : String) (ch : List (T D X)) : (del n ch).Sublist ch := List.eraseP_sublist

/-! ## Paths -/

theorem subT_nil (t : T D X) : subT [] t = some t := by cases t; rfl

theorem subT_cons (n : String) (p : List String) (t : T D X) : subT (n :: p) t = (find n t.ch).bind (subT p) := by
  cases t with
  | node nm dns val ch =>
    rw [subT]
    show (match find n ch with | none => none | some c => subT p c) = _
    show _ = (find n ch).bind (subT p)
    cases find n ch <;> rfl

def setCh (t : T D X) (ch : List (T D X)) : T D X := match t with | .node n dns val _ => .node n dns val ch

theorem setCh_name (t : T D X) (ch : List (T D X)) : (setCh t ch).name = t.name := by cases t; rfl
theorem setCh_ch (t : T D X) (ch : List (T D X)) : (setCh t ch).ch = ch := by cases t; rfl
theorem setCh_self (t : T D X) : setCh t t.ch = t := by cases t; rfl

theorem modT_cons (f : T D X → T D X) (n : String) (p : List String) (t : T D X) :
    modT f (n :: p) t = match find n t.ch with | none => t | some c => setCh t (setFirst n (modT f p c) t.ch) := by
  cases t with
  | node nm dns val ch =>
    rw [modT]
    show (match find n ch with | none => _ | some c => _) = (match find n ch with | none => _ | some c => _)
    cases find n ch <;> rfl

theorem ensure_cons [Inhabited D] [Inhabited X] (n : String) (p : List String) (t : T D X) :
    ensure (n :: p) t = match find n t.ch with | none => setCh t (t.ch ++ [ensure p (.empty n)]) | some c => setCh t (setFirst n (ensure p c) t.ch) := by
  cases t with
  | node nm dns val ch =>
    rw [ensure]
    show (match find n ch with | none => _ | some c => _) = (match find n ch with | none => _ | some c => _)
    cases find n ch <;> rfl

theorem destroy_one (n : String) (t : T D X) : destroy [n] t = setCh t (del n t.ch) := by cases t; rfl

theorem destroy_cons (n m : String) (p : List String) (t : T D X) :
    destroy (n :: m :: p) t = match find n t.ch with | none => t | some c => setCh t (setFirst n (destroy (m :: p) c) t.ch) := by
  cases t with
  | node nm dns val ch =>
    rw [destroy]
    show (match find n ch with | none => _ | some c => _) = (match find n ch with | none => _ | some c => _)
    cases find n ch <;> rfl

theorem removeEmpty_one (n : String) (t : T D X) : removeEmpty [n] t = setCh t (del n t.ch) := by cases t; rfl

theorem removeEmpty_cons (n m : String) (p : List String) (t : T D X) :
    removeEmpty (n :: m :: p) t = match find n t.ch with
      | none => t
      | some c => if subT (m :: p) c = none then t
        else if (removeEmpty (m :: p) c).ch = [] then setCh t (del n t.ch) else setCh t (setFirst n (removeEmpty (m :: p) c) t.ch) := by
  cases t with
  | node nm dns val ch =>
    rw [removeEmpty]
    show (match find n ch with | none => _ | some c => _) = (match find n ch with | none => _ | some c => _)
    cases find n ch with
    | none => rfl
    | some c => rfl

/-! ## Names of changed folders -/

theorem modT_name {f : T D X → T D X} (hf : ∀ t, (f t).name = t.name) (p : List String) (t : T D X) : (modT f p t).name = t.name := by
  cases p with
  | nil => cases t; exact hf _
  | cons n p =>
    rw [modT_cons]
    cases find n t.ch with
    | none => rfl
    | some c => exact setCh_name _ _

theorem ensure_name [Inhabited D] [Inhabited X] (p : List String) (t : T D X) : (ensure p t).name = t.name := by
  cases p with
  | nil => cases t; rfl
  | cons n p =>
    rw [ensure_cons]
    cases find n t.ch with
    | none => exact setCh_name _ _
    | some c => exact setCh_name _ _

theorem destroy_name (p : List String) (t : T D X) : (destroy p t).name = t.name := by
  match p with
  | [] => cases t; rfl
  | [n] => rw [destroy_one]; exact setCh_name _ _
  | n :: m :: p =>
    rw [destroy_cons]
    cases find n t.ch with
    | none => rfl
    | some c => exact setCh_name _ _

theorem removeEmpty_name (p : List String) (t : T D X) : (removeEmpty p t).name = t.name := by
  match p with
  | [] => cases t; rfl
  | [n] => rw [removeEmpty_one]; exact setCh_name _ _
  | n :: m :: p =>
    rw [removeEmpty_cons]
    cases find n t.ch with
    | none => rfl
    | some c =>
      dsimp only
      split
      · rfl
      · split <;> exact setCh_name _ _

/-! ## What is at a path after a change -/

theorem Apart.symm {p q : List String} (h : Apart p q) : Apart q p := ⟨h.2, h.1⟩

theorem Apart.tail {n : String} {p q : List String} (h : Apart (n :: p) (n :: q)) : Apart p q :=
  ⟨fun hh => h.1 (List.cons_prefix_cons.mpr ⟨rfl, hh⟩), fun hh => h.2 (List.cons_prefix_cons.mpr ⟨rfl, hh⟩)⟩

theorem Apart.ne_nil {p q : List String} (h : Apart p q) : p ≠ [] ∧ q ≠ [] :=
  ⟨fun e => h.1 (e ▸ List.nil_prefix), fun e => h.2 (e ▸ List.nil_prefix)⟩

theorem subT_modT {f : T D X → T D X} (hf : ∀ t, (f t).name = t.name) : ∀ (p : List String) (t u : T D X), subT p t = some u →
    subT p (modT f p t) = some (f u)
  | [], t, u, h => by
    rw [subT_nil] at h; cases h
    cases t; rw [modT, subT_nil]
  | n :: p, t, u, h => by
    rw [subT_cons] at h
    cases hc : find n t.ch with
    | none => rw [hc] at h; cases h
    | some c =>
      rw [hc] at h
      have hn := (find_name hc).1
      rw [subT_cons, modT_cons, hc]
      dsimp only
      rw [setCh_ch, find_setFirst (by rw [modT_name hf]; exact hn) hc]
      exact subT_modT hf p c u h

theorem subT_modT_ne {f : T D X → T D X} (hf : ∀ t, (f t).name = t.name) : ∀ (p q : List String) (t : T D X), Apart p q →
    subT q (modT f p t) = subT q t
  | [], q, t, h => absurd rfl h.ne_nil.1
  | n :: p, [], t, h => absurd rfl h.ne_nil.2
  | n :: p, m :: q, t, h => by
    rw [modT_cons]
    cases hc : find n t.ch with
    | none => rfl
    | some c =>
      have hn : (modT f p c).name = n := by rw [modT_name hf]; exact (find_name hc).1
      dsimp only
      rw [subT_cons, setCh_ch, subT_cons]
      by_cases hm : m = n
      · subst hm
        rw [find_setFirst hn hc, hc]
        exact subT_modT_ne hf p q c h.tail
      · rw [find_setFirst_ne hn hm]

variable [Inhabited D] [Inhabited X]

theorem subT_ensure : ∀ (p : List String) (t : T D X), subT p t = none → ∃ n, subT p (ensure p t) = some (.empty n)
  | [], t, h => by rw [subT_nil] at h; cases h
  | n :: p, t, h => by
    rw [subT_cons] at h
    rw [ensure_cons]
    cases hc : find n t.ch with
    | some c =>
      rw [hc] at h
      dsimp only
      rw [subT_cons, setCh_ch, find_setFirst (by rw [ensure_name]; exact (find_name hc).1) hc]
      exact subT_ensure p c h
    | none =>
      dsimp only
      rw [subT_cons, setCh_ch, find_append, hc, Option.none_or, find_cons, if_pos (by rw [ensure_name]; rfl)]
      show ∃ n_1, subT p (ensure p (.empty n)) = _
      cases p with
      | nil => exact ⟨n, subT_nil _⟩
      | cons m p => exact subT_ensure (m :: p) (.empty n) (by rw [subT_cons]; rfl)

theorem subT_ensure_old : ∀ (p q : List String) (t u : T D X), subT q t = some u → ¬ q <+: p → subT q (ensure p t) = some u
  | [], q, t, u, h, _ => by cases t; exact h
  | n :: p, [], t, u, h, hp => absurd List.nil_prefix hp
  | n :: p, m :: q, t, u, h, hp => by
    rw [subT_cons] at h
    rw [ensure_cons]
    cases hc : find n t.ch with
    | some c =>
      have hn : (ensure p c).name = n := by rw [ensure_name]; exact (find_name hc).1
      dsimp only
      rw [subT_cons, setCh_ch]
      by_cases hm : m = n
      · subst hm
        rw [hc] at h
        rw [find_setFirst hn hc]
        exact subT_ensure_old p q c u h (fun hh => hp (List.cons_prefix_cons.mpr ⟨rfl, hh⟩))
      · rw [find_setFirst_ne hn hm]; exact h
    | none =>
      dsimp only
      rw [subT_cons, setCh_ch, find_append]
      cases hm : find m t.ch with
      | none => rw [hm] at h; cases h
      | some c => rw [hm] at h; exact h

omit [Inhabited D] [Inhabited X] in
theorem subT_destroy_ne : ∀ (p q : List String) (t : T D X), Apart p q → subT q (destroy p t) = subT q t
  | [], q, t, h => absurd rfl h.ne_nil.1
  | [n], [], t, h => absurd rfl h.ne_nil.2
  | [n], m :: q, t, h => by
    have hm : m ≠ n := fun e => h.1 (by rw [e]; simp)
    rw [destroy_one, subT_cons, setCh_ch, find_del_ne hm, subT_cons]
  | n :: k :: p, [], t, h => absurd rfl h.ne_nil.2
  | n :: k :: p, m :: q, t, h => by
    rw [destroy_cons]
    cases hc : find n t.ch with
    | none => rfl
    | some c =>
      have hn : (destroy (k :: p) c).name = n := by rw [destroy_name]; exact (find_name hc).1
      dsimp only
      rw [subT_cons, setCh_ch, subT_cons]
      by_cases hm : m = n
      · subst hm
        rw [find_setFirst hn hc, hc]
        exact subT_destroy_ne (k :: p) q c h.tail
      · rw [find_setFirst_ne hn hm]

omit [Inhabited D] [Inhabited X] in
theorem subT_removeEmpty_ne : ∀ (p q : List String) (t u : T D X), Apart p q → subT q t = some u → subT q (removeEmpty p t) = some u
  | [], q, t, _, h, _ => absurd rfl h.ne_nil.1
  | [n], [], t, _, h, _ => absurd rfl h.ne_nil.2
  | [n], m :: q, t, u, h, hu => by
    have hm : m ≠ n := fun e => h.1 (by rw [e]; simp)
    rw [removeEmpty_one, subT_cons, setCh_ch, find_del_ne hm, ← subT_cons]; exact hu
  | n :: k :: p, [], t, _, h, _ => absurd rfl h.ne_nil.2
  | n :: k :: p, m :: q, t, u, h, hu => by
    rw [removeEmpty_cons]
    cases hc : find n t.ch with
    | none => exact hu
    | some c =>
      have hn : (removeEmpty (k :: p) c).name = n := by rw [removeEmpty_name]; exact (find_name hc).1
      dsimp only
      split
      · exact hu
      · rw [subT_cons] at hu
        by_cases hm : m = n
        · subst hm
          rw [hc] at hu
          have ih := subT_removeEmpty_ne (k :: p) q c u h.tail hu
          have hq := h.tail.ne_nil.2
          rw [if_neg]
          · rw [subT_cons, setCh_ch, find_setFirst hn hc]; exact ih
          · intro he
            cases q with
            | nil => exact hq rfl
            | cons a q => rw [subT_cons, he] at ih; cases ih
        · split
          · rw [subT_cons, setCh_ch, find_del_ne hm]; exact hu
          · rw [subT_cons, setCh_ch, find_setFirst_ne hn hm]; exact hu

/-! ## Names of childs stay different -/

omit [Inhabited D] [Inhabited X] in
theorem WFT_iff {t : T D X} : WFT t ↔ (t.ch.map T.name).Nodup ∧ ∀ c ∈ t.ch, WFT c := by
  cases t with
  | node n dns val ch => rw [WFT, WFTL_iff]; rfl

omit [Inhabited D] [Inhabited X] in
theorem WFT_setFirst {t c' : T D X} {n : String} (h : WFT t) (hn : c'.name = n) (hc : WFT c') : WFT (setCh t (setFirst n c' t.ch)) := by
  rw [WFT_iff] at h ⊢
  rw [setCh_ch, map_setFirst hn]
  refine ⟨h.1, fun x hx => ?_⟩
  rcases mem_setFirst hx with rfl | hx
  · exact hc
  · exact h.2 x hx

omit [Inhabited D] [Inhabited X] in
theorem WFT_del {t : T D X} (n : String) (h : WFT t) : WFT (setCh t (del n t.ch)) := by
  rw [WFT_iff] at h ⊢
  rw [setCh_ch]
  exact ⟨h.1.sublist ((del_sublist n _).map _), fun x hx => h.2 x ((del_sublist n _).mem hx)⟩

omit [Inhabited D] [Inhabited X] in
theorem WFT_modT {f : T D X → T D X} (hf : ∀ t, (f t).name = t.name) : ∀ (p : List String) (t : T D X), WFT t →
    (∀ u, subT p t = some u → WFT (f u)) → WFT (modT f p t)
  | [], t, _, h => by cases t; exact h _ (subT_nil _)
  | n :: p, t, ht, h => by
    rw [modT_cons]
    cases hc : find n t.ch with
    | none => exact ht
    | some c =>
      have hm := find_name hc
      refine WFT_setFirst ht (by rw [modT_name hf]; exact hm.1) (WFT_modT hf p c ((WFT_iff.mp ht).2 c hm.2) fun u hu => h u ?_)
      rw [subT_cons, hc]; exact hu

theorem WFT_ensure : ∀ (p : List String) (t : T D X), WFT t → WFT (ensure p t)
  | [], t, ht => by cases t; exact ht
  | n :: p, t, ht => by
    rw [ensure_cons]
    cases hc : find n t.ch with
    | some c =>
      have hm := find_name hc
      exact WFT_setFirst ht (by rw [ensure_name]; exact hm.1) (WFT_ensure p c ((WFT_iff.mp ht).2 c hm.2))
    | none =>
      have hn := find_none.mp hc
      rw [WFT_iff] at ht ⊢
      dsimp only
      rw [setCh_ch]
      constructor
      · rw [List.map_append, List.nodup_append]
        refine ⟨ht.1, by simp, ?_⟩
        intro a ha b hb
        simp only [List.map_cons, List.map_nil, List.mem_singleton, ensure_name] at hb
        intro e
        exact hn (by rw [show n = (T.empty n : T D X).name from rfl, ← hb, ← e]; exact ha)
      · intro x hx
        rcases List.mem_append.mp hx with hx | hx
        · exact ht.2 x hx
        · rw [List.mem_singleton.mp hx]; exact WFT_ensure p _ (WFT_empty n)

omit [Inhabited D] [Inhabited X] in
theorem WFT_destroy : ∀ (p : List String) (t : T D X), WFT t → WFT (destroy p t)
  | [], t, ht => by cases t; exact ht
  | [n], t, ht => by rw [destroy_one]; exact WFT_del n ht
  | n :: m :: p, t, ht => by
    rw [destroy_cons]
    cases hc : find n t.ch with
    | none => exact ht
    | some c =>
      have hm := find_name hc
      exact WFT_setFirst ht (by rw [destroy_name]; exact hm.1) (WFT_destroy (m :: p) c ((WFT_iff.mp ht).2 c hm.2))

omit [Inhabited D] [Inhabited X] in
theorem WFT_removeEmpty : ∀ (p : List String) (t : T D X), WFT t → WFT (removeEmpty p t)
  | [], t, ht => by cases t; exact ht
  | [n], t, ht => by rw [removeEmpty_one]; exact WFT_del n ht
  | n :: m :: p, t, ht => by
    rw [removeEmpty_cons]
    cases hc : find n t.ch with
    | none => exact ht
    | some c =>
      have hm := find_name hc
      dsimp only
      split
      · exact ht
      · split
        · exact WFT_del n ht
        · exact WFT_setFirst ht (by rw [removeEmpty_name]; exact hm.1) (WFT_removeEmpty (m :: p) c ((WFT_iff.mp ht).2 c hm.2))

omit [Inhabited D] [Inhabited X] in
theorem subT_destroy : ∀ (p : List String) (t : T D X), WFT t → p ≠ [] → subT p (destroy p t) = none
  | [], t, ht, h => absurd rfl h
  | [n], t, ht, _ => by rw [destroy_one, subT_cons, setCh_ch, find_del (WFT_iff.mp ht).1]; rfl
  | n :: m :: p, t, ht, _ => by
    rw [destroy_cons]
    cases hc : find n t.ch with
    | none => dsimp only; rw [subT_cons, hc]; rfl
    | some c =>
      have hm := find_name hc
      dsimp only
      rw [subT_cons, setCh_ch, find_setFirst (by rw [destroy_name]; exact hm.1) hc]
      exact subT_destroy (m :: p) c ((WFT_iff.mp ht).2 c hm.2) (by simp)

omit [Inhabited D] [Inhabited X] in
theorem subT_removeEmpty : ∀ (p : List String) (t : T D X), WFT t → p ≠ [] → subT p (removeEmpty p t) = none
  | [], t, ht, h => absurd rfl h
  | [n], t, ht, _ => by rw [removeEmpty_one, subT_cons, setCh_ch, find_del (WFT_iff.mp ht).1]; rfl
  | n :: m :: p, t, ht, _ => by
    rw [removeEmpty_cons]
    cases hc : find n t.ch with
    | none => dsimp only; rw [subT_cons, hc]; rfl
    | some c =>
      have hm := find_name hc
      dsimp only
      split
      · rename_i h; rw [subT_cons, hc]; exact h
      · split
        · rw [subT_cons, setCh_ch, find_del (WFT_iff.mp ht).1]; rfl
        · rw [subT_cons, setCh_ch, find_setFirst (by rw [removeEmpty_name]; exact hm.1) hc]
          exact subT_removeEmpty (m :: p) c ((WFT_iff.mp ht).2 c hm.2) (by simp)

/-! ## Parts of paths -/

omit [Inhabited D] [Inhabited X] in
theorem subT_append : ∀ (p q : List String) (t : T D X), subT (p ++ q) t = (subT p t).bind (subT q)
  | [], q, t => by rw [subT_nil]; rfl
  | n :: p, q, t => by
    rw [List.cons_append, subT_cons, subT_cons]
    cases find n t.ch with
    | none => rfl
    | some c => exact subT_append p q c

omit [Inhabited D] [Inhabited X] in
/-- Folders above the removed one are not empty. -/
theorem removeEmpty_above : ∀ (q r : List String) (t u : T D X), WFT t → q ≠ [] → r ≠ [] → (subT (q ++ r) t).isSome = true →
    subT q (removeEmpty (q ++ r) t) = some u → u.ch ≠ []
  | [], r, t, u, _, hq, _, _, _ => absurd rfl hq
  | n :: q, r, t, u, ht, _, hr, hs, h => by
    obtain ⟨m, p, hp⟩ : ∃ m p, q ++ r = m :: p := by
      cases q with
      | nil =>
        cases r with
        | nil => exact absurd rfl hr
        | cons a r => exact ⟨a, r, rfl⟩
      | cons a q => exact ⟨a, q ++ r, rfl⟩
    rw [List.cons_append, hp, subT_cons] at hs
    rw [List.cons_append, hp, removeEmpty_cons] at h
    cases hc : find n t.ch with
    | none => rw [hc] at hs; cases hs
    | some c =>
      rw [hc] at hs h
      dsimp only at h
      have hs' : subT (m :: p) c ≠ none := fun e => by
        have : (subT (m :: p) c).isSome = true := hs
        rw [e] at this; cases this
      rw [if_neg hs'] at h
      split at h
      · rename_i he
        rw [subT_cons, setCh_ch, find_del (WFT_iff.mp ht).1] at h
        cases h
      · rename_i he
        have hn : (removeEmpty (m :: p) c).name = n := by rw [removeEmpty_name]; exact (find_name hc).1
        rw [subT_cons, setCh_ch, find_setFirst hn hc] at h
        cases q with
        | nil =>
          have : some (removeEmpty (m :: p) c) = some u := by rw [← subT_nil]; exact h
          cases this; exact he
        | cons a q =>
          rw [← hp] at h
          exact removeEmpty_above (a :: q) r c u ((WFT_iff.mp ht).2 c (find_name hc).2) (by simp) hr (by rw [hp]; exact hs) h

end Verif.PublReg
