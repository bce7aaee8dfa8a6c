import Verif.Spec.HttpServer
import Verif.PublTreeSend

namespace Verif.HttpServer
open Verif.Bytes Verif.Json Verif.Text Verif.Url Verif.FileName Verif.PublTree

theorem depth_append : ∀ a b : List Str, depth (a ++ b) = depth a + depth b
  | [], b => by simp [depth]
  | n :: a, b => by
    show _ + depth (a ++ b) = _ + depth a + depth b
    rw [depth_append a b]; omega

theorem pieces_ne (sep : Byte → Bool) (s : Str) : pieces sep s ≠ [] := by rw [pieces_eq]; simp

/-- What the check of a name tells. -/
theorem verifyLoop_iff : ∀ (n : Nat) (s : Str) (level : Int), s.length < n → 0 ≤ level →
    (verifyLoop n s level = true ↔ ∀ k, k < (bothNames s).length → 0 ≤ level + depth ((bothNames s).take k))
  | 0, s, _, h, _ => absurd h (by omega)
  | n + 1, s, level, h, hl => by
    have hlast : ∀ t : Str, ∀ k, k < [t].length → 0 ≤ level + depth ([t].take k) := by
      intro t k hk
      have : k = 0 := by simpa using hk
      subst this; simpa [depth] using hl
    unfold verifyLoop
    by_cases h0 : s = []
    · rw [if_pos h0]; subst h0
      exact ⟨fun _ => hlast [], fun _ => rfl⟩
    rw [if_neg h0]
    unfold bothNames
    rw [pieces_eq]
    dsimp only
    cases hd : s.dropWhile (fun c => !isSep c) with
    | nil => exact ⟨fun _ => hlast _, fun _ => rfl⟩
    | cons c r =>
      dsimp only
      generalize ht : s.takeWhile (fun c => !isSep c) = tok
      have hlen : r.length < n := by
        have h1 : (s.dropWhile (fun c => !isSep c)).length ≤ s.length := List.Sublist.length_le (List.dropWhile_sublist _)
        rw [hd] at h1; simp at h1; omega
      have hpos : 0 < (pieces isSep r).length := List.length_pos_iff.2 (pieces_ne _ _)
      have step : ∀ w : Int, (if tok = [] ∨ tok = [dot] then (0 : Int) else if tok = [dot, dot] then -1 else 1) = w → 0 ≤ level + w →
          ((∀ k, k < (tok :: pieces isSep r).length → 0 ≤ level + depth ((tok :: pieces isSep r).take k)) ↔
            verifyLoop n r (level + w) = true) := by
        intro w hw hlw
        rw [verifyLoop_iff n r (level + w) hlen hlw]
        constructor
        · intro hk k hk'
          have := hk (k + 1) (by simp; unfold bothNames at hk'; omega)
          rw [List.take_succ_cons] at this
          simp only [depth] at this
          rw [hw] at this
          unfold bothNames
          omega
        · intro hk k hk'
          cases k with
          | zero => simpa [depth] using hl
          | succ k =>
            have := hk k (by unfold bothNames; simp at hk'; omega)
            rw [List.take_succ_cons]
            simp only [depth]
            rw [hw]
            unfold bothNames at this
            omega
      by_cases h1 : tok = [dot, dot]
      · rw [if_pos h1]
        have hw : (if tok = [] ∨ tok = [dot] then (0 : Int) else if tok = [dot, dot] then -1 else 1) = -1 := by
          subst h1; simp
        by_cases h2 : level - 1 < 0
        · rw [if_pos h2]
          refine ⟨fun h => (by cases h), fun hk => ?_⟩
          have := hk 1 (by simp; omega)
          simp only [List.take_succ_cons, List.take_zero, depth] at this
          rw [hw] at this
          omega
        · rw [if_neg h2, step (-1) hw (by omega)]
          rfl
      rw [if_neg h1]
      by_cases h2 : tok = [dot]
      · rw [if_pos h2, step 0 (by subst h2; simp) (by omega)]
        simp
      rw [if_neg h2]
      by_cases h3 : tok = []
      · rw [if_pos h3, step 0 (by subst h3; simp) (by omega)]
        simp
      rw [if_neg h3, step 1 (by simp [h1, h2, h3]) (by omega)]

theorem verify_iff (s : Str) : verify s = true ↔ s ≠ [] ∧ WayInside (bothNames s) := by
  unfold verify WayInside
  have := verifyLoop_iff (s.length + 1) s 0 (by omega) (by omega)
  simp only [Int.zero_add] at this
  rw [← this]
  simp

theorem pieces_congr {f g : Byte → Bool} : ∀ {s : Str}, (∀ c ∈ s, f c = g c) → pieces f s = pieces g s
  | [], _ => rfl
  | c :: s, h => by
    rw [pieces_cons, pieces_cons, h c (by simp), pieces_congr (fun x hx => h x (by simp [hx]))]

theorem both_unix {s : Str} (h : bslash ∉ s) : bothNames s = unixNames s := by
  unfold bothNames unixNames
  apply pieces_congr
  intro c hc
  have : c ≠ bslash := fun e => h (e ▸ hc)
  simp [isSep, this]

theorem wayInside_cons {s : Str} : WayInside (unixNames (slash :: s)) ↔ WayInside (unixNames s) := by
  unfold unixNames WayInside
  have : pieces (fun c => decide (c = slash)) (slash :: s) = [] :: pieces (fun c => decide (c = slash)) s := by
    rw [pieces_cons, if_pos (by decide)]
  rw [this]
  constructor
  · intro h k hk
    have := h (k + 1) (by simp; omega)
    simpa [depth] using this
  · intro h k hk
    cases k with
    | zero => simp [depth]
    | succ k =>
      have := h k (by simp at hk; omega)
      simpa [depth] using this

theorem wayInside_last {ns : List Str} (h : WayInside ns) (hl : ns.getLast? ≠ some [dot, dot]) : Inside ns := by
  intro k
  by_cases hk : k < ns.length
  · exact h k hk
  · rw [List.take_of_length_le (by omega)]
    by_cases h0 : ns = []
    · subst h0; simp [depth]
    have e := List.dropLast_append_getLast h0
    have hd := h (ns.length - 1) (by have := List.length_pos_iff.2 h0; omega)
    rw [← List.dropLast_eq_take] at hd
    rw [← e, depth_append]
    have hne : ns.getLast h0 ≠ [dot, dot] := by
      intro hc; rw [List.getLast?_eq_some_getLast h0, hc] at hl; exact hl rfl
    simp only [depth]
    rw [if_neg hne]
    split <;> omega

/-- Last piece of a text. -/
theorem last_piece (a w : Str) : (unixNames (a ++ slash :: w)).getLast? = (unixNames w).getLast? := by
  unfold unixNames
  rw [pieces_append _ slash (by decide), List.getLast?_append_of_ne_nil _ (pieces_ne _ _)]

theorem fileRequested_some {locs : List Loc} {uri f : Str} (h : fileRequested locs uri = some f) :
    ∃ l ∈ locs, ∃ a w, uri = a ++ w ∧ f = l.dir ++ w ∧ verify w = true ∧
      (l.abs ≠ [] → ∃ x, l.abs = x ++ [w.headD 0] ∧ w ≠ []) := by
  induction locs with
  | nil => simp [fileRequested] at h
  | cons l ls ih =>
    unfold fileRequested at h
    split at h
    · cases h
    split at h
    · rename_i pos hpos
      dsimp only at h
      split at h
      · rename_i hv
        cases h
        refine ⟨l, by simp, uri.take (pos + l.abs.length - 1), uri.drop (pos + l.abs.length - 1), (List.take_append_drop _ _).symm, rfl, hv, fun hne => ?_⟩
        have hp := (rfind_some hpos).1
        obtain ⟨y, hy⟩ := hp
        have e := List.dropLast_append_getLast hne
        have hlen : l.abs.length - 1 = l.abs.dropLast.length := by simp
        have hpos' := List.length_pos_iff.2 hne
        have hw : uri.drop (pos + l.abs.length - 1) = l.abs.getLast hne :: y := by
          have h1 : pos + l.abs.length - 1 = pos + (l.abs.length - 1) := by omega
          rw [h1, ← List.drop_drop, ← hy, hlen]
          conv => lhs; rw [← e]
          rw [List.append_assoc]
          simp
        rw [hw]
        exact ⟨l.abs.dropLast, by simp [e], by simp⟩
      · cases h
    · obtain ⟨l', hl', r⟩ := ih h
      exact ⟨l', by simp [hl'], r⟩

theorem find_zero : ∀ {pat s : Str}, find pat s = some 0 → pat <+: s
  | pat, [], h => by
    unfold find at h
    split at h
    · rename_i e; subst e; exact List.nil_prefix
    · cases h
  | pat, c :: s, h => by
    unfold find at h
    split at h
    · rename_i hp; exact List.isPrefixOf_iff_prefix.1 hp
    · cases hf : find pat s <;> rw [hf] at h <;> simp at h

theorem prefixed_some {locs : List Loc} {fname : Str} {a : Act} (h : prefixed locs fname = some a) :
    a = .notFound ∨ ∃ l ∈ locs, ∃ w, fname = l.pfx ++ w ∧ l.pfx ≠ [] ∧ a = .file (l.dir ++ l.repl ++ w) ∧ verify w = true := by
  induction locs with
  | nil => simp [prefixed] at h
  | cons l ls ih =>
    have hrec : prefixed ls fname = some a → a = .notFound ∨ ∃ l' ∈ l :: ls, ∃ w, fname = l'.pfx ++ w ∧ l'.pfx ≠ [] ∧ a = .file (l'.dir ++ l'.repl ++ w) ∧ verify w = true := by
      intro hh
      rcases ih hh with h1 | ⟨l', hl', r⟩
      · exact .inl h1
      · exact .inr ⟨l', by simp [hl'], r⟩
    unfold prefixed at h
    split at h
    · rename_i hc
      split at h
      · exact hrec h
      · dsimp only at h
        split at h
        · rename_i hv
          cases h
          right
          obtain ⟨w, hw⟩ := find_zero hc.2
          refine ⟨l, by simp, w, hw.symm, hc.1, ?_, ?_⟩
          · rw [← hw]; simp
          · rw [← hw] at hv; simpa using hv
        · cases h; exact .inl rfl
    · exact hrec h

/-! ## The item meant by an address -/

theorem workItem_eq (p : Publ) (s : Str) : workItem p s = walk (comps s) ⟨p.top, []⟩ := by
  unfold workItem
  split
  · rename_i h
    rcases h with rfl | rfl <;> rfl
  · exact getFolder_eq _ _

theorem extract_comps (x y : Str) (h : slash ∉ y) : comps (extract (x ++ slash :: y)).1 = comps x := by
  unfold extract
  rw [rfind_has h]
  dsimp only
  split
  · rename_i e
    simp at e
    rw [e]; rfl
  · simp

/-- The parts of an address which is not that of a user page. -/
theorem uiKind_false {p : Publ} {uri path fname : Str} (h : uiKind p uri = some (false, path, fname)) :
    (uri = path ++ fname ∧ (fname = [] ∨ path.getLast? = some slash)) ∨ (uri = path ++ slash :: fname ∧ slash ∉ fname) := by
  unfold uiKind at h
  dsimp only at h
  by_cases h0 : uri = []
  · subst h0
    rw [if_pos rfl] at h
    simp [rfind] at h
    split at h <;> simp at h
    exact .inl ⟨by rw [h.1, h.2]; rfl, .inl h.2⟩
  rw [if_neg h0] at h
  split at h
  · cases h
  rename_i hok
  obtain ⟨e1, _, e3⟩ := identify_uri h0 (by simpa using hok)
  generalize identifyItem p false uri = r at *
  split at h
  · simp at h
  split at h
  · rename_i pos hpos
    split at h
    · simp at h
      obtain ⟨h1, h2⟩ := h
      obtain ⟨x, y, hxy, hx, hy⟩ := rfind_char hpos
      right
      rw [← h1, ← h2]
      refine ⟨?_, ?_⟩
      · rw [e1, hxy, ← hx]; simp
      · rw [hxy, ← hx]; simpa using hy
    · simp at h
      exact .inl (by rw [← h.1, ← h.2]; exact ⟨e1, e3⟩)
  · simp at h
    exact .inl (by rw [← h.1, ← h.2]; exact ⟨e1, e3⟩)

theorem same_item {p : Publ} {uri path fname : Str} (h : uiKind p uri = some (false, path, fname)) (h0 : fname ≠ []) (h1 : slash ∉ fname) :
    comps (extract uri).1 = comps path := by
  rcases uiKind_false h with ⟨e, e2⟩ | ⟨e, _⟩
  · rcases e2 with e2 | e2
    · exact absurd e2 h0
    · obtain ⟨x, rfl⟩ := List.getLast?_eq_some_iff.1 e2
      rw [e, List.append_assoc]
      show comps (extract (x ++ slash :: fname)).1 = _
      rw [extract_comps x fname h1, comps_end]
  · rw [e, extract_comps path fname h1]

/-- The rest is the last name of the address, when the address does not end with a slash. -/
theorem uiKind_slash {p : Publ} {uri path fname : Str} (h : uiKind p uri = some (false, path, fname)) (hf : fname ≠ []) (hs : uri.getLast? ≠ some slash) :
    slash ∉ fname := by
  unfold uiKind at h
  dsimp only at h
  by_cases h0 : uri = []
  · subst h0
    rw [if_pos rfl] at h
    simp [rfind] at h
    split at h <;> simp at h
    exact absurd h.2 hf
  rw [if_neg h0] at h
  split at h
  · cases h
  rename_i hok
  obtain ⟨e1, _, e3⟩ := identify_uri h0 (by simpa using hok)
  generalize identifyItem p false uri = r at *
  split at h
  · simp at h
  split at h
  · rename_i pos hpos
    obtain ⟨x, y, hxy, hx, hy⟩ := rfind_char hpos
    split at h
    · simp at h
      rw [← h.2, hxy, ← hx]; simpa using hy
    · rename_i hl
      exfalso
      have hy0 : y = [] := by
        have hlen := congrArg List.length hxy
        simp at hlen
        have hl' : pos + 1 = r.request.length := by simpa using hl
        exact List.length_eq_zero_iff.1 (by omega)
      apply hs
      rw [e1, hxy, hy0, ← List.append_assoc]
      exact List.getLast?_concat
  · rename_i hn
    simp at h
    rw [← h.2]
    exact rfind_no hn

/-! ## Addresses which have been cleaned -/

/-- No name begins with two dots. -/
def NoUp (s : Str) : Prop := ¬ [dot, dot] <+: s ∧ ∀ a b, s ≠ a ++ slash :: dot :: dot :: b

theorem NoUp.after {a w : Str} (h : NoUp (a ++ slash :: w)) : NoUp w := by
  refine ⟨?_, ?_⟩
  · rintro ⟨b, rfl⟩
    exact h.2 a b rfl
  · rintro x y rfl
    exact h.2 (a ++ slash :: x) y (by simp)

theorem NoUp.tail {c : Byte} {w : Str} (h : NoUp (c :: w)) (hw : ¬ [dot, dot] <+: w) : NoUp w :=
  ⟨hw, by rintro x y rfl; exact h.2 (c :: x) y rfl⟩

theorem noUp_names : ∀ (n : Nat) (s : Str), s.length ≤ n → NoUp s → ∀ t ∈ unixNames s, t ≠ [dot, dot]
  | n, s, hn, h, t, ht => by
    unfold unixNames at ht
    rw [pieces_eq] at ht
    rcases List.mem_cons.1 ht with rfl | ht
    · intro e
      exact h.1 (by rw [← e]; exact List.takeWhile_prefix _)
    · cases hd : s.dropWhile (fun c => !decide (c = slash)) with
      | nil => rw [hd] at ht; cases ht
      | cons c r =>
        rw [hd] at ht
        have e : s = s.takeWhile (fun c => !decide (c = slash)) ++ c :: r := by rw [← hd]; exact List.takeWhile_append_dropWhile.symm
        have hc : c = slash := by
          have := List.head?_dropWhile_not (fun c => !decide (c = slash)) s
          rw [hd] at this
          simpa using this
        subst hc
        have hlen : r.length < s.length := by rw [e]; simp; omega
        cases n with
        | zero => omega
        | succ n => exact noUp_names n r (by omega) (by rw [e] at h; exact h.after) t ht

theorem inside_of_noUp {s : Str} (h : NoUp s) : Inside (unixNames s) := by
  have hn := noUp_names s.length s (Nat.le_refl _) h
  intro k
  have : ∀ l : List Str, (∀ t ∈ l, t ≠ [dot, dot]) → 0 ≤ depth l := by
    intro l
    induction l with
    | nil => intro _; simp [depth]
    | cons a l ih =>
      intro hl
      have h1 := ih fun t ht => hl t (by simp [ht])
      rw [show depth (a :: l) = (if a = [] ∨ a = [dot] then 0 else if a = [dot, dot] then -1 else 1) + depth l from rfl]
      rw [if_neg (hl a (by simp))]
      split <;> omega
  exact this _ fun t ht => hn t (List.mem_of_mem_take ht)

theorem cleanLead_ok : ∀ s : Str, ¬ [dot, dot] <+: cleanLead s
  | [] => by simp [cleanLead]
  | [c] => by simp [cleanLead]
  | c :: d :: r => by
    unfold cleanLead
    split
    · exact cleanLead_ok (d :: r)
    · rename_i h
      rintro ⟨y, hy⟩
      simp at hy
      exact h ⟨hy.1.symm, hy.2.1.symm⟩

theorem cleanLoop_head (c : Byte) (s : Str) : (cleanLoop false (c :: s)).head? = some c := by
  cases s <;> simp [cleanLoop]

theorem sep_dot : isSep dot = false := by decide

theorem cleanLoop_ok : ∀ (b : Bool) (s : Str), (b = true ∨ ¬ [dot, dot] <+: s → ¬ [dot, dot] <+: cleanLoop b s) ∧
    ∀ x y, cleanLoop b s ≠ x ++ slash :: dot :: dot :: y
  | b, [] => by simp [cleanLoop]
  | b, [c] => by
    unfold cleanLoop
    split
    · simp
    · refine ⟨by simp, ?_⟩
      intro x y h
      have := congrArg List.length h
      simp at this
      omega
  | b, c :: d :: r => by
    unfold cleanLoop
    split
    · exact ⟨fun _ => (cleanLoop_ok true (d :: r)).1 (.inl rfl), (cleanLoop_ok true (d :: r)).2⟩
    split
    · exact ⟨fun _ => (cleanLoop_ok true r).1 (.inl rfl), (cleanLoop_ok true r).2⟩
    · rename_i h1 h2
      obtain ⟨i1, i2⟩ := cleanLoop_ok (isSep c) (d :: r)
      refine ⟨?_, ?_⟩
      · rintro hb ⟨y, hy⟩
        simp at hy
        obtain ⟨e1, e2⟩ := hy
        subst e1
        rw [sep_dot] at e2
        have hd := cleanLoop_head d r
        rw [← e2] at hd
        simp at hd
        subst hd
        rcases hb with hb | hb
        · exact h2 (by simp [hb])
        · exact hb ⟨r, rfl⟩
      · intro x y h
        cases x with
        | nil =>
          simp at h
          obtain ⟨e1, e2⟩ := h
          subst e1
          exact i1 (.inl (by decide)) ⟨y, e2.symm⟩
        | cons a x =>
          simp at h
          exact i2 x y h.2

theorem clean_ok (uri : Str) : NoUp (clean uri) :=
  ⟨(cleanLoop_ok false (cleanLead uri)).1 (.inr (cleanLead_ok uri)), (cleanLoop_ok false (cleanLead uri)).2⟩

theorem cleanLead_same {s : Str} (h : ∀ a b, s ≠ a ++ dot :: dot :: b) : cleanLead s = s := by
  unfold cleanLead
  split
  · rename_i c d r
    rw [if_neg]
    rintro ⟨rfl, rfl⟩
    exact h [] r rfl
  · rfl

theorem cleanLoop_same : ∀ (s : Str), (∀ a b, s ≠ a ++ dot :: dot :: b) → (∀ a b, s ≠ a ++ slash :: slash :: b) → bslash ∉ s →
    ∀ b, (b = true → s.head? ≠ some slash) → cleanLoop b s = s
  | [], _, _, _, b, _ => by simp [cleanLoop]
  | [c], _, _, h3, b, hb => by
    unfold cleanLoop
    rw [if_neg]
    intro hc
    simp at hc hb h3
    have := hc.2
    simp [isSep] at this
    rcases this with rfl | rfl
    · exact hb hc.1 rfl
    · exact h3 rfl
  | c :: d :: r, h1, h2, h3, b, hb => by
    unfold cleanLoop
    have hc3 : c ≠ bslash := fun e => h3 (by simp [e])
    rw [if_neg, if_neg]
    · congr 1
      apply cleanLoop_same (d :: r)
      · rintro a b e; exact h1 (c :: a) b (by rw [e]; rfl)
      · rintro a b e; exact h2 (c :: a) b (by rw [e]; rfl)
      · intro hh; exact h3 (by simp only [List.mem_cons] at hh ⊢; exact .inr hh)
      · intro hs hd
        simp [isSep] at hs hd
        rcases hs with rfl | rfl
        · subst hd; exact h2 [] r rfl
        · exact hc3 rfl
    · intro hh
      simp at hh
      obtain ⟨⟨_, rfl⟩, rfl⟩ := hh
      exact h1 [] r rfl
    · intro hh
      simp [isSep] at hh
      rcases hh.2 with rfl | rfl
      · exact hb hh.1 rfl
      · exact hc3 rfl

theorem uiKind_true {p : Publ} {uri path fname : Str} (h : uiKind p uri = some (true, path, fname)) :
    (∃ x, uri = x ++ slash :: fname) ∨ ∃ item r, workItem p item = some r ∧ fname = r.cur.info.fileMain := by
  unfold uiKind at h
  dsimp only at h
  by_cases h0 : uri = []
  · subst h0
    rw [if_pos rfl] at h
    simp only [Bool.not_true, Bool.false_eq_true, if_false] at h
    split at h
    · rename_i hk
      simp at h
      right
      exact ⟨[], ⟨p.top, []⟩, by simp [workItem], by rw [← h.2]; simp [workItem]⟩
    · split at h
      · split at h <;> simp at h
      · simp at h
  rw [if_neg h0] at h
  split at h
  · cases h
  rename_i hok
  obtain ⟨e1, _, e3⟩ := identify_uri h0 (by simpa using hok)
  generalize identifyItem p false uri = r at *
  split at h
  · rename_i hk
    simp at h
    by_cases hr : r.request = []
    · rw [if_pos hr] at h
      right
      cases hw : workItem p r.producer with
      | none => rw [hw] at hk; simp [lit] at hk
      | some g => rw [hw] at h; exact ⟨_, g, hw, by rw [← h.2]; rfl⟩
    · rw [if_neg hr] at h
      left
      rcases e3 with e3 | e3
      · exact absurd e3 hr
      · obtain ⟨x, hx⟩ := List.getLast?_eq_some_iff.1 e3
        exact ⟨x, by rw [e1, hx, ← h.2]; simp⟩
  · split at h
    · split at h <;> simp at h
    · simp at h

/-! ## A name which leads out -/

def evilHead : Nat → Str
  | 0 => [97]
  | m + 1 => 97 :: bslash :: evilHead m

def evilTail : Nat → Str
  | 0 => lit "passwd"
  | m + 1 => dot :: dot :: slash :: evilTail m

def evil (m : Nat) : Str := evilHead m ++ slash :: evilTail m

theorem depth_cons (a : Str) (l : List Str) : depth (a :: l) = (if a = [] ∨ a = [dot] then 0 else if a = [dot, dot] then -1 else 1) + depth l := rfl

theorem depth_ups : ∀ m, depth (List.replicate m [dot, dot]) = - (m : Int)
  | 0 => rfl
  | m + 1 => by
    rw [List.replicate_succ, depth_cons, depth_ups m, if_neg (by decide), if_pos rfl]; push_cast; omega

theorem depth_downs : ∀ m, depth (List.replicate m [(97 : Byte)]) = (m : Int)
  | 0 => rfl
  | m + 1 => by
    rw [List.replicate_succ, depth_cons, depth_downs m, if_neg (by decide), if_neg (by decide)]; push_cast; omega

theorem evilHead_ne (m : Nat) : evilHead m ≠ [] ∧ evilHead m ≠ [dot] ∧ evilHead m ≠ [dot, dot] := by
  cases m <;> simp [evilHead, dot]

theorem evilHead_slash : ∀ m, slash ∉ evilHead m
  | 0 => by decide
  | m + 1 => by
    have := evilHead_slash m
    simp [evilHead, this]; decide

theorem evilTail_pieces (sep : Byte → Bool) (h1 : sep slash = true) (h2 : ∀ c, sep c = true → c = slash ∨ c = bslash) :
    ∀ m, pieces sep (evilTail m) = List.replicate m [dot, dot] ++ [lit "passwd"]
  | 0 => by
    show pieces sep (lit "passwd") = _
    apply pieces_none
    intro c hc
    by_contra hh
    rcases h2 c (by simpa using hh) with rfl | rfl
    · revert hc; decide
    · revert hc; decide
  | m + 1 => by
    show pieces sep ([dot, dot] ++ slash :: evilTail m) = _
    rw [pieces_append _ slash h1, evilTail_pieces sep h1 h2 m, pieces_none]
    · rfl
    · intro c hc
      by_contra hh
      rcases h2 c (by simpa using hh) with rfl | rfl <;> revert hc <;> decide

theorem evil_unix (m : Nat) : unixNames (evil m) = evilHead m :: (List.replicate m [dot, dot] ++ [lit "passwd"]) := by
  unfold unixNames evil
  rw [pieces_append _ slash (by decide), evilTail_pieces _ (by decide) (fun c hc => .inl (by simpa using hc)), pieces_none]
  · rfl
  · intro c hc
    have : c ≠ slash := fun e => evilHead_slash m (e ▸ hc)
    simpa using this

theorem evilHead_both : ∀ m, bothNames (evilHead m) = List.replicate (m + 1) [97]
  | 0 => by decide
  | m + 1 => by
    show pieces isSep ([97] ++ bslash :: evilHead m) = _
    rw [pieces_append _ bslash (by decide)]
    have := evilHead_both m
    unfold bothNames at this
    rw [this]; rfl

theorem evil_both (m : Nat) : bothNames (evil m) = List.replicate (m + 1) [97] ++ (List.replicate m [dot, dot] ++ [lit "passwd"]) := by
  have h := evilHead_both m
  unfold bothNames at h ⊢
  unfold evil
  rw [pieces_append _ slash (by decide), h, evilTail_pieces _ (by decide) (fun c hc => by simpa [isSep] using hc)]

theorem evil_way (m : Nat) : WayInside (bothNames (evil m)) := by
  rw [evil_both]
  intro k hk
  simp at hk
  rw [List.take_append, List.take_append, List.take_replicate, List.take_replicate, depth_append, depth_append, depth_downs, depth_ups]
  have h1 : k - (List.replicate (m + 1) [(97 : Byte)]).length - (List.replicate m [dot, dot]).length = 0 := by simp; omega
  rw [h1]
  simp only [List.take_zero, depth, List.length_replicate]
  omega

theorem rfind_none_of {pat s : Str} {c : Byte} (h1 : c ∈ pat) (h2 : c ∉ s) : rfind pat s = none := by
  cases h : rfind pat s with
  | none => rfl
  | some n =>
    obtain ⟨y, hy⟩ := (rfind_some h).1
    exact absurd (List.mem_of_mem_drop (hy ▸ List.mem_append_left y h1)) h2

theorem evilHead_o : ∀ m, (111 : Byte) ∉ evilHead m
  | 0 => by decide
  | m + 1 => by have := evilHead_o m; simp [evilHead]; exact ⟨by decide, this⟩

theorem evilTail_o : ∀ m, (111 : Byte) ∉ evilTail m
  | 0 => by decide
  | m + 1 => by have := evilTail_o m; simp [evilTail]; exact ⟨by decide, by decide, this⟩

theorem evil_o (m : Nat) : (111 : Byte) ∉ evil m := by
  have h1 := evilHead_o m
  have h2 := evilTail_o m
  simp [evil]; exact ⟨h1, by decide, h2⟩

theorem evil_file (m : Nat) : fileRequested [⟨lit "/data/pub", lit "docs/", [], []⟩] (lit "/docs/" ++ evil m) = some (lit "/data/pub/" ++ evil m) := by
  have hr : rfind (lit "docs/") (lit "/docs/" ++ evil m) = some 1 := by
    have h0 : rfind (lit "docs/") (evil m) = none := rfind_none_of (c := 111) (by decide) (evil_o m)
    show rfind (lit "docs/") (47 :: 100 :: 111 :: 99 :: 115 :: 47 :: evil m) = some 1
    have h0' : rfind [100#8, 111#8, 99#8, 115#8, 47#8] (evil m) = none := h0
    simp [rfind, lit]
    rw [h0']
  have hv : verify (slash :: evil m) = true := by
    rw [verify_iff]
    refine ⟨by simp, ?_⟩
    have h := evil_way m
    unfold bothNames WayInside at h ⊢
    have e : pieces isSep (slash :: evil m) = [] :: pieces isSep (evil m) := by rw [pieces_cons, if_pos (by decide)]
    rw [e]
    intro k hk
    cases k with
    | zero => simp [depth]
    | succ k => simpa [depth] using h k (by simp at hk; omega)
  have hd : (lit "/docs/" ++ evil m).drop (1 + (lit "docs/").length - 1) = slash :: evil m := rfl
  unfold fileRequested
  rw [if_neg (by simp [lit])]
  dsimp only
  rw [hr]
  dsimp only
  rw [hd, if_pos hv]
  rfl

end Verif.HttpServer
