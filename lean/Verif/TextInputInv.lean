import Verif.Spec.TextInput

/-! # Invariants of the text input -/

namespace Verif.TextInput
open Verif.TextInput.Spec

theorem all_isBlank (l : List Char) : l.all isBlank = true ↔ Blank l := by
  unfold Blank isBlank
  simp

/-! ## Lines -/

theorem lines_ne (t : List Char) : lines t ≠ [] := by
  cases t with
  | nil => simp [lines]
  | cons c cs =>
    unfold lines
    split
    · simp
    · split <;> simp

theorem lines_last {t : List Char} (h : t.dropWhile notNl = []) : lines t = [t] ∧ t.takeWhile notNl = t := by
  induction t with
  | nil => exact ⟨rfl, rfl⟩
  | cons c cs ih =>
    by_cases e : c = '\n'
    · subst e
      simp [List.dropWhile_cons, notNl] at h
    · have hn : notNl c = true := by simp [notNl, e]
      rw [List.dropWhile_cons, if_pos hn] at h
      obtain ⟨i1, i2⟩ := ih h
      rw [List.takeWhile_cons, if_pos hn, i2]
      unfold lines
      rw [if_neg e, i1]
      exact ⟨rfl, rfl⟩

theorem lines_more {t r : List Char} {x : Char} (h : t.dropWhile notNl = x :: r) : lines t = t.takeWhile notNl :: lines r := by
  induction t with
  | nil => cases h
  | cons c cs ih =>
    by_cases e : c = '\n'
    · subst e
      have hn : notNl '\n' = false := rfl
      rw [List.dropWhile_cons, hn] at h
      simp only [Bool.false_eq_true, if_false, List.cons.injEq] at h
      rw [List.takeWhile_cons, hn]
      rw [lines, if_pos rfl, h.2]
      simp
    · have hn : notNl c = true := by simp [notNl, e]
      rw [List.dropWhile_cons, if_pos hn] at h
      rw [List.takeWhile_cons, if_pos hn, lines, if_neg e, ih h]

/-- What `getline` does at the last line and before. -/
theorem getline_last {n : Nat} {t l : List Char} (h : lines t = [l]) (hl : l.length < n) :
    getline n ⟨t, false, false⟩ = (l, ⟨[], true, l.isEmpty⟩) := by
  cases hd : t.dropWhile notNl with
  | nil =>
    obtain ⟨h1, h2⟩ := lines_last hd
    rw [h1] at h
    cases h
    unfold getline
    simp only [Stream.good]
    rw [if_neg (by simp), h2, if_neg (by omega), hd]
  | cons x r =>
    rw [lines_more hd] at h
    simp only [List.cons.injEq] at h
    exact absurd h.2 (lines_ne r)

theorem getline_more {n : Nat} {t l l' : List Char} {ls : List (List Char)} (h : lines t = l :: l' :: ls) (hl : l.length < n) :
    ∃ r, getline n ⟨t, false, false⟩ = (l, ⟨r, false, false⟩) ∧ lines r = l' :: ls ∧ r.length < t.length := by
  cases hd : t.dropWhile notNl with
  | nil =>
    rw [(lines_last hd).1] at h
    simp at h
  | cons x r =>
    rw [lines_more hd] at h
    simp only [List.cons.injEq] at h
    refine ⟨r, ?_, h.2, ?_⟩
    · unfold getline
      simp only [Stream.good]
      rw [if_neg (by simp), h.1, if_neg (by omega), hd]
    · have h1 := congrArg List.length (List.takeWhile_append_dropWhile (p := notNl) (l := t))
      rw [hd, List.length_append, List.length_cons] at h1
      omega

theorem skip_spec {n : Nat} (h : Nat) : ∀ {t : List Char}, h < (lines t).length → (∀ l ∈ lines t, l.length < n) →
    ∃ r, skip n h ⟨t, false, false⟩ = ⟨r, false, false⟩ ∧ lines r = (lines t).drop h ∧ r.length ≤ t.length := by
  induction h with
  | zero => intro t _ _; exact ⟨t, rfl, rfl, Nat.le_refl _⟩
  | succ h ih =>
    intro t ht hs
    match hl : lines t with
    | [] => exact absurd hl (lines_ne t)
    | [l] => rw [hl] at ht; simp at ht
    | l :: l' :: ls =>
      obtain ⟨r, h1, h2, h3⟩ := getline_more hl (hs l (by rw [hl]; simp))
      obtain ⟨r', k1, k2, k3⟩ := ih (t := r) (by rw [h2]; rw [hl] at ht; simp at ht ⊢; omega)
        (fun x hx => hs x (by rw [hl]; rw [h2] at hx; exact List.mem_cons_of_mem _ hx))
      refine ⟨r', ?_, ?_, by omega⟩
      · unfold skip
        rw [h1]
        exact k1
      · rw [k2, h2]
        rfl

/-! ## Invariant -/

def vals (c : Cfg) (ls : List (List Char)) : List (List Nat) := ls.map fun l => (fill c.signed c.num l).getD []

/-- Lines with data. -/
def nonBlank (ls : List (List Char)) : List (List Char) := ls.filter fun l => decide (¬ Blank l)

/-- `ts`: files which are not opened yet, `rl`: lines of the open file which were not read. -/
structure Inv (c : Cfg) (E : List Ev) (s : St) (ts rl : List (List Char)) : Prop where
  files : s.files = ts.map some
  good : ∀ t ∈ ts, Good c t
  str : (s.str.eof = true ∧ rl = []) ∨ (s.str.eof = false ∧ s.str.fail = false ∧ lines s.str.rest = rl)
  pcs : s.pc = .size ∨ s.pc = .event → s.str.eof = false
  short : ∀ l ∈ rl, l.length < c.buflen
  data : ∀ l ∈ rl, ¬ Blank l → ∃ ws, fill c.signed c.num l = some ws
  acc : E = withData s.delivered ++ s.cur ++ number s.cnt (vals c (nonBlank rl ++ ts.flatMap (dataLines c.header)))
  curs : ∀ e ∈ s.cur, e.sub.isSome = true
  fits : c.evsize * s.cur.length ≤ c.size
  empt : s.pc = .size → s.cur = []
  ended : s.pc = .ended → rl = [] ∧ ts = []
  noerr : s.pc ≠ .error
  place : ∀ b, s.pc = .line b → c.evsize * (s.cur.length + 1) ≤ c.size

theorem withData_self {es : List Ev} (h : ∀ e ∈ es, e.sub.isSome = true) : withData es = es := List.filter_eq_self.2 h

theorem withData_append (a b : List Ev) : withData (a ++ b) = withData a ++ withData b := List.filter_append ..

/-- `OpenNextFile`: the state before has read the whole file before. -/
theorem next_inv {c : Cfg} {E : List Ev} {s : St} {ts : List (List Char)} (pc : Pc) (hpc : pc ≠ .ended) (hpe : pc ≠ .error)
    (files : s.files = ts.map some) (good : ∀ t ∈ ts, Good c t) (heof : s.str.eof = true)
    (acc : E = withData s.delivered ++ s.cur ++ number s.cnt (vals c (ts.flatMap (dataLines c.header))))
    (curs : ∀ e ∈ s.cur, e.sub.isSome = true) (fits : c.evsize * s.cur.length ≤ c.size) (empt : pc = .size → s.cur = [])
    (place : ∀ b, pc = .line b → c.evsize * (s.cur.length + 1) ≤ c.size) :
    (ts = [] ∧ next c s pc = { s with pc := .ended } ∧ Inv c E (next c s pc) [] []) ∨
      ∃ t ts' r, ts = t :: ts' ∧ next c s pc = { s with files := ts'.map some, str := ⟨r, false, false⟩, pc := pc } ∧ r.length ≤ t.length ∧
        lines r = (lines t).drop c.header ∧ Inv c E (next c s pc) ts' ((lines t).drop c.header) := by
  cases ts with
  | nil =>
    have e : next c s pc = { s with pc := .ended } := by
      unfold next
      rw [files]
      rfl
    refine .inl ⟨rfl, e, ?_⟩
    rw [e]
    exact ⟨files, by simp, .inl ⟨heof, rfl⟩, by simp, by simp, by simp, acc, curs, fits, by simp, fun _ => ⟨rfl, rfl⟩, by simp, by simp⟩
  | cons t ts =>
    have g := good t (by simp)
    obtain ⟨r, k1, k2, k3⟩ := skip_spec c.header g.header g.short
    have e : next c s pc = { s with files := ts.map some, str := ⟨r, false, false⟩, pc := pc } := by
      unfold next
      rw [files]
      simp only [List.map_cons, opened, k1, Stream.good]
      rfl
    refine .inr ⟨t, ts, r, rfl, e, k3, k2, ?_⟩
    rw [e]
    refine ⟨rfl, fun x hx => good x (by simp [hx]), .inr ⟨rfl, rfl, k2⟩, fun _ => rfl, fun l hl => g.short l (List.mem_of_mem_drop hl), ?_, ?_, curs,
      fits, empt, fun h => absurd h hpc, hpe, place⟩
    · intro l hl hb
      exact g.data l (by unfold dataLines; rw [List.mem_filter]; exact ⟨hl, by simpa using hb⟩)
    · rw [List.flatMap_cons] at acc
      exact acc

/-- Flag of the null pointer for the next line. -/
def flag : Pc → Bool
  | .line b => b
  | _ => true

/-- The lines end in a way which crashes. -/
def bare : Bool → List (List Char) → Bool
  | _, [] => false
  | b, [l] => l.isEmpty && b
  | _, l :: l' :: ls => bare (decide (¬ Blank l)) (l' :: ls)

/-- What is left to read. -/
def left (s : St) : Nat := (if s.str.eof then 0 else s.str.rest.length + 1) + (s.files.map fun f => (f.getD []).length + 2).sum

def rank (s : St) : Nat := match s.pc with
  | .line _ => 1
  | .event => if s.cur = [] then 2 else 4
  | .size => 3
  | _ => 0

/-- Final states. -/
def done (s : St) : Prop := s.pc = .ended ∨ s.pc = .crash

structure Step (c : Cfg) (E : List Ev) (s : St) (ts rl : List (List Char)) : Prop where
  ex : ∃ ts' rl', Inv c E (step c s) ts' rl' ∧ (∃ p, ts = p ++ ts') ∧
    -- a crash comes from the lines which are left
    ((bare (flag s.pc) rl = true ∧ (step c s).pc = .crash) ∨ ((step c s).pc ≠ .crash ∧
      ((bare (flag s.pc) rl = bare (flag (step c s).pc) rl' ∧ ts' = ts) ∨
        (bare (flag s.pc) rl = false ∧ ((ts = [] ∧ ts' = [] ∧ (step c s).pc = .ended) ∨ ∃ t, ts = t :: ts' ∧ rl' = (lines t).drop c.header))))) ∧
    -- lines are read one after another; at the end of the last file the events of the current buffer are still there
    ((ts' = ts ∧ rl' = rl) ∨ (ts' = ts ∧ ∃ l, rl = l :: rl' ∧ (rl' = [] → Blank l)) ∨ (∃ t, ts = t :: ts' ∧ rl' = (lines t).drop c.header) ∨
      (ts = [] ∧ (step c s).pc = .ended ∧ (rl = [] ∨ (step c s).cur ≠ [])))
  less : left (step c s) < left s ∨ (left (step c s) = left s ∧ rank (step c s) < rank s)

theorem left_next (s : St) {t r : List Char} {ts : List (List Char)} {pc : Pc} (files : s.files = (t :: ts).map some) (hr : r.length ≤ t.length) :
    left { s with files := ts.map some, str := ⟨r, false, false⟩, pc := pc } < left s := by
  unfold left
  rw [files]
  simp only [List.map_cons, List.sum_cons, Option.getD_some, Bool.false_eq_true, if_false]
  omega

theorem Inv.step' {c : Cfg} {E : List Ev} {s : St} {ts rl : List (List Char)} (h : Inv c E s ts rl) (hn : 0 < c.num) (hs : c.evsize ≤ c.size) (hd : ¬ done s) :
    Step c E s ts rl := by
  have hraw : c.raw ≠ 0 := by unfold Cfg.raw; omega
  have hev : c.evsize = 28 + c.raw := rfl
  cases hpc : s.pc with
  | ended => exact absurd (.inl hpc) hd
  | crash => exact absurd (.inr hpc) hd
  | error => exact absurd hpc h.noerr
  | size =>
    have heof := h.pcs (.inl hpc)
    have hfail : s.str.fail = false := by
      rcases h.str with ⟨e, -⟩ | ⟨-, e, -⟩
      · rw [heof] at e; cases e
      · exact e
    have e : step c s = { s with cur := [], pc := .event } := by
      unfold step
      rw [hpc]
      simp only [Stream.good, heof, hfail]
      rfl
    have hc := h.empt hpc
    refine ⟨⟨ts, rl, ?_, ⟨[], rfl⟩, .inr ⟨?_, .inl ⟨?_, rfl⟩⟩, .inl ⟨rfl, rfl⟩⟩, ?_⟩
    · rw [e]
      refine ⟨h.files, h.good, h.str, fun _ => heof, h.short, h.data, ?_, by simp, by simp, by simp, by simp, by simp, by simp⟩
      have := h.acc
      rw [hc] at this
      exact this
    · rw [e]; simp
    · rw [e, hpc]; rfl
    · rw [e]
      refine .inr ⟨rfl, ?_⟩
      simp [rank, hpc]
  | event =>
    have heof := h.pcs (.inr hpc)
    have key : ∀ es : List Ev, withData es = s.cur → s.cur ≠ [] → step c s = { s with out := s.out ++ [es], cur := [], pc := .size } → Step c E s ts rl := by
      intro es hes hne e
      refine ⟨⟨ts, rl, ?_, ⟨[], rfl⟩, .inr ⟨?_, .inl ⟨?_, rfl⟩⟩, .inl ⟨rfl, rfl⟩⟩, ?_⟩
      · rw [e]
        refine ⟨h.files, h.good, h.str, fun _ => heof, h.short, h.data, ?_, by simp, by simp, by simp, by simp, by simp, by simp⟩
        have := h.acc
        rw [this]
        simp only [St.delivered, List.flatten_append, List.flatten_singleton, withData_append, hes, List.append_nil]
      · rw [e]; simp
      · rw [e, hpc]; rfl
      · rw [e]
        refine .inr ⟨rfl, ?_⟩
        simp [rank, hpc, hne]
    by_cases h1 : room c s < c.evsize
    · have hne : s.cur ≠ [] := by
        intro hc
        unfold room at h1
        rw [hc] at h1
        simp at h1
        omega
      by_cases h2 : room c s < 16
      · exact key s.cur (withData_self h.curs) hne (by unfold step; rw [hpc]; simp only []; rw [if_pos h2])
      · by_cases h3 : room c s = 16
        · exact key s.cur (withData_self h.curs) hne (by unfold step; rw [hpc]; simp only []; rw [if_neg h2, if_pos h1, if_pos h3])
        · exact key (s.cur ++ [⟨s.cnt, none⟩]) (by rw [withData_append, withData_self h.curs]; simp [withData]) hne
            (by unfold step; rw [hpc]; simp only []; rw [if_neg h2, if_pos h1, if_neg h3])
    · have e : step c s = { s with pc := .line true } := by
        unfold step
        rw [hpc]
        simp only []
        rw [if_neg (by omega), if_neg h1]
      refine ⟨⟨ts, rl, ?_, ⟨[], rfl⟩, .inr ⟨?_, .inl ⟨?_, rfl⟩⟩, .inl ⟨rfl, rfl⟩⟩, ?_⟩
      · rw [e]
        refine ⟨h.files, h.good, h.str, by simp, h.short, h.data, h.acc, h.curs, h.fits, by simp, by simp, by simp, fun _ _ => ?_⟩
        show c.evsize * (s.cur.length + 1) ≤ c.size
        unfold room at h1
        rw [Nat.mul_add, Nat.mul_one]
        omega
      · rw [e]; simp
      · rw [e, hpc]; rfl
      · rw [e]
        refine .inr ⟨rfl, ?_⟩
        simp only [rank, hpc]
        split <;> omega
  | line b =>
    rcases h.str with ⟨heof, hrl⟩ | ⟨heof, hfail, hrl⟩
    · -- next file
      subst hrl
      have e : step c s = next c s (.line b) := by
        unfold step
        rw [hpc]
        simp only []
        rw [if_pos heof]
      have hb : bare (flag (.line b)) [] = false := rfl
      rcases next_inv (.line b) (by simp) (by simp) h.files h.good heof h.acc h.curs h.fits (by simp) (fun _ _ => h.place b hpc) with ⟨k1, k2, k3⟩ | ⟨t, ts', r, k1, k2, k3, k4, k5⟩
      · refine ⟨⟨[], [], by rw [e]; exact k3, ⟨[], by rw [k1]; rfl⟩, .inr ⟨by rw [e, k2]; simp, .inr ⟨by rw [hpc]; exact hb, .inl ⟨k1, rfl, by rw [e, k2]⟩⟩⟩, .inr (.inr (.inr ⟨k1, by rw [e, k2], .inl rfl⟩))⟩, ?_⟩
        rw [e, k2]
        refine .inr ⟨rfl, ?_⟩
        simp [rank, hpc]
      · refine ⟨⟨ts', _, by rw [e]; exact k5, ⟨[t], by rw [k1]; rfl⟩, .inr ⟨by rw [e, k2]; simp, .inr ⟨by rw [hpc]; exact hb, .inr ⟨t, k1, rfl⟩⟩⟩, .inr (.inr (.inl ⟨t, k1, rfl⟩))⟩, ?_⟩
        rw [e, k2]
        exact .inl (left_next s (by rw [h.files, k1]) k3)
    · have hstr : s.str = ⟨s.str.rest, false, false⟩ := by
        cases hs' : s.str with
        | mk a b' d => rw [hs'] at heof hfail; dsimp only at heof hfail; rw [heof, hfail]
      match rl, hrl with
      | [], hrl => exact absurd hrl (lines_ne _)
      | [l], hrl =>
        have hg := getline_last hrl (h.short l (by simp))
        rw [← hstr] at hg
        by_cases hl : l = []
        · subst hl
          have hlt : ∀ p : Pc, left { s with str := ⟨[], true, true⟩, pc := p } < left s := by
            intro p
            simp [left, heof]
          cases b with
          | true =>
            have e : step c s = { s with str := ⟨[], true, true⟩, pc := .crash } := by
              unfold step
              rw [hpc]
              simp only [hg]
              simp [heof]
            refine ⟨⟨ts, [], ?_, ⟨[], rfl⟩, .inl ⟨by rw [hpc]; rfl, by rw [e]⟩, .inr (.inl ⟨rfl, [], rfl, fun _ => by simp [Blank]⟩)⟩, ?_⟩
            · rw [e]
              refine ⟨h.files, h.good, .inl ⟨rfl, rfl⟩, by simp, by simp, by simp, ?_, h.curs, h.fits, by simp, by simp, by simp, fun _ _ => h.place _ hpc⟩
              have := h.acc
              rw [this]
              simp [nonBlank, Blank, St.delivered]
            · rw [e]
              exact .inl (hlt _)
          | false =>
            have e : step c s = { s with str := ⟨[], true, true⟩, pc := .line false } := by
              unfold step
              rw [hpc]
              simp only [hg]
              simp [heof]
            refine ⟨⟨ts, [], ?_, ⟨[], rfl⟩, .inr ⟨by rw [e]; simp, .inl ⟨by rw [hpc, e]; rfl, rfl⟩⟩, .inr (.inl ⟨rfl, [], rfl, fun _ => by simp [Blank]⟩)⟩, ?_⟩
            · rw [e]
              refine ⟨h.files, h.good, .inl ⟨rfl, rfl⟩, by simp, by simp, by simp, ?_, h.curs, h.fits, by simp, by simp, by simp, fun _ _ => h.place _ hpc⟩
              have := h.acc
              rw [this]
              simp [nonBlank, Blank, St.delivered]
            · rw [e]
              exact .inl (hlt _)
        · have hle : l.isEmpty = false := by cases l with | nil => exact absurd rfl hl | cons _ _ => rfl
          have hb : bare (flag (.line b)) [l] = false := by simp [bare, hle]
          by_cases hbl : Blank l
          · have e : step c s = { s with str := ⟨[], true, false⟩, pc := .line false } := by
              unfold step
              rw [hpc]
              simp only [hg]
              rw [if_neg (by simp [heof]), if_neg (by simp [hl]), if_pos ((all_isBlank l).2 hbl), hle]
            refine ⟨⟨ts, [], ?_, ⟨[], rfl⟩, .inr ⟨by rw [e]; simp, .inl ⟨by rw [hpc, e, hb]; rfl, rfl⟩⟩, .inr (.inl ⟨rfl, l, rfl, fun _ => hbl⟩)⟩, ?_⟩
            · rw [e]
              refine ⟨h.files, h.good, .inl ⟨rfl, rfl⟩, by simp, by simp, by simp, ?_, h.curs, h.fits, by simp, by simp, by simp, fun _ _ => h.place _ hpc⟩
              have := h.acc
              rw [this]
              simp [nonBlank, hbl, St.delivered]
            · rw [e]
              exact .inl (by simp [left, heof])
          · obtain ⟨ws, hws⟩ := h.data l (by simp) hbl
            have e : step c s = next c { s with str := ⟨[], true, false⟩, cur := s.cur ++ [⟨s.cnt, some ws⟩], cnt := (s.cnt + 1) % W, pc := .event } .event := by
              unfold step
              rw [hpc]
              simp only [hg]
              rw [if_neg (by simp [heof]), if_neg (by simp [hl]), if_neg (by rw [all_isBlank]; exact hbl), hws]
              simp only [if_neg hraw, hle]
              rfl
            have hp := h.place b hpc
            have hacc : E = withData s.delivered ++ (s.cur ++ [⟨s.cnt, some ws⟩]) ++ number ((s.cnt + 1) % W) (vals c (ts.flatMap (dataLines c.header))) := by
              have := h.acc
              rw [this]
              simp [nonBlank, hbl, vals, hws, number]
            rcases next_inv (s := { s with str := ⟨[], true, false⟩, cur := s.cur ++ [⟨s.cnt, some ws⟩], cnt := (s.cnt + 1) % W, pc := .event })
                .event (by simp) (by simp) h.files h.good rfl hacc
                (by intro x hx; rcases List.mem_append.1 hx with hx | hx
                    · exact h.curs x hx
                    · rw [List.mem_singleton.1 hx]; rfl) (by simp only [List.length_append, List.length_singleton]; exact hp) (by simp) (by simp)
              with ⟨k1, k2, k3⟩ | ⟨t, ts', r, k1, k2, k3, k4, k5⟩
            · refine ⟨⟨[], [], by rw [e]; exact k3, ⟨[], by rw [k1]; rfl⟩, .inr ⟨by rw [e, k2]; simp, .inr ⟨by rw [hpc]; exact hb, .inl ⟨k1, rfl, by rw [e, k2]⟩⟩⟩, .inr (.inr (.inr ⟨k1, by rw [e, k2], .inr (by rw [e, k2]; simp)⟩))⟩, ?_⟩
              rw [e, k2]
              exact .inl (by simp [left, heof])
            · refine ⟨⟨ts', _, by rw [e]; exact k5, ⟨[t], by rw [k1]; rfl⟩, .inr ⟨by rw [e, k2]; simp, .inr ⟨by rw [hpc]; exact hb, .inr ⟨t, k1, rfl⟩⟩⟩, .inr (.inr (.inl ⟨t, k1, rfl⟩))⟩, ?_⟩
              rw [e, k2]
              refine .inl ?_
              have := left_next s (pc := .event) (r := r) (by rw [h.files, k1]) k3
              exact this
      | l :: l' :: ls, hrl =>
        obtain ⟨r, hg, h1, h2⟩ := getline_more hrl (h.short l (by simp))
        rw [← hstr] at hg
        have hlt : ∀ p cnt cur, left { s with str := ⟨r, false, false⟩, cnt := cnt, cur := cur, pc := p } < left s := by
          intro p cnt cur
          simp [left, heof]
          omega
        by_cases hbl : Blank l
        · have e : step c s = { s with str := ⟨r, false, false⟩, pc := .line false } := by
            unfold step
            rw [hpc]
            simp only [hg]
            rw [if_neg (by simp [heof]), if_neg (by simp), if_pos ((all_isBlank l).2 hbl)]
          refine ⟨⟨ts, l' :: ls, ?_, ⟨[], rfl⟩, .inr ⟨by rw [e]; simp, .inl ⟨by rw [hpc, e]; simp [flag, bare, hbl], rfl⟩⟩, .inr (.inl ⟨rfl, l, rfl, by simp⟩)⟩, ?_⟩
          · rw [e]
            refine ⟨h.files, h.good, .inr ⟨rfl, rfl, h1⟩, by simp, fun x hx => h.short x (List.mem_cons_of_mem _ hx),
              fun x hx => h.data x (List.mem_cons_of_mem _ hx), ?_, h.curs, h.fits, by simp, by simp, by simp, fun _ _ => h.place _ hpc⟩
            have := h.acc
            rw [this]
            have : nonBlank (l :: l' :: ls) = nonBlank (l' :: ls) := by simp [nonBlank, hbl]
            rw [this]
            rfl
          · rw [e]
            exact .inl (hlt _ _ _)
        · obtain ⟨ws, hws⟩ := h.data l (by simp) hbl
          have e : step c s = { s with str := ⟨r, false, false⟩, cur := s.cur ++ [⟨s.cnt, some ws⟩], cnt := (s.cnt + 1) % W, pc := .event } := by
            unfold step
            rw [hpc]
            simp only [hg]
            rw [if_neg (by simp [heof]), if_neg (by simp), if_neg (by rw [all_isBlank]; exact hbl), hws]
            simp only [if_neg hraw]
            rfl
          refine ⟨⟨ts, l' :: ls, ?_, ⟨[], rfl⟩, .inr ⟨by rw [e]; simp, .inl ⟨by rw [hpc, e]; simp [flag, bare, hbl], rfl⟩⟩, .inr (.inl ⟨rfl, l, rfl, by simp⟩)⟩, ?_⟩
          · rw [e]
            refine ⟨h.files, h.good, .inr ⟨rfl, rfl, h1⟩, by simp, fun x hx => h.short x (List.mem_cons_of_mem _ hx),
              fun x hx => h.data x (List.mem_cons_of_mem _ hx), ?_, ?_, ?_, by simp, by simp, by simp, by simp⟩
            · have := h.acc
              rw [this]
              have : nonBlank (l :: l' :: ls) = l :: nonBlank (l' :: ls) := by simp [nonBlank, hbl]
              rw [this]
              simp [vals, hws, number, St.delivered]
            · intro x hx
              rcases List.mem_append.1 hx with hx | hx
              · exact h.curs x hx
              · rw [List.mem_singleton.1 hx]; rfl
            · simp only [List.length_append, List.length_singleton]
              exact h.place b hpc
          · rw [e]
            exact .inl (hlt _ _ _)

/-! ## Runs -/

theorem steps_succ (c : Cfg) (n : Nat) : ∀ s, steps c (n + 1) s = step c (steps c n s) := by
  induction n with
  | zero => intro s; rfl
  | succ n ih => intro s; rw [steps, ih]; rfl

theorem step_done {c : Cfg} {s : St} (h : done s) : step c s = s := by
  unfold step
  rcases h with h | h <;> rw [h]

/-- Begin of a run. -/
theorem init_inv {c : Cfg} {t : List Char} {ts : List (List Char)} (hg : ∀ x ∈ t :: ts, Good c x) :
    Inv c (expected c (t :: ts)) (init c ((t :: ts).map some)) ts ((lines t).drop c.header) ∧ (init c ((t :: ts).map some)).pc = .size := by
  have hacc : expected c (t :: ts) = number 0 (vals c ((t :: ts).flatMap (dataLines c.header))) := rfl
  unfold init
  have e : next c ⟨(t :: ts).map some, ⟨[], false, false⟩, 0, [], [], .size⟩ .size = next c ⟨(t :: ts).map some, ⟨[], true, false⟩, 0, [], [], .size⟩ .size := by
    simp [next]
  rw [e]
  rcases next_inv (E := expected c (t :: ts)) (s := ⟨(t :: ts).map some, ⟨[], true, false⟩, 0, [], [], .size⟩) (ts := t :: ts) .size (by simp) (by simp)
    rfl hg rfl hacc (by simp) (by simp) (by simp) (by simp) with ⟨k1, k2, k3⟩ | ⟨t', ts', r, k1, k2, k3, k4, k5⟩
  · cases k1
  · cases k1
    refine ⟨k5, ?_⟩
    rw [k2]

theorem run_inv {c : Cfg} (hn : 0 < c.num) (hs : c.evsize ≤ c.size) {t : List Char} {ts : List (List Char)} (hg : ∀ x ∈ t :: ts, Good c x) (n : Nat) :
    ∃ ts' rl, Inv c (expected c (t :: ts)) (run c ((t :: ts).map some) n) ts' rl := by
  induction n with
  | zero => exact ⟨_, _, (init_inv hg).1⟩
  | succ n ih =>
    obtain ⟨ts', rl, h⟩ := ih
    unfold run
    rw [steps_succ]
    change ∃ ts' rl, Inv c _ (step c (run c _ n)) ts' rl
    by_cases hd : done (run c ((t :: ts).map some) n)
    · rw [step_done hd]; exact ⟨_, _, h⟩
    · obtain ⟨a, b, k, -⟩ := (h.step' hn hs hd).ex
      exact ⟨a, b, k⟩

/-- Every run comes to an end. -/
theorem steps_end {c : Cfg} (hn : 0 < c.num) (hs : c.evsize ≤ c.size) {E : List Ev} : ∀ (k : Nat) {s : St} {ts rl : List (List Char)}, Inv c E s ts rl →
    5 * left s + rank s ≤ k → ∃ n, done (steps c n s) := by
  intro k
  induction k with
  | zero =>
    intro s ts rl h hk
    by_cases hd : done s
    · exact ⟨0, hd⟩
    · rcases (h.step' hn hs hd).less with l | ⟨-, l⟩ <;> omega
  | succ k ih =>
    intro s ts rl h hk
    by_cases hd : done s
    · exact ⟨0, hd⟩
    · obtain ⟨a, b, k', -⟩ := (h.step' hn hs hd).ex
      have hr : ∀ x : St, rank x ≤ 4 := by
        intro x
        unfold rank
        split <;> (try split) <;> omega
      have h1 := hr (step c s)
      obtain ⟨n, hn'⟩ := ih k' (by rcases (h.step' hn hs hd).less with l | ⟨l1, l⟩ <;> omega)
      exact ⟨n + 1, hn'⟩

/-- Some file which is left ends with the line end of a data line. -/
def Bad (c : Cfg) (s : St) (ts rl : List (List Char)) : Prop := bare (flag s.pc) rl = true ∨ ∃ t ∈ ts, EndsBare c.header t

theorem bare_endsBare {ls : List (List Char)} {l : List Char} (hl : ¬ Blank l) : ∀ b, bare b (ls ++ [l, []]) = true := by
  induction ls with
  | nil => intro b; simp [bare, hl]
  | cons x ls ih =>
    intro b
    cases ls with
    | nil => simp [bare, hl]
    | cons y ls => exact ih _

theorem bad_steps {c : Cfg} (hn : 0 < c.num) (hs : c.evsize ≤ c.size) {E : List Ev} {s : St} {ts rl : List (List Char)} (h : Inv c E s ts rl) (hb : Bad c s ts rl)
    (n : Nat) : (steps c n s).pc = .crash ∨ ∃ ts' rl', Inv c E (steps c n s) ts' rl' ∧ Bad c (steps c n s) ts' rl' := by
  induction n with
  | zero => exact .inr ⟨ts, rl, h, hb⟩
  | succ n ih =>
    rw [steps_succ]
    rcases ih with ih | ⟨ts', rl', i, b⟩
    · left; rw [step_done (.inr ih)]; exact ih
    · by_cases hd : done (steps c n s)
      · rw [step_done hd]; exact .inr ⟨_, _, i, b⟩
      · obtain ⟨a, d, k, -, k2, -⟩ := (i.step' hn hs hd).ex
        rcases k2 with ⟨-, k2⟩ | ⟨-, ⟨k2, k3⟩ | ⟨k2, k3⟩⟩
        · exact .inl k2
        · right
          refine ⟨a, d, k, ?_⟩
          rcases b with b | b
          · exact .inl (by rw [← k2]; exact b)
          · exact .inr (by rw [k3]; exact b)
        · right
          refine ⟨a, d, k, ?_⟩
          rcases b with b | ⟨t, b1, b2⟩
          · rw [k2] at b; cases b
          · rcases k3 with ⟨k3, -⟩ | ⟨t', k3, k4⟩
            · rw [k3] at b1; cases b1
            · rw [k3] at b1
              rcases List.mem_cons.1 b1 with rfl | b1
              · obtain ⟨ls, l, e, hl⟩ := b2
                left
                rw [k4, e]
                exact bare_endsBare hl _
              · exact .inr ⟨t, b1, b2⟩

/-- No file which is left ends with the line end of a data line or with the header. -/
def Calm (c : Cfg) (s : St) (ts rl : List (List Char)) : Prop := bare (flag s.pc) rl = false ∧ ∀ t ∈ ts, bare true ((lines t).drop c.header) = false

theorem bare_calm : ∀ {ls : List (List Char)} {b : Bool}, bare true ls = false → bare b ls = false
  | [], _, _ => rfl
  | [l], b, h => by simp only [bare, Bool.and_true] at h; simp [bare, h]
  | l :: l' :: ls, _, h => h

theorem bare_true {ls : List (List Char)} : ∀ {b : Bool}, bare b ls = true → (∃ ls' l, ls = ls' ++ [l, []] ∧ ¬ Blank l) ∨ ls = [[]] := by
  induction ls with
  | nil => intro b h; simp [bare] at h
  | cons x ls ih =>
    intro b h
    cases ls with
    | nil =>
      simp only [bare, Bool.and_eq_true, List.isEmpty_iff] at h
      right; rw [h.1]
    | cons y ls =>
      left
      rcases ih h with ⟨ls', l, e, hl⟩ | e
      · exact ⟨x :: ls', l, by rw [e]; rfl, hl⟩
      · cases e
        refine ⟨[], x, rfl, ?_⟩
        simp only [bare, List.isEmpty_nil, Bool.true_and, decide_eq_true_eq] at h
        exact h

theorem calm_steps {c : Cfg} (hn : 0 < c.num) (hs : c.evsize ≤ c.size) {E : List Ev} {s : St} {ts rl : List (List Char)} (h : Inv c E s ts rl) (hb : Calm c s ts rl)
    (hc : s.pc ≠ .crash) (n : Nat) : (steps c n s).pc ≠ .crash ∧ ∃ ts' rl', Inv c E (steps c n s) ts' rl' ∧ Calm c (steps c n s) ts' rl' := by
  induction n with
  | zero => exact ⟨hc, ts, rl, h, hb⟩
  | succ n ih =>
    rw [steps_succ]
    obtain ⟨hc', ts', rl', i, b⟩ := ih
    by_cases hd : done (steps c n s)
    · rw [step_done hd]; exact ⟨hc', _, _, i, b⟩
    · obtain ⟨a, d, k, -, k2, -⟩ := (i.step' hn hs hd).ex
      rcases k2 with ⟨k2, -⟩ | ⟨k0, ⟨k2, k3⟩ | ⟨k2, k3⟩⟩
      · rw [b.1] at k2; cases k2
      · exact ⟨k0, a, d, k, by rw [← k2]; exact b.1, by rw [k3]; exact b.2⟩
      · refine ⟨k0, a, d, k, ?_⟩
        rcases k3 with ⟨-, k3, hd'⟩ | ⟨t', k3, k4⟩
        · subst k3
          exact ⟨by rw [(k.ended hd').1]; rfl, by simp⟩
        · refine ⟨?_, fun t ht => b.2 t (by rw [k3]; exact List.mem_cons_of_mem _ ht)⟩
          rw [k4]
          exact bare_calm (b.2 t' (by rw [k3]; simp))

/-- The last file ends with a line with data: something is left, or at the end something is in the buffer. -/
def Tail (c : Cfg) (s : St) (ts rl : List (List Char)) : Prop :=
  (∃ ts' t, ts = ts' ++ [t] ∧ EndsWithData c.header t) ∨ (ts = [] ∧ ∃ ls l, rl = ls ++ [l] ∧ ¬ Blank l) ∨ (s.pc = .ended ∧ s.cur ≠ [])

theorem tail_steps {c : Cfg} (hn : 0 < c.num) (hs : c.evsize ≤ c.size) {E : List Ev} {s : St} {ts rl : List (List Char)} (h : Inv c E s ts rl) (hb : Tail c s ts rl)
    (n : Nat) : ∃ ts' rl', Inv c E (steps c n s) ts' rl' ∧ Tail c (steps c n s) ts' rl' := by
  induction n with
  | zero => exact ⟨ts, rl, h, hb⟩
  | succ n ih =>
    rw [steps_succ]
    obtain ⟨ts', rl', i, b⟩ := ih
    by_cases hd : done (steps c n s)
    · rw [step_done hd]; exact ⟨_, _, i, b⟩
    · obtain ⟨a, d, k, -, -, k2⟩ := (i.step' hn hs hd).ex
      refine ⟨a, d, k, ?_⟩
      rcases b with ⟨us, t, b1, b2⟩ | ⟨b1, ls, l, b2, b3⟩ | ⟨b1, -⟩
      · rcases k2 with ⟨k2, -⟩ | ⟨k2, -⟩ | ⟨t', k2, k3⟩ | ⟨k2, -, -⟩
        · exact .inl ⟨us, t, by rw [k2, b1], b2⟩
        · exact .inl ⟨us, t, by rw [k2, b1], b2⟩
        · cases us with
          | nil =>
            rw [b1] at k2
            simp only [List.nil_append, List.cons.injEq] at k2
            obtain ⟨rfl, rfl⟩ := k2
            obtain ⟨ls, l, e, hl⟩ := b2
            exact .inr (.inl ⟨rfl, ls, l, by rw [k3, e], hl⟩)
          | cons u us =>
            rw [b1] at k2
            simp only [List.cons_append, List.cons.injEq] at k2
            exact .inl ⟨us, t, k2.2.symm, b2⟩
        · rw [b1] at k2; simp at k2
      · rcases k2 with ⟨k2, k3⟩ | ⟨k2, l', k3, k4⟩ | ⟨t', k2, k3⟩ | ⟨-, k2, k3⟩
        · exact .inr (.inl ⟨by rw [k2, b1], ls, l, by rw [k3, b2], b3⟩)
        · rw [b2] at k3
          cases ls with
          | nil =>
            simp only [List.nil_append, List.cons.injEq] at k3
            exact absurd (k4 k3.2.symm) (by rw [← k3.1]; exact b3)
          | cons u us =>
            simp only [List.cons_append, List.cons.injEq] at k3
            exact .inr (.inl ⟨by rw [k2, b1], us, l, k3.2.symm, b3⟩)
        · rw [b1] at k2; cases k2
        · rcases k3 with k3 | k3
          · rw [b2] at k3; simp at k3
          · exact .inr (.inr ⟨k2, k3⟩)
      · exact absurd (.inl b1) hd

/-- In such a run something is always missing. -/
theorem tail_missing {c : Cfg} {E : List Ev} {s : St} {ts rl : List (List Char)} (h : Inv c E s ts rl) (hb : Tail c s ts rl) : (withData s.delivered).length < E.length := by
  have hnum : ∀ (ds : List (List Nat)) k, (number k ds).length = ds.length := by
    intro ds
    induction ds with
    | nil => intro k; rfl
    | cons d ds ih => intro k; simp [number, ih]
  have ha := congrArg List.length h.acc
  rw [List.length_append, List.length_append, hnum, vals, List.length_map, List.length_append] at ha
  have hpos : ∀ (ls : List (List Char)) (l : List Char), l ∈ ls → ¬ Blank l → 0 < (nonBlank ls).length := by
    intro ls l hl hbl
    apply List.length_pos_of_mem (a := l)
    unfold nonBlank
    rw [List.mem_filter]
    exact ⟨hl, by simpa using hbl⟩
  rcases hb with ⟨us, t, b1, ls, l, b2, b3⟩ | ⟨b1, ls, l, b2, b3⟩ | ⟨b1, b2⟩
  · have h1 : 0 < (dataLines c.header t).length := hpos _ l (by rw [b2]; simp) b3
    have h2 : (dataLines c.header t).length ≤ (ts.flatMap (dataLines c.header)).length := by
      rw [b1, List.flatMap_append, List.length_append]
      simp
    omega
  · have := hpos rl l (by rw [b2]; simp) b3
    omega
  · have := List.length_pos_iff.2 b2
    omega

end Verif.TextInput
