import Verif.Spec.History
import Verif.FieldsMapLemmas

/-! # Invariant of the history of an item -/

namespace Verif.Record
open Verif.Bytes Verif.Stream

/-- The diff `d` leads from the fields `a` to the fields `b`. -/
def DiffOK (d : FMap) (a b : Snap) : Prop := ∀ txt (r : Fields), Sorted r.map → SameSnap (value r.map) a →
  SameSnap (value (r.applyDiff txt d).map) b ∧ Sorted (r.applyDiff txt d).map

/-- Good names and values. -/
def Good (n : Name) (v : Val) : Prop := 0 ∉ n ∧ n ≠ delName ∧ Plain v

theorem value_clearFlags (s : Fields) (n : Name) : value s.clearFlags.map n = value s.map n := by
  unfold value Fields.clearFlags
  dsimp only
  rw [find_map _ (fun e => { e.2 with modified := false })]
  cases find s.map n <;> rfl

theorem sorted_clearFlags {s : Fields} (h : Sorted s.map) : Sorted s.clearFlags.map := by
  unfold Fields.clearFlags
  exact sorted_map h _

theorem sorted_clone (s : Fields) : Sorted s.clone.map := sorted_setAll (List.Pairwise.nil)

/-- Fields with the time set as in lines 719-724. -/
def timed (s : Node) (tm : Word) : Fields := if s.autoTime then s.fields.set timeName (.datime tm) else s.fields

theorem sorted_timed {s : Node} (h : Sorted s.fields.map) (tm : Word) : Sorted (timed s tm).map := by
  unfold timed; split
  · exact sorted_set h _ _
  · exact h

theorem setVal_datime (f : Field) (tm : Word) : (f.setVal (.datime tm)).val = .datime tm := by
  simp only [Field.setVal]; split
  · assumption
  · rfl

theorem value_timed {s : Node} (h : Sorted s.fields.map) (tm : Word) (n : Name) :
    value (timed s tm).map n = if s.autoTime = true ∧ timeName = n then some (.datime tm) else value s.fields.map n := by
  unfold timed value
  by_cases ha : s.autoTime = true
  · simp only [ha, true_and, if_true]
    rw [find_set h]
    by_cases hn : timeName = n
    · simp [hn, setVal_datime]
    · simp [hn]
  · simp [ha]

theorem find_timed {s : Node} (h : Sorted s.fields.map) (tm : Word) {n : Name} (hn : ¬(s.autoTime = true ∧ n = timeName)) :
    find (timed s tm).map n = find s.fields.map n := by
  unfold timed
  by_cases ha : s.autoTime = true
  · simp only [ha, if_true]
    rw [find_set h, if_neg (fun e => hn ⟨ha, e.symm⟩)]
  · simp [ha]

theorem timed_time_modified {s : Node} (h : Sorted s.fields.map) {tm : Word} (ha : s.autoTime = true)
    (hne : value s.fields.map timeName ≠ some (.datime tm)) {f : Field} (hf : find (timed s tm).map timeName = some f) : f.modified = true := by
  unfold timed at hf
  simp only [ha, if_true] at hf
  rw [find_set h, if_pos rfl] at hf
  simp only [Option.some.injEq] at hf
  rw [← hf]
  cases hg : find s.fields.map timeName with
  | none => exact setVal_fresh_modified (v := .datime tm) trivial (by simp)
  | some g =>
    simp only [Option.getD_some, Field.setVal]
    rw [value_some hg] at hne
    rw [if_neg (by simpa using hne)]
    rfl

theorem time_good (tm : Word) : Good timeName (.datime tm) := ⟨by decide, by decide, trivial⟩

structure HInv (s : Node) (l : List (Nat × Snap)) : Prop where
  sorted : Sorted s.fields.map
  good : ∀ n v, value s.fields.map n = some v → Good n v
  prevNone : s.prev = none → s.cap = 0 ∨ l = []
  prevSome : ∀ p, s.prev = some p → s.cap > 0 ∧ Sorted p.map ∧ ∃ v a l', l = (v, a) :: l' ∧ ∀ n, value p.map n = a n
  prevGood : ∀ p, s.prev = some p → ∀ n v, value p.map n = some v → Good n v
  flags : ∀ p, s.prev = some p → ∀ n f g, find s.fields.map n = some f → f.modified = false →
    ¬(s.autoTime = true ∧ n = timeName) → find p.map n = some g → f.val = g.val
  len : s.hist.length = min s.cap (l.length - 1)
  chain : ∀ (i : Nat) h, s.hist.reverse[i]? = some h → ∃ a b, l[i]? = some a ∧ l[i + 1]? = some b ∧ h.1 = a.1 ∧ DiffOK h.2 a.2 b.2
  vers : l.Pairwise (fun x y => x.1 > y.1) ∧ ∀ e ∈ l, e.1 ≤ s.ver

theorem HInv.fields {s : Node} {l} (h : HInv s l) {f' : Fields} (hs : Sorted f'.map) (hg : ∀ n v, value f'.map n = some v → Good n v)
    (hf : ∀ p, s.prev = some p → ∀ n f g, find f'.map n = some f → f.modified = false →
      ¬(s.autoTime = true ∧ n = timeName) → find p.map n = some g → f.val = g.val) : HInv { s with fields := f' } l :=
  { h with sorted := hs, good := hg, flags := hf }

theorem good_timed {s : Node} {l} (h : HInv s l) (tm : Word) (n : Name) (v : Val) (hv : value (timed s tm).map n = some v) : Good n v := by
  rw [value_timed h.sorted] at hv
  split at hv
  · rename_i hn
    simp only [Option.some.injEq] at hv
    rw [← hv, ← hn.2]; exact time_good tm
  · exact h.good n v hv

/-- Marking without changed fields. -/
theorem HInv.mark_nofields {s : Node} {l} (h : HInv s l) (hw : s.fields.wasChanged = false) {ver : Nat} (hver : s.ver < ver) (tm : Word) :
    HInv { s with ver := ver, fields := (timed s tm).clearFlags, nodeChanged := false } l := by
  refine { h with sorted := sorted_clearFlags (sorted_timed h.sorted tm), good := ?_, flags := ?_, vers := ⟨h.vers.1, fun e he => Nat.le_of_lt (Nat.lt_of_le_of_lt (h.vers.2 e he) hver)⟩ }
  · intro n v hv
    rw [value_clearFlags] at hv
    exact good_timed h tm n v hv
  · intro p hp n f g hf _ hn hg
    have hv : value (timed s tm).clearFlags.map n = some f.val := value_some hf
    rw [value_clearFlags] at hv
    unfold value at hv
    rw [find_timed h.sorted tm hn] at hv
    cases hfn : find s.fields.map n with
    | none => rw [hfn] at hv; cases hv
    | some f0 =>
      rw [hfn] at hv
      simp only [Option.map_some, Option.some.injEq] at hv
      rw [← hv]
      refine h.flags p hp n f0 g hfn ?_ hn hg
      unfold Fields.wasChanged at hw
      rw [Bool.or_eq_false_iff] at hw
      simpa using List.any_eq_false.mp hw.2 _ (find_mem hfn)

theorem mark_diffOK {s : Node} {l} (h : HInv s l) {p : Fields} (hp : s.prev = some p) {ver : Nat} {tm : Word}
    (hl : NLegal s (.mark ver tm child)) : DiffOK (p.makeAsDiffTo (timed s tm).map).map (value (timed s tm).map) (value p.map) := by
  intro txt r hr hrc
  have hst := sorted_timed h.sorted tm
  obtain ⟨_, hsp, _⟩ := h.prevSome p hp
  have hnod : ∀ {m : FMap}, (∀ n v, value m n = some v → Good n v) → find m delName = none := by
    intro m hm
    cases hf : find m delName with
    | none => rfl
    | some f => exact absurd rfl (hm _ _ (value_some hf)).2.1
  refine ⟨fun n => diff_ok hsp hst ?_ (hnod (h.prevGood p hp)) (hnod (good_timed h tm)) ?_ ?_ txt hr hrc n, ?_⟩
  · exact fun e he => (((mem_of_find_plain hst).mpr (good_timed h tm)) e he).1
  · exact fun e he => (((mem_of_find_plain hsp).mpr (h.prevGood p hp)) e he).2.2
  · intro n f g hf hm hg
    by_cases hn : s.autoTime = true ∧ n = timeName
    · obtain ⟨ha, rfl⟩ := hn
      rw [timed_time_modified h.sorted ha (hl.2 ha) hf] at hm
      cases hm
    · rw [find_timed h.sorted tm hn] at hf
      rw [h.flags p hp n f g hf hm hn hg]
      exact Or.inl rfl
  · exact sorted_applyDiff hr

/-- Marking with changed fields. -/
theorem HInv.mark_fields {s : Node} {l} (h : HInv s l) {ver : Nat} {tm : Word} (hl : NLegal s (.mark ver tm child))
    {prev' : Option Fields} {hist' : List (Nat × FMap)}
    (hprev : prev' = if s.cap > 0 then some (timed s tm).clone else s.prev)
    (hhist : hist' = match s.prev with
      | some p => (if s.hist.length ≥ s.cap then s.hist.tail else s.hist) ++ [(ver, (p.makeAsDiffTo (timed s tm).map).map)]
      | none => s.hist) :
    HInv { s with ver := ver, fields := (timed s tm).clearFlags, nodeChanged := false, prev := prev', hist := hist' }
      ((ver, value (timed s tm).clearFlags.map) :: l) := by
  have hst := sorted_timed h.sorted tm
  have hgood := good_timed h tm
  have hcl : ∀ n, value (timed s tm).clone.map n = value (timed s tm).map n :=
    fun n => value_clone hst (fun e he => (((mem_of_find_plain hst).mpr hgood) e he).2.2) n
  have hvers : ((ver, value (timed s tm).clearFlags.map) :: l).Pairwise (fun x y => x.1 > y.1) ∧
      ∀ e ∈ ((ver, value (timed s tm).clearFlags.map) :: l), e.1 ≤ ver := by
    refine ⟨List.pairwise_cons.mpr ⟨fun e he => Nat.lt_of_le_of_lt (h.vers.2 e he) hl.1, h.vers.1⟩, ?_⟩
    intro e he
    rcases List.mem_cons.mp he with rfl | he
    · exact Nat.le_refl _
    · exact Nat.le_of_lt (Nat.lt_of_le_of_lt (h.vers.2 e he) hl.1)
  have hsnap : value (timed s tm).clearFlags.map = value (timed s tm).map := funext fun n => value_clearFlags _ n
  have hprev1 : ∀ p, prev' = some p → s.cap > 0 ∧ p = (timed s tm).clone := by
    intro p hp
    rw [hprev] at hp
    split at hp
    · rename_i hc; exact ⟨hc, (Option.some.inj hp).symm⟩
    · rename_i hc; exact absurd (h.prevSome p hp).1 hc
  refine { sorted := sorted_clearFlags hst, good := ?_, prevNone := ?_, prevSome := ?_, prevGood := ?_, flags := ?_, len := ?_, chain := ?_, vers := hvers }
  · intro n v hv
    rw [value_clearFlags] at hv
    exact hgood n v hv
  · intro hp
    dsimp only at hp
    rw [hprev] at hp
    split at hp
    · cases hp
    · rename_i hc; left; dsimp only; omega
  · intro p hp
    obtain ⟨hc, rfl⟩ := hprev1 p hp
    exact ⟨hc, sorted_clone _, ver, _, l, rfl, fun n => by rw [hcl, value_clearFlags]⟩
  · intro p hp n v hv
    obtain ⟨hc, rfl⟩ := hprev1 p hp
    rw [hcl] at hv
    exact hgood n v hv
  · intro p hp n f g hf _ _ hg
    obtain ⟨hc, rfl⟩ := hprev1 p hp
    have h1 := value_some hf
    have h2 := value_some hg
    dsimp only at h1
    rw [value_clearFlags] at h1
    rw [hcl, h1] at h2
    exact Option.some.inj h2
  · dsimp only
    rw [hhist]
    cases hp : s.prev with
    | none =>
      simp only [List.length_cons, Nat.add_sub_cancel]
      have := h.len
      rcases h.prevNone hp with hc | hc
      · omega
      · subst hc; simp at this ⊢; omega
    | some p =>
      obtain ⟨hc, _, v, a, l', hl', _⟩ := h.prevSome p hp
      have := h.len
      rw [hl'] at this ⊢
      simp only [List.length_cons, Nat.add_sub_cancel, List.length_append, List.length_nil] at this ⊢
      split
      · rw [List.length_tail]; omega
      · omega
  · intro i x hx
    dsimp only at hx
    rw [hhist] at hx
    cases hp : s.prev with
    | none =>
      rw [hp] at hx
      have hlen := h.len
      have : s.hist = [] := by
        apply List.eq_nil_of_length_eq_zero
        rcases h.prevNone hp with hc | hc
        · omega
        · rw [hc] at hlen; simp at hlen; simpa using hlen
      simp [this] at hx
    | some p =>
      rw [hp] at hx
      obtain ⟨hc, _, v, a, l', hl', ha⟩ := h.prevSome p hp
      simp only [List.reverse_append, List.reverse_cons, List.reverse_nil, List.nil_append, List.singleton_append] at hx
      cases i with
      | zero =>
        simp only [List.getElem?_cons_zero, Option.some.injEq] at hx
        subst hx
        refine ⟨(ver, value (timed s tm).clearFlags.map), (v, a), by simp, by simp [hl'], rfl, ?_⟩
        have := mark_diffOK h hp hl
        dsimp only
        rw [hsnap]
        rwa [show value p.map = a from funext ha] at this
      | succ j =>
        simp only [List.getElem?_cons_succ] at hx ⊢
        have : s.hist.reverse[j]? = some x := by
          split at hx
          · rw [show s.hist.tail.reverse = s.hist.reverse.dropLast by simp, List.getElem?_dropLast] at hx
            split at hx
            · exact hx
            · cases hx
          · exact hx
        exact h.chain j x this

theorem HInv.mark {s : Node} {l} (h : HInv s l) {ver : Nat} {tm : Word} {child : Bool} (hl : NLegal s (.mark ver tm child)) :
    HInv (s.step (.mark ver tm child)) (logStep s l (.mark ver tm child)) := by
  unfold logStep
  simp only [Logs, Node.step, Node.mark]
  by_cases hw : s.fields.wasChanged = true
  · have e : (if s.autoTime = true then s.fields.set timeName (Val.datime tm) else s.fields) = timed s tm := rfl
    simp only [hw, Bool.or_true, if_true, Bool.and_true, e]
    by_cases hc : s.cap > 0
    · simp only [hc, decide_true, if_true]
      cases hp : s.prev with
      | none =>
        have := h.mark_fields hl (prev' := some (timed s tm).clone) (hist' := s.hist) (by rw [if_pos hc]) (by rw [hp])
        exact this
      | some p =>
        have := h.mark_fields hl (prev' := some (timed s tm).clone)
          (hist' := (if s.hist.length ≥ s.cap then s.hist.tail else s.hist) ++ [(ver, (p.makeAsDiffTo (timed s tm).map).map)])
          (by rw [if_pos hc]) (by rw [hp])
        simp only [Node.addHistory]
        rw [if_neg (show ¬ s.cap = 0 by omega)]
        exact this
    · have hp : s.prev = none := by
        cases hp : s.prev with
        | none => rfl
        | some p => exact absurd (h.prevSome p hp).1 hc
      simp only [hc, decide_false]
      have := h.mark_fields hl (prev' := s.prev) (hist' := s.hist) (by rw [if_neg hc]) (by rw [hp])
      exact this
  · have hw' : s.fields.wasChanged = false := by simpa using hw
    simp only [hw', Bool.or_false, Bool.and_false]
    split
    · exact h.mark_nofields hw' hl.1 tm
    · exact h

theorem HInv.step {s : Node} {l} (h : HInv s l) (op : NOp) (hl : NLegal s op) : HInv (s.step op) (logStep s l op) := by
  cases op with
  | mark ver tm child => exact h.mark hl
  | setModified => exact { h with }
  | set n v =>
    refine h.fields (sorted_set h.sorted _ _) ?_ ?_
    · intro k w hw
      unfold value at hw
      rw [find_set h.sorted] at hw
      split at hw
      · rename_i hk; subst hk
        simp only [Option.map_some, Option.some.injEq] at hw
        refine ⟨hl.1, hl.2.1, ?_⟩
        cases hf : find s.fields.map n with
        | none =>
          rw [hf] at hw
          simp only [Option.getD_none] at hw
          rw [setVal_fresh hl.2.2.1] at hw
          rw [← hw]; exact hl.2.2.1
        | some f =>
          rw [hf] at hw
          simp only [Option.getD_some] at hw
          rcases setVal_same f hl.2.2.1 with h1 | ⟨u, w', h1, _, _⟩
          · rw [h1] at hw; rw [← hw]; exact hl.2.2.1
          · rw [h1] at hw; rw [← hw]; trivial
      · exact h.good k w hw
    · intro p hp k f g hf hm hn hg
      rw [find_set h.sorted] at hf
      split at hf
      · rename_i hk; subst hk
        simp only [Option.some.injEq] at hf
        cases hfn : find s.fields.map n with
        | none =>
          rw [hfn] at hf
          rw [← hf] at hm
          simp only [Option.getD_none] at hm
          rw [setVal_fresh_modified hl.2.2.1 hl.2.2.2] at hm
          cases hm
        | some f0 =>
          rw [hfn] at hf
          simp only [Option.getD_some] at hf
          rcases setVal_cases f0 v with hg0 | ⟨w, hg0⟩
          · rw [hg0] at hf; subst hf
            exact h.flags p hp n f0 g hfn hm hn hg
          · rw [hg0] at hf; rw [← hf] at hm; cases hm
      · exact h.flags p hp k f g hf hm hn hg
  | remove n =>
    have hfr : ∀ k f, find (s.fields.remove n).map k = some f → find s.fields.map k = some f := by
      intro k f hf
      rw [find_remove h.sorted] at hf
      split at hf
      · cases hf
      · exact hf
    refine h.fields (sorted_remove h.sorted _) ?_ ?_
    · intro k w hw
      unfold value at hw
      cases hf : find (s.fields.remove n).map k with
      | none => rw [hf] at hw; cases hw
      | some f =>
        rw [hf] at hw
        simp only [Option.map_some, Option.some.injEq] at hw
        rw [← hw]
        exact h.good k f.val (value_some (hfr k f hf))
    · intro p hp k f g hf hm hn hg
      exact h.flags p hp k f g (hfr k f hf) hm hn hg

theorem NReach.inv {cap : Nat} {autoTime : Bool} {s : Node} {l} (h : NReach cap autoTime s l) : HInv s l ∧ s.cap = cap ∧ s.autoTime = autoTime := by
  induction h with
  | init =>
    refine ⟨?_, rfl, rfl⟩
    exact { sorted := List.Pairwise.nil, good := fun n v hv => (by cases hv), prevNone := fun _ => Or.inr rfl, prevSome := fun p hp => (by cases hp),
            prevGood := fun p hp => (by cases hp), flags := fun p hp => (by cases hp), len := by simp, chain := fun i h hh => (by simp at hh),
            vers := ⟨List.Pairwise.nil, fun e he => by cases he⟩ }
  | @step s l op _ hl ih =>
    refine ⟨ih.1.step op hl, ?_⟩
    have hcc : (s.step op).cap = s.cap ∧ (s.step op).autoTime = s.autoTime := by
      cases op with
      | mark ver tm child =>
        simp only [Node.step, Node.mark, Node.addHistory]
        repeat' (first | split | exact ⟨rfl, rfl⟩)
      | _ => exact ⟨rfl, rfl⟩
    rw [hcc.1, hcc.2]
    exact ih.2

end Verif.Record
