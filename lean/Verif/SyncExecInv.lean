import Verif.Spec.SyncExec

/-!
# Invariant of a synchronous call
-/

namespace Verif.SyncExec

theorem replies_append (as bs : List Act) : replies (as ++ bs) = replies as ++ replies bs := by
  induction as with
  | nil => rfl
  | cons a as ih => cases a <;> simp [replies, ih]

theorem answer_append (old : Int) (as bs : List Int) : answer old (as ++ bs) = answer (answer old as) bs := by
  induction as generalizing old with
  | nil => rfl
  | cons a as ih => simp [answer, ih]

theorem run_append (s : S) (as bs : List Act) : run s (as ++ bs) = (run s as).bind fun t => run t bs := by
  induction as generalizing s with
  | nil => rfl
  | cons a as ih =>
    simp only [List.cons_append, run]
    cases step s a with
    | none => rfl
    | some t => exact ih t

/-- An invariant of single steps holds after runs. -/
theorem run_induct (P : List Act → S → Prop) (hstep : ∀ h s a s', P h s → step s a = some s' → P (h ++ [a]) s') :
    ∀ (as : List Act) (h : List Act) (s t : S), P h s → run s as = some t → P (h ++ as) t := by
  intro as
  induction as with
  | nil => intro h s t hp hr; cases hr; simpa using hp
  | cons a as ih =>
    intro h s t hp hr
    simp only [run] at hr
    cases hs : step s a with
    | none => rw [hs] at hr; cases hr
    | some s' =>
      rw [hs] at hr
      have := ih (h ++ [a]) s' t (hstep h s a s' hp hs) hr
      simpa using this

/-! ## Where the record of the call is -/

/-- Number of places which know the record of this call, with the use of it. -/
def places (s : S) : Nat :=
  s.callers.count .me + s.flying.count (.holds .me) + s.exe.toNat + s.stale.toNat

structure Uniq (s : S) : Prop where
  one : places s ≤ 1
  idle : s.pc = .idle → places s = 0
  gone : ∀ r, s.pc = .done r → Who.me ∉ s.callers
  live : s.stale = true → ∃ r, s.pc = .done r
  event : (s.pc = .top ∨ ∃ t, s.pc = .wait t) → s.exe = true → 0 < s.evq

theorem count_set_le (l : List Fly) (i : Nat) (x : Fly) (h : l[i]? = some x) (y : Fly) (hxy : x ≠ y) :
    (l.set i y).count y = l.count y + 1 := by
  induction l generalizing i with
  | nil => simp at h
  | cons a l ih =>
    cases i with
    | zero =>
      simp at h; subst h
      simp [hxy]
    | succ i =>
      simp at h
      simp only [List.set_cons_succ, List.count_cons]
      have := ih i h
      omega

theorem count_set_other (l : List Fly) (i : Nat) (x y z : Fly) (h : l[i]? = some x) (hy : y ≠ z) :
    (l.set i y).count z + (if x = z then 1 else 0) = l.count z := by
  induction l generalizing i with
  | nil => simp at h
  | cons a l ih =>
    cases i with
    | zero =>
      simp at h; subst h
      simp only [List.set_cons_zero, List.count_cons]
      have : (y == z) = false := by simpa using hy
      simp [this]
    | succ i =>
      simp at h
      simp only [List.set_cons_succ, List.count_cons]
      have := ih i h
      omega

theorem count_erase_idx (l : List Fly) (i : Nat) (x z : Fly) (h : l[i]? = some x) :
    (l.eraseIdx i).count z + (if x = z then 1 else 0) = l.count z := by
  induction l generalizing i with
  | nil => simp at h
  | cons a l ih =>
    cases i with
    | zero =>
      simp at h; subst h
      simp only [List.eraseIdx_cons_zero, List.count_cons]
      by_cases hz : a = z <;> simp [hz]
    | succ i =>
      simp at h
      simp only [List.eraseIdx_cons_succ, List.count_cons]
      have := ih i h
      omega

theorem count_dropLast (l : List Who) (w : Who) (h : l.getLast? = some w) (z : Who) :
    l.dropLast.count z + (if w = z then 1 else 0) = l.count z := by
  have hl : l = l.dropLast ++ [w] := by
    have hne : l ≠ [] := by rintro rfl; simp at h
    have := List.dropLast_concat_getLast hne
    rw [List.getLast?_eq_some_getLast hne] at h
    cases h
    exact this.symm
  conv => rhs; rw [hl]
  rw [List.count_append]
  by_cases hz : w = z <;> simp [hz]

theorem count_filter_other (l : List Who) (n : Nat) : (l.filter (· ≠ .other n)).count .me = l.count .me := by
  induction l with
  | nil => rfl
  | cons a l ih =>
    by_cases ha : a = .other n
    · subst ha; rw [List.filter_cons_of_neg (by simp), ih, List.count_cons_of_ne (by simp)]
    · rw [List.filter_cons_of_pos (by simpa using ha), List.count_cons, List.count_cons, ih]

theorem me_not_filter (l : List Who) : Who.me ∉ l.filter (· ≠ .me) := by simp

theorem count_filter_me (l : List Who) : (l.filter (· ≠ .me)).count .me = 0 :=
  List.count_eq_zero.mpr (me_not_filter l)

/-- Fields which a reply in the calling thread leaves as they are. -/
theorem replyAll_frame (acc : Who → Bool) (ws : List Who) (s : S) :
    (replyAll acc s ws).flying = s.flying ∧ (replyAll acc s ws).pc = s.pc ∧
      (replyAll acc s ws).deadline = s.deadline ∧ (replyAll acc s ws).now = s.now := by
  induction ws with
  | nil => simp [replyAll]
  | cons w ws ih =>
    simp only [replyAll]
    split
    · cases w
      · simp only [inform]; split <;> simp
      · simp [inform]
    · exact ih

theorem replyAll_count (acc : Who → Bool) (ws : List Who) (s : S) (hpc : s.pc = .proc) (he : s.exe = false)
    (hst : s.stale = false) :
    (replyAll acc s ws).callers.count .me + (replyAll acc s ws).exe.toNat ≤ ws.count .me ∧
      (replyAll acc s ws).stale = false := by
  induction ws with
  | nil => simp [replyAll, he, hst]
  | cons w ws ih =>
    simp only [replyAll]
    split
    · cases w
      · simp only [inform, hpc]
        simp [hst]
      · simp only [inform]
        simp [he, hst]
    · refine ⟨Nat.le_trans ih.1 ?_, ih.2⟩
      rw [List.count_cons]
      omega

theorem Uniq.start (others : List Nat) (result deadline : Option Int) (now : Int) :
    Uniq (SyncExec.start others result deadline now) := by
  have h0 : places (SyncExec.start others result deadline now) = 0 := by
    have : (others.map Who.other).count Who.me = 0 := by
      rw [List.count_eq_zero]; simp
    simp [places, SyncExec.start, this]
  constructor
  · omega
  · intro _; exact h0
  · intro r h; simp [SyncExec.start] at h
  · intro h; simp [SyncExec.start] at h
  · intro h; simp [SyncExec.start] at h

theorem setRes_frame (s : S) (r : Int) :
    (setRes s r).callers = s.callers ∧ (setRes s r).flying = s.flying ∧ (setRes s r).pc = s.pc ∧
      (setRes s r).deadline = s.deadline ∧ (setRes s r).now = s.now ∧ (setRes s r).exe = s.exe ∧
      (setRes s r).stale = s.stale ∧ (setRes s r).evq = s.evq := by
  unfold setRes; split <;> simp

/-- Only the program counter (and perhaps other things which do not matter) changes, within the call. -/
theorem Uniq.move {s s' : S} (h : Uniq s) (hc : s'.callers = s.callers) (hf : s'.flying = s.flying)
    (he : s'.exe = s.exe) (hst : s'.stale = s.stale) (hi : s'.pc ≠ .idle)
    (hd : ∀ r, s'.pc ≠ .done r) (hs : ∀ r, s.pc ≠ .done r)
    (hev : (s'.pc = .top ∨ ∃ t, s'.pc = .wait t) → s'.exe = true → 0 < s'.evq) : Uniq s' := by
  have hp : places s' = places s := by simp [places, hc, hf, he, hst]
  constructor
  · rw [hp]; exact h.one
  · intro h1; exact absurd h1 hi
  · intro r h1; exact absurd h1 (hd r)
  · intro h1; rw [hst] at h1; obtain ⟨r, hr⟩ := h.live h1; exact absurd hr (hs r)
  · exact hev

theorem Uniq.step {s s' : S} {a : Act} (h : Uniq s) (hs : step s a = some s') : Uniq s' := by
  cases a with
  | call ok acc =>
    simp only [SyncExec.step] at hs
    split at hs
    · rename_i hpc
      cases hs
      have h0 := h.idle hpc
      have hst : s.stale = false := by cases hx : s.stale <;> simp [places, hx] at h0 ⊢
      have hex : s.exe = false := by cases hx : s.exe <;> simp [places, hx] at h0 ⊢
      have hcc : s.callers.count .me = 0 := by simp only [places] at h0; omega
      have hff : s.flying.count (.holds .me) = 0 := by simp only [places] at h0; omega
      unfold call
      cases ok with
      | true =>
        constructor
        · simp [places, hst, hex, List.count_append, hcc, hff]
        · intro h1; simp at h1
        · intro r h1; simp at h1
        · intro h1; simp [hst] at h1
        · intro _ h1; simp [hex] at h1
      | false =>
        simp only [Bool.false_eq_true, if_false]
        let u : S := setRes { s with callers := s.callers ++ [Who.me], pc := .proc } 0
        have hu := setRes_frame { s with callers := s.callers ++ [Who.me], pc := .proc } 0
        have hc := replyAll_count acc (s.callers ++ [Who.me]).reverse u (by exact hu.2.2.1) (by rw [hu.2.2.2.2.2.1]; exact hex)
          (by rw [hu.2.2.2.2.2.2.1]; exact hst)
        have hf := replyAll_frame acc (s.callers ++ [Who.me]).reverse u
        have hfl : (replyAll acc u (s.callers ++ [Who.me]).reverse).flying = s.flying := by rw [hf.1, hu.2.1]
        rw [List.count_reverse, List.count_append, hcc] at hc
        constructor
        · show (replyAll acc u (s.callers ++ [Who.me]).reverse).callers.count .me +
            (replyAll acc u (s.callers ++ [Who.me]).reverse).flying.count (.holds .me) +
            (replyAll acc u (s.callers ++ [Who.me]).reverse).exe.toNat +
            (replyAll acc u (s.callers ++ [Who.me]).reverse).stale.toNat ≤ 1
          rw [hfl, hff, hc.2]
          have := hc.1
          simp at this ⊢
          omega
        · intro h1; simp at h1
        · intro r h1; simp at h1
        · intro h1
          have h2 : (replyAll acc u (s.callers ++ [Who.me]).reverse).stale = true := h1
          rw [hc.2] at h2; cases h2
        · intro h1; simp at h1
    · cases hs
  | loop halt =>
    simp only [SyncExec.step] at hs
    split at hs
    · rename_i hpc
      cases hs
      unfold loop
      dsimp only
      split
      · apply h.move <;> simp [hpc]
      · split
        · apply h.move <;> simp [hpc]
        · apply h.move <;> simp [hpc]
          intro he
          exact h.event (.inl hpc) he
    · cases hs
  | wake other =>
    simp only [SyncExec.step] at hs
    split at hs
    · rename_i till hpc
      split at hs
      · cases hs; apply h.move <;> simp [hpc]
      · split at hs
        · cases hs; apply h.move <;> simp [hpc]
        · split at hs
          · cases hs; apply h.move <;> simp [hpc]
          · cases hs
    · cases hs
  | eat =>
    simp only [SyncExec.step] at hs
    split at hs
    · rename_i hpc
      cases hs
      apply h.move <;> simp [hpc.1]
    · cases hs
  | throw =>
    simp only [SyncExec.step] at hs
    split at hs
    · rename_i hpc
      cases hs
      rcases hpc with hpc | hpc <;> (apply h.move <;> simp [hpc])
    · cases hs
  | check =>
    simp only [SyncExec.step] at hs
    split at hs
    · rename_i hpc
      cases hs
      cases he : s.exe <;> (apply h.move <;> simp [hpc, he])
    · cases hs
  | read =>
    simp only [SyncExec.step] at hs
    split at hs
    · rename_i r hpc
      cases hs
      apply h.move <;> simp [hpc]
    · cases hs
  | remove =>
    simp only [SyncExec.step] at hs
    have key : ∀ r, Uniq { s with pc := .done r, callers := s.callers.filter (· ≠ Who.me) } := by
      intro r
      have h1 := h.one
      constructor
      · simp only [places] at h1 ⊢
        rw [count_filter_me]
        omega
      · intro h2; simp at h2
      · intro r' _; exact me_not_filter _
      · intro _; exact ⟨r, rfl⟩
      · intro h2; simp at h2
    split at hs
    · cases hs; exact key _
    · cases hs; exact key _
    · cases hs
  | tick n =>
    simp only [SyncExec.step] at hs; cases hs
    exact ⟨h.one, h.idle, h.gone, h.live, h.event⟩
  | add n =>
    simp only [SyncExec.step] at hs; cases hs
    have hp : places { s with callers := s.callers ++ [Who.other n] } = places s := by
      simp [places, List.count_append]
    refine ⟨by rw [hp]; exact h.one, fun h1 => by rw [hp]; exact h.idle h1, ?_, h.live, h.event⟩
    intro r h1
    have := h.gone r h1
    simp [this]
  | del n =>
    simp only [SyncExec.step] at hs; cases hs
    have hp : places { s with callers := s.callers.filter (· ≠ Who.other n) } = places s := by
      simp only [places]; rw [count_filter_other]
    refine ⟨by rw [hp]; exact h.one, fun h1 => by rw [hp]; exact h.idle h1, ?_, h.live, h.event⟩
    intro r h1 h2
    exact h.gone r h1 (List.mem_filter.mp h2).1
  | reply r =>
    simp only [SyncExec.step] at hs; cases hs
    obtain ⟨h1, h2, h3, h4, h5, h6, h7, h8⟩ := setRes_frame s r
    have hp : places { setRes s r with flying := (setRes s r).flying ++ [Fly.ready] } = places s := by
      simp [places, List.count_append, h1, h2, h6, h7]
    constructor
    · rw [hp]; exact h.one
    · intro hx; rw [hp]; exact h.idle (by simpa [h3] using hx)
    · intro q hx; simp only [h1]; exact h.gone q (by simpa [h3] using hx)
    · intro hx; simp only [h3]; exact h.live (by simpa [h7] using hx)
    · intro hx he; simp only [h8]; exact h.event (by simpa [h3] using hx) (by simpa [h6] using he)
  | pop i =>
    simp only [SyncExec.step] at hs
    split at hs
    · rename_i hf
      cases hl : s.callers.getLast? with
      | none =>
        rw [hl] at hs; cases hs
        have hcnt := count_erase_idx s.flying i .ready (.holds .me) hf
        have hp : places { s with flying := s.flying.eraseIdx i } = places s := by
          simp only [places]; simp at hcnt; omega
        exact ⟨by rw [hp]; exact h.one, fun h1 => by rw [hp]; exact h.idle h1, h.gone, h.live, h.event⟩
      | some w =>
        rw [hl] at hs; cases hs
        have hc := count_dropLast s.callers w hl .me
        have hp : places { s with flying := s.flying.set i (.holds w), callers := s.callers.dropLast } = places s := by
          simp only [places]
          cases w with
          | me =>
            have := count_set_le s.flying i .ready hf (.holds .me) (by simp)
            simp at hc
            omega
          | other n =>
            have := count_set_other s.flying i .ready (.holds (.other n)) (.holds .me) hf (by simp)
            simp at hc this
            omega
        refine ⟨by rw [hp]; exact h.one, fun h1 => by rw [hp]; exact h.idle h1, ?_, h.live, h.event⟩
        intro r h1 h2
        exact h.gone r h1 (List.dropLast_subset _ h2)
    · cases hs
  | inform i acc =>
    simp only [SyncExec.step] at hs
    split at hs
    · rename_i w hf
      have hcnt := count_erase_idx s.flying i (.holds w) (.holds .me) hf
      have h1 := h.one
      split at hs
      · cases hs
        cases w with
        | other n =>
          simp at hcnt
          have hp : places { s with flying := s.flying.eraseIdx i } = places s := by simp only [places]; omega
          simp only [inform]
          exact ⟨by rw [hp]; exact h.one, fun h1 => by rw [hp]; exact h.idle h1, h.gone, h.live, h.event⟩
        | me =>
          simp at hcnt
          simp only [places] at h1
          have hex : s.exe.toNat = 0 := by omega
          have hst : s.stale.toNat = 0 := by omega
          have hnid : s.pc ≠ .idle := by
            intro hx
            have := h.idle hx
            simp only [places] at this; omega
          have hcl : s.callers.count .me = 0 := by omega
          have hfe : (s.flying.eraseIdx i).count (.holds .me) = 0 := by omega
          simp only [inform]
          split
          · rename_i r hpc
            have hpc' : s.pc = .done r := hpc
            refine ⟨?_, ?_, ?_, ?_, ?_⟩
            · simp only [places]; rw [hcl, hfe, hex]; simp
            · intro hx; exact absurd hx hnid
            · exact h.gone
            · intro _; exact ⟨r, hpc⟩
            · intro hx; rw [show _ = _ from hpc] at hx; simp at hx
          · rename_i hnd
            refine ⟨?_, ?_, ?_, ?_, ?_⟩
            · simp only [places]; rw [hcl, hfe, hst]; simp
            · intro hx; exact absurd hx hnid
            · exact h.gone
            · exact h.live
            · intro _ _; simp
      · cases hs
        have hc2 := count_set_other s.flying i (.holds w) .ready (.holds .me) hf (by simp)
        have hp : places { s with flying := s.flying.set i .ready } ≤ places s := by
          simp only [places]; omega
        exact ⟨by omega, fun hx => by have := h.idle hx; omega, h.gone, h.live, h.event⟩
    · cases hs

end Verif.SyncExec
