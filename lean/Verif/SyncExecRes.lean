import Verif.SyncExecInv

/-!
# Where the result of a synchronous call comes from
-/

namespace Verif.SyncExec

/-- `r` was the answer at some moment after the first reply. -/
def Given (old : Int) (h : List Act) (r : Int) : Prop :=
  ∃ p, p <+: h ∧ replies p ≠ [] ∧ r = answer old (replies p)

theorem Given.mono {old : Int} {h : List Act} {r : Int} (a : List Act) (g : Given old h r) : Given old (h ++ a) r := by
  obtain ⟨p, hp, h1, h2⟩ := g
  exact ⟨p, hp.trans (List.prefix_append h a), h1, h2⟩

/-- The command has a timeout and it is over, with the extra time. -/
def Late (s : S) : Prop := ∃ d, s.deadline = some d ∧ d + 500 ≤ s.now

/-- Nothing can end the call before the answer. -/
def Quiet (s : S) (h : List Act) : Prop := Calm h ∧ Act.loop true ∉ h ∧ s.deadline = none

structure Res (old : Int) (h : List Act) (s : S) : Prop where
  refused : ¬ Accepted h → s.pc = .rem 0 ∨ s.pc = .done 0
  result : Accepted h → s.result.getD 0 = answer old (replies h)
  flying : s.flying ≠ [] → replies h ≠ []
  exe : Accepted h → s.exe = true → replies h ≠ []
  brk : ∀ r, s.pc = .brk r → r = 0 ∨ (r = -1 ∧ Late s)
  fin : ∀ r, s.pc = .rem r ∨ s.pc = .done r → r = 0 ∨ (r = -1 ∧ Late s) ∨ Given old h r
  quietBrk : ∀ r, Quiet s h → s.pc = .brk r → s.exe = true
  quietFin : ∀ r, Accepted h → Quiet s h → s.pc = .rem r ∨ s.pc = .done r → Given old h r
  thrown : s.pc = .thrown → ¬ Calm h

theorem accepted_snoc {h : List Act} {a : Act} : Accepted (h ++ [a]) ↔ Accepted h ∧ ∀ acc, a ≠ .call false acc := by
  constructor
  · intro hx
    exact ⟨fun acc hm => hx acc (by simp [hm]), fun acc he => hx acc (by simp [he])⟩
  · rintro ⟨h1, h2⟩ acc hm
    rcases List.mem_append.mp hm with hm | hm
    · exact h1 acc hm
    · simp at hm; exact h2 acc hm.symm

theorem calm_snoc {h : List Act} {a : Act} : Calm (h ++ [a]) ↔ Calm h ∧ a ≠ .throw := by
  unfold Calm
  simp only [List.mem_append, List.mem_singleton, not_or]
  constructor
  · rintro ⟨h1, h2⟩; exact ⟨h1, fun h => h2 h.symm⟩
  · rintro ⟨h1, h2⟩; exact ⟨h1, fun h => h2 h.symm⟩

theorem Quiet.left {s s' : S} {h : List Act} {a : Act} (q : Quiet s' (h ++ [a])) (hd : s'.deadline = s.deadline) :
    Quiet s h ∧ a ≠ .throw ∧ a ≠ .loop true := by
  obtain ⟨q1, q2, q3⟩ := q
  rw [calm_snoc] at q1
  simp only [List.mem_append, List.mem_singleton, not_or] at q2
  exact ⟨⟨q1.1, q2.1, hd ▸ q3⟩, q1.2, fun h => q2.2 h.symm⟩

theorem Res.start (others : List Nat) (result deadline : Option Int) (now : Int) :
    Res (result.getD 0) [] (SyncExec.start others result deadline now) := by
  constructor <;> simp [SyncExec.start, Accepted, replies, answer]

theorem Late.mono {s s' : S} (h : Late s) (hd : s'.deadline = s.deadline) (hn : s.now ≤ s'.now) : Late s' := by
  obtain ⟨d, h1, h2⟩ := h
  exact ⟨d, hd ▸ h1, by omega⟩

/-- A step which is neither `call` nor `reply` and ends in a place `brk`, `rem`, `done`, `thrown` only as described. -/
theorem Res.keep {old : Int} {h : List Act} {s s' : S} {a : Act} (x : Res old h s)
    (ha : ∀ ok acc, a ≠ .call ok acc) (hr : ∀ r, a ≠ .reply r)
    (hres : s'.result = s.result) (hd : s'.deadline = s.deadline) (hn : s.now ≤ s'.now)
    (hfl : s'.flying ≠ [] → s.flying ≠ []) (hex : s'.exe = true → s.exe = true ∨ s.flying ≠ [])
    (href : s.pc = .rem 0 ∨ s.pc = .done 0 → s'.pc = .rem 0 ∨ s'.pc = .done 0)
    (hbrk : ∀ r, s'.pc = .brk r → (r = 0 ∨ (r = -1 ∧ Late s')) ∧ (Quiet s' (h ++ [a]) → s'.exe = true))
    (hfin : ∀ r, s'.pc = .rem r ∨ s'.pc = .done r →
      (r = 0 ∨ (r = -1 ∧ Late s') ∨ Given old (h ++ [a]) r) ∧
      (Accepted h → Quiet s' (h ++ [a]) → Given old (h ++ [a]) r))
    (hth : s'.pc = .thrown → ¬ Calm (h ++ [a])) : Res old (h ++ [a]) s' := by
  have hrep : replies (h ++ [a]) = replies h := by
    rw [replies_append]; cases a <;> simp_all [replies]
  have hacc : Accepted (h ++ [a]) ↔ Accepted h := by
    rw [accepted_snoc]
    exact ⟨fun z => z.1, fun z => ⟨z, fun acc => ha false acc⟩⟩
  constructor
  · intro h1; rw [hacc] at h1; exact href (x.refused h1)
  · intro h1; rw [hacc] at h1; rw [hres, hrep]; exact x.result h1
  · intro h1; rw [hrep]; exact x.flying (hfl h1)
  · intro h1 h2
    rw [hacc] at h1; rw [hrep]
    rcases hex h2 with h3 | h3
    · exact x.exe h1 h3
    · exact x.flying h3
  · intro r h1; exact (hbrk r h1).1
  · intro r h1; exact (hfin r h1).1
  · intro r h1 h2; exact (hbrk r h2).2 h1
  · intro r h1 h2 h3; rw [hacc] at h1; exact (hfin r h3).2 h1 h2
  · exact hth

/-- A step which leaves the place in the call as it is. -/
theorem Res.idle {old : Int} {h : List Act} {s s' : S} {a : Act} (x : Res old h s)
    (ha : ∀ ok acc, a ≠ .call ok acc) (hr : ∀ r, a ≠ .reply r)
    (hres : s'.result = s.result) (hd : s'.deadline = s.deadline) (hn : s.now ≤ s'.now) (hpc : s'.pc = s.pc)
    (hfl : s'.flying ≠ [] → s.flying ≠ []) (hex : s'.exe = true → s.exe = true ∨ s.flying ≠ [])
    (hex2 : s.exe = true → s'.exe = true) : Res old (h ++ [a]) s' := by
  have hrep : replies (h ++ [a]) = replies h := by
    rw [replies_append]; cases a <;> simp_all [replies]
  refine x.keep ha hr hres hd hn hfl hex ?_ ?_ ?_ ?_
  · rw [hpc]; exact id
  · intro r h1; rw [hpc] at h1
    refine ⟨(x.brk r h1).imp id (fun z => ⟨z.1, z.2.mono hd hn⟩), fun q => ?_⟩
    exact hex2 (x.quietBrk r (q.left hd).1 h1)
  · intro r h1; rw [hpc] at h1
    refine ⟨?_, fun h2 q => (x.quietFin r h2 (q.left hd).1 h1).mono _⟩
    rcases x.fin r h1 with h2 | h2 | h2
    · exact .inl h2
    · exact .inr (.inl ⟨h2.1, h2.2.mono hd hn⟩)
    · exact .inr (.inr (h2.mono _))
  · intro h1; rw [hpc] at h1
    intro hc; rw [calm_snoc] at hc
    exact x.thrown h1 hc.1

theorem timeTill_zero {s : S} (h : timeTill s = 0) : Late s := by
  unfold timeTill at h
  cases hd : s.deadline with
  | none => rw [hd] at h; simp at h
  | some d =>
    rw [hd] at h
    simp only at h
    split at h
    · exact ⟨d, hd, by omega⟩
    · exact ⟨d, hd, by omega⟩

theorem Res.step {old : Int} {h : List Act} {s s' : S} {a : Act} (x : Res old h s) (hs : step s a = some s') :
    Res old (h ++ [a]) s' := by
  cases a with
  | call ok acc =>
    simp only [SyncExec.step] at hs
    split at hs
    · rename_i hpc
      cases hs
      have hA : Accepted h := by
        apply Classical.byContradiction
        intro hx; rcases x.refused hx with h1 | h1 <;> rw [hpc] at h1 <;> cases h1
      have hrep : replies (h ++ [Act.call ok acc]) = replies h := by rw [replies_append]; simp [replies]
      unfold call
      cases ok with
      | true =>
        simp only [if_true]
        constructor
        · intro h1; exact absurd (accepted_snoc.mpr ⟨hA, by simp⟩) h1
        · intro _; rw [hrep]; exact x.result hA
        · intro h1; rw [hrep]; exact x.flying h1
        · intro _ h1; rw [hrep]; exact x.exe hA h1
        · intro r h1; simp at h1
        · intro r h1; simp at h1
        · intro r _ h1; simp at h1
        · intro r _ _ h1; simp at h1
        · intro h1; simp at h1
      | false =>
        simp only [Bool.false_eq_true, if_false]
        have hN : ¬ Accepted (h ++ [Act.call false acc]) := fun hx => (accepted_snoc.mp hx).2 acc rfl
        have hf := replyAll_frame acc (s.callers ++ [Who.me]).reverse
          (setRes { s with callers := s.callers ++ [Who.me], pc := .proc } 0)
        constructor
        · intro _; exact .inl rfl
        · intro h1; exact absurd h1 hN
        · intro h1; rw [hrep]
          apply x.flying
          have : (replyAll acc (setRes { s with callers := s.callers ++ [Who.me], pc := .proc } 0)
            (s.callers ++ [Who.me]).reverse).flying ≠ [] := h1
          rw [hf.1, (setRes_frame _ _).2.1] at this
          exact this
        · intro h1; exact absurd h1 hN
        · intro r h1; simp at h1
        · intro r h1; simp at h1; exact .inl h1.symm
        · intro r _ h1; simp at h1
        · intro r h1; exact absurd h1 hN
        · intro h1; simp at h1
    · cases hs
  | loop halt =>
    simp only [SyncExec.step] at hs
    split at hs
    · rename_i hpc
      cases hs
      unfold loop
      dsimp only
      split
      · rename_i h0
        have hl := timeTill_zero h0
        refine x.keep (by simp) (by simp) rfl rfl (by simp) id .inl ?_ ?_ ?_ ?_
        · intro h1; rw [hpc] at h1; simp at h1
        · intro r h1
          simp at h1
          refine ⟨.inr ⟨h1.symm, hl⟩, fun q => ?_⟩
          obtain ⟨d, hd, _⟩ := hl
          have := q.2.2
          simp [hd] at this
        · intro r h1; simp at h1
        · intro h1; simp at h1
      · split
        · rename_i hh
          refine x.keep (by simp) (by simp) rfl rfl (by simp) id .inl ?_ ?_ ?_ ?_
          · intro h1; rw [hpc] at h1; simp at h1
          · intro r h1
            simp at h1
            refine ⟨.inl h1.symm, fun q => ?_⟩
            have := (q.left (s := s) rfl).2.2
            rw [hh] at this
            exact absurd rfl this
          · intro r h1; simp at h1
          · intro h1; simp at h1
        · refine x.keep (by simp) (by simp) rfl rfl (by simp) id .inl ?_ ?_ ?_ ?_
          · intro h1; rw [hpc] at h1; simp at h1
          · intro r h1; simp at h1
          · intro r h1; simp at h1
          · intro h1; simp at h1
    · cases hs
  | wake other =>
    have key : ∀ (s'' : S) till, s.pc = .wait till → s''.result = s.result → s''.deadline = s.deadline → s''.now = s.now →
        s''.flying = s.flying → s''.exe = s.exe → s''.pc = .proc → Res old (h ++ [Act.wake other]) s'' := by
      intro s'' till hpc h1 h2 h3 h4 h5 h6
      refine x.keep (by simp) (by simp) h1 h2 (by omega) (by rw [h4]; exact id) (by rw [h5]; exact .inl) ?_ ?_ ?_ ?_
      · intro h1; rw [hpc] at h1; simp at h1
      · intro r h1; simp [h6] at h1
      · intro r h1; simp [h6] at h1
      · intro h1; simp [h6] at h1
    simp only [SyncExec.step] at hs
    split at hs
    · rename_i till hpc
      split at hs
      · cases hs; exact key _ till hpc rfl rfl rfl rfl rfl rfl
      · split at hs
        · cases hs; exact key _ till hpc rfl rfl rfl rfl rfl rfl
        · split at hs
          · cases hs; exact key _ till hpc rfl rfl rfl rfl rfl rfl
          · cases hs
    · cases hs
  | eat =>
    simp only [SyncExec.step] at hs
    split at hs
    · cases hs
      exact x.idle (by simp) (by simp) rfl rfl (by simp) rfl id .inl id
    · cases hs
  | throw =>
    simp only [SyncExec.step] at hs
    split at hs
    · rename_i hpc
      cases hs
      refine x.keep (by simp) (by simp) rfl rfl (by simp) id .inl ?_ ?_ ?_ ?_
      · intro h1; rcases hpc with hpc | hpc <;> rw [hpc] at h1 <;> simp at h1
      · intro r h1; simp at h1
      · intro r h1; simp at h1
      · intro _ hc; rw [calm_snoc] at hc; exact hc.2 rfl
    · cases hs
  | check =>
    simp only [SyncExec.step] at hs
    split at hs
    · rename_i hpc
      cases hs
      cases he : s.exe
      · refine x.keep (by simp) (by simp) rfl rfl (by simp) id (by intro hq; cases hq) ?_ ?_ ?_ ?_
        · intro h1; rw [hpc] at h1; simp at h1
        · intro r h1; simp at h1
        · intro r h1; simp at h1
        · intro h1; simp at h1
      · refine x.keep (by simp) (by simp) rfl rfl (by simp) id (fun _ => .inl he) ?_ ?_ ?_ ?_
        · intro h1; rw [hpc] at h1; simp at h1
        · intro r h1
          simp at h1
          exact ⟨.inl h1.symm, fun _ => rfl⟩
        · intro r h1; simp at h1
        · intro h1; simp at h1
    · cases hs
  | read =>
    simp only [SyncExec.step] at hs
    split at hs
    · rename_i res hpc
      cases hs
      have hA : Accepted h := by
        apply Classical.byContradiction
        intro hx; rcases x.refused hx with h1 | h1 <;> rw [hpc] at h1 <;> cases h1
      have hg : s.exe = true → Given old (h ++ [Act.read]) (getResult s) := by
        intro he
        exact ⟨h, List.prefix_append h _, x.exe hA he, x.result hA⟩
      refine x.keep (by simp) (by simp) rfl rfl (by simp) id .inl ?_ ?_ ?_ ?_
      · intro h1; rw [hpc] at h1; simp at h1
      · intro r h1; simp at h1
      · intro r h1
        simp at h1
        cases he : s.exe with
        | true =>
          rw [he] at h1; simp at h1
          subst h1
          exact ⟨.inr (.inr (hg he)), fun _ _ => hg he⟩
        | false =>
          rw [he] at h1; simp at h1
          subst h1
          refine ⟨(x.brk res hpc).imp id .inl, fun _ q => ?_⟩
          have := x.quietBrk res (q.left (s := s) rfl).1 hpc
          rw [he] at this; cases this
      · intro h1; simp at h1
    · cases hs
  | remove =>
    simp only [SyncExec.step] at hs
    split at hs
    · rename_i res hpc
      cases hs
      refine x.keep (by simp) (by simp) rfl rfl (by simp) id .inl ?_ ?_ ?_ ?_
      · intro h1; rw [hpc] at h1; simp at h1; subst h1; exact .inr rfl
      · intro r h1; simp at h1
      · intro r h1
        simp at h1
        subst h1
        refine ⟨?_, fun h2 q => (x.quietFin res h2 (q.left (s := s) rfl).1 (.inl hpc)).mono _⟩
        rcases x.fin res (.inl hpc) with h2 | h2 | h2
        · exact .inl h2
        · exact .inr (.inl ⟨h2.1, h2.2.mono rfl (by simp)⟩)
        · exact .inr (.inr (h2.mono _))
      · intro h1; simp at h1
    · rename_i hpc
      cases hs
      refine x.keep (by simp) (by simp) rfl rfl (by simp) id .inl ?_ ?_ ?_ ?_
      · intro h1; rw [hpc] at h1; simp at h1
      · intro r h1; simp at h1
      · intro r h1
        simp at h1
        refine ⟨.inl h1.symm, fun h2 q => ?_⟩
        exact absurd (q.left (s := s) rfl).1.1 (x.thrown hpc)
      · intro h1; simp at h1
    · cases hs
  | tick n =>
    simp only [SyncExec.step] at hs; cases hs
    exact x.idle (by simp) (by simp) rfl rfl (by show s.now ≤ s.now + n; omega) rfl id .inl id
  | add n =>
    simp only [SyncExec.step] at hs; cases hs
    exact x.idle (by simp) (by simp) rfl rfl (by simp) rfl id .inl id
  | del n =>
    simp only [SyncExec.step] at hs; cases hs
    exact x.idle (by simp) (by simp) rfl rfl (by simp) rfl id .inl id
  | reply r =>
    simp only [SyncExec.step] at hs; cases hs
    obtain ⟨h1, h2, h3, h4, h5, h6, h7, h8⟩ := setRes_frame s r
    have hrep : replies (h ++ [Act.reply r]) = replies h ++ [r] := by rw [replies_append]; simp [replies]
    have hacc : Accepted (h ++ [Act.reply r]) ↔ Accepted h := by
      rw [accepted_snoc]; exact ⟨fun z => z.1, fun z => ⟨z, by simp⟩⟩
    have hq : ∀ q : Quiet { setRes s r with flying := (setRes s r).flying ++ [Fly.ready] } (h ++ [Act.reply r]), Quiet s h :=
      fun q => (q.left h4).1
    have hlate : Late s → Late { setRes s r with flying := (setRes s r).flying ++ [Fly.ready] } :=
      fun l => l.mono h4 (by rw [show _ = _ from h5]; simp)
    constructor
    · intro h9; rw [hacc] at h9; simp only [h3]; exact x.refused h9
    · intro h9; rw [hacc] at h9
      rw [hrep, answer_append, ← x.result h9]
      simp only [answer, setRes]
      by_cases hr : r ≥ 0
      · simp [hr]
      · have : ¬ 0 ≤ r := hr
        simp [this]
    · intro _; rw [hrep]; simp
    · intro _ _; rw [hrep]; simp
    · intro q h9; simp only [h3] at h9
      exact (x.brk q h9).imp id fun z => ⟨z.1, hlate z.2⟩
    · intro q h9; simp only [h3] at h9
      rcases x.fin q h9 with h10 | h10 | h10
      · exact .inl h10
      · exact .inr (.inl ⟨h10.1, hlate h10.2⟩)
      · exact .inr (.inr (h10.mono _))
    · intro q h9 h10; simp only [h3] at h10; simp only [h6]
      exact x.quietBrk q (hq h9) h10
    · intro q h9 h10 h11
      rw [hacc] at h9; simp only [h3] at h11
      exact (x.quietFin q h9 (hq h10) h11).mono _
    · intro h9; simp only [h3] at h9
      intro hc; rw [calm_snoc] at hc; exact x.thrown h9 hc.1
  | pop i =>
    simp only [SyncExec.step] at hs
    split at hs
    · rename_i hf
      have hne : s.flying ≠ [] := by rintro h0; rw [h0] at hf; simp at hf
      split at hs <;> cases hs <;>
        exact x.idle (by simp) (by simp) rfl rfl (by simp) rfl (fun _ => hne) .inl id
    · cases hs
  | inform i acc =>
    simp only [SyncExec.step] at hs
    split at hs
    · rename_i w hf
      have hne : s.flying ≠ [] := by rintro h0; rw [h0] at hf; simp at hf
      split at hs
      · cases hs
        cases w with
        | other n => exact x.idle (by simp) (by simp) rfl rfl (by simp [inform]) rfl (fun _ => hne) .inl id
        | me =>
          simp only [inform]
          split
          · exact x.idle (by simp) (by simp) rfl rfl (by simp) rfl (fun _ => hne) .inl id
          · exact x.idle (by simp) (by simp) rfl rfl (by simp) rfl (fun _ => hne) (fun _ => .inr hne) (fun _ => rfl)
      · cases hs
        exact x.idle (by simp) (by simp) rfl rfl (by simp) rfl (fun _ => hne) .inl id
    · cases hs

theorem res_of_run {others : List Nat} {result deadline : Option Int} {now : Int} {as : List Act} {s : S}
    (h : run (SyncExec.start others result deadline now) as = some s) : Res (result.getD 0) as s := by
  have := run_induct (Res (result.getD 0)) (fun _ _ _ _ => Res.step) as [] _ s (Res.start others result deadline now) h
  simpa using this

theorem uniq_of_run {s t : S} {as : List Act} (hu : Uniq s) (h : run s as = some t) : Uniq t :=
  run_induct (fun _ s => Uniq s) (fun _ _ _ _ => Uniq.step) as [] s t hu h

end Verif.SyncExec
