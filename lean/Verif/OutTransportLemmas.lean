import Verif.Spec.OutTransport
import Mathlib.Data.List.Induction

namespace Verif.OutTransport

open Spec

theorem run_snoc (b : Bool) (l : List Ev) (e : Ev) :
    Spec.run b (l ++ [e]) = (Spec.run b l).bind fun p => next b p e := by
  simp only [Spec.run, List.foldl_append, List.foldl_cons, List.foldl_nil]

theorem run_note {b : Bool} {l : List Ev} {p q : P} {e : Ev} (h : Spec.run b l = some p)
    (hq : next b p e = some q) : Spec.run b (l ++ [e]) = some q := by
  rw [run_snoc, h]; exact hq

theorem consumed_append (l k : List Ev) : consumed (l ++ k) = consumed l ++ consumed k := by
  unfold consumed; rw [List.filterMap_append]

/-! ## Frame facts -/

section frame
variable (s : S) (st : St)

@[simp] theorem change_st : (change s st).st = st := by
  unfold change halt; split
  · split <;> rfl
  · rfl
@[simp] theorem change_out : (change s st).out = s.out := by
  unfold change halt; split
  · split <;> rfl
  · rfl
@[simp] theorem change_queue : (change s st).queue = s.queue := by
  unfold change halt; split
  · split <;> rfl
  · rfl
@[simp] theorem change_log : (change s st).log = s.log := by
  unfold change halt; split
  · split <;> rfl
  · rfl
@[simp] theorem change_opened : (change s st).opened = s.opened := by
  unfold change halt; split
  · split <;> rfl
  · rfl
@[simp] theorem change_pend : (change s st).pend = s.pend := by
  unfold change halt; split
  · split <;> rfl
  · rfl
end frame

/-- What the transport remembers fits to the point where the conversation
stands. -/
def Rel : St → P → Prop
  | .ready, p => p = .idle
  | .initTimeout, p => p = .timed
  | .waitCallback, p => p = .asked
  | .startWriting, p => p = .checked
  | .waitFinish, p => p = .writing
  | .finishWriting, p => p = .written
  | .error, p => p = .failed
  | .closing, p => p = .closing
  | .closed, _ => False
  | .retry, p => p = .paused

/-- Invariant while the transport is there. -/
structure Good (c : Cfg) (s : S) : Prop where
  out : s.out = true
  opened : s.opened = true
  log : ∃ p, Spec.run c.retry s.log = some p ∧ Rel s.st p

/-- Invariant after the transport was closed. -/
structure Shut (c : Cfg) (s : S) : Prop where
  out : s.out = false
  opened : s.opened = false
  log : Spec.run c.retry s.log = some .gone

theorem Good.congr {c : Cfg} {s s' : S} (h : Good c s) (h1 : s'.out = s.out)
    (h2 : s'.opened = s.opened) (h3 : s'.log = s.log) (h4 : s'.st = s.st) : Good c s' :=
  ⟨h1.trans h.out, h2.trans h.opened, by rw [h3, h4]; exact h.log⟩

theorem Good.chg {c : Cfg} {s : S} {st : St} {p : P} (ho : s.out = true) (hop : s.opened = true)
    (hr : Spec.run c.retry s.log = some p) (h : Rel st p) : Good c (change s st) :=
  ⟨by rw [change_out]; exact ho, by rw [change_opened]; exact hop, p,
    by rw [change_log]; exact hr, by rw [change_st]; exact h⟩

theorem Good.runs {c : Cfg} {s : S} (h : Good c s) {st : St} {q : P} (hst : s.st = st)
    (hq : ∀ p, Rel st p → p = q) : Spec.run c.retry s.log = some q := by
  obtain ⟨p, hp, hr⟩ := h.log
  rw [hst] at hr
  rw [hp, hq p hr]

/-- Facts on running, stopping and the timer. -/
structure Aux (s : S) : Prop where
  timer : s.run = true → s.st = .initTimeout → s.timer = true
  halted : s.run = false → suitable s.st = true ∨ s.st = .retry

theorem Aux.congr {s s' : S} (h : Aux s) (h1 : s'.st = s.st) (h2 : s'.run = s.run)
    (h3 : s'.timer = s.timer) : Aux s' := by
  obtain ⟨a, b⟩ := h
  constructor
  · rw [h1, h2, h3]; exact a
  · rw [h1, h2]; exact b

theorem Aux.run_of {s : S} (h : Aux s) (h1 : suitable s.st = false) (h2 : s.st ≠ .retry) : s.run = true := by
  cases hr : s.run with
  | true => rfl
  | false =>
    rcases h.halted hr with hx | hx
    · rw [h1] at hx; exact absurd hx (by simp)
    · exact absurd hx h2

theorem Aux.chg {s : S} {st : St} (h1 : st ≠ .initTimeout)
    (hx : suitable st = true ∨ st = .retry ∨ s.run = true) : Aux (change s st) := by
  constructor
  · intro _ h; rw [change_st] at h; exact absurd h h1
  · rw [change_st]
    unfold change
    split
    · rename_i hs
      rw [Bool.and_eq_true] at hs
      exact fun _ => Or.inl hs.2
    · intro hr
      rcases hx with hx | hx | hx
      · exact Or.inl hx
      · exact Or.inr hx
      · exact absurd (hr.symm.trans hx) (by simp)

/-- The whole invariant; `A` is what arrived. -/
structure Mid (c : Cfg) (A : List Item) (s : S) : Prop where
  good : Good c s
  aux : Aux s
  cons : consumed s.log ++ s.queue = A

/-- States which may be seen between operations. -/
def Rest : St → Prop
  | .ready | .initTimeout | .waitCallback | .waitFinish | .retry => True
  | _ => False

/-- What holds when `ProcessRecv` returns. -/
def Done (c : Cfg) (A : List Item) (s : S) (b : Bool) : Prop :=
  (Shut c s ∧ consumed s.log ++ s.queue = A ∧ b = false) ∨
  (Mid c A s ∧ Rest s.st ∧ (b = false → s.st ≠ .ready))

def Part (c : Cfg) (A : List Item) (r : R) (Q : S → Prop) : Prop :=
  match r with
  | (s, some b) => Done c A s b
  | (s, none) => Mid c A s ∧ Q s

theorem part_then {c : Cfg} {A : List Item} {r : R} {Q Q' : S → Prop} {f : S → R}
    (h : Part c A r Q) (hf : ∀ s, Mid c A s → Q s → Part c A (f s) Q') :
    Part c A (andThen r f) Q' := by
  unfold andThen
  match r, h with
  | (s, some b), h => exact h
  | (s, none), h => exact hf s h.1 h.2

/-- Changing the state after an event was noted. -/
theorem Mid.go {c : Cfg} {A : List Item} {s' : S} {st : St} (p : P)
    (ho : s'.out = true) (hop : s'.opened = true)
    (hr : Spec.run c.retry s'.log = some p) (hrel : Rel st p)
    (hc : consumed s'.log ++ s'.queue = A) (h1 : st ≠ .initTimeout)
    (hx : suitable st = true ∨ st = .retry ∨ s'.run = true) : Mid c A (change s' st) :=
  ⟨Good.chg ho hop hr hrel, Aux.chg h1 hx, by rw [change_log, change_queue]; exact hc⟩

theorem shut_quit {c : Cfg} {s : S} (h : Good c s) (st : St) :
    Shut c (closeTransport (quitOutput (change s st))) ∧
    consumed (closeTransport (quitOutput (change s st))).log = consumed s.log ∧
    (closeTransport (quitOutput (change s st))).queue = s.queue := by
  obtain ⟨p, hp, hrel⟩ := h.log
  have hq : quitNext p = some .leaving := by
    unfold Rel at hrel
    split at hrel <;> first | (subst hrel; rfl) | exact absurd hrel id
  unfold quitOutput
  rw [if_pos (by rw [change_out]; exact h.out)]
  unfold closeOutput
  rw [if_pos (show (note (change s st) .quit).out = true by show (change s st).out = true; rw [change_out]; exact h.out)]
  refine ⟨⟨rfl, rfl, ?_⟩, ?_, ?_⟩
  · show Spec.run c.retry ((((change s st).log) ++ [Ev.quit]) ++ [Ev.delete]) = some .gone
    rw [change_log]
    exact run_note (run_note hp hq) rfl
  · show consumed ((((change s st).log) ++ [Ev.quit]) ++ [Ev.delete]) = consumed s.log
    rw [change_log, consumed_append, consumed_append]; simp [consumed]
  · exact change_queue s st

theorem before_part {c : Cfg} {A : List Item} {a : Ans} {s : S} (h : Mid c A s) :
    Part c A (before a s) (fun s' => s' = s) := by
  unfold before
  rw [if_neg (show ¬ s.out = false by rw [h.good.out]; simp)]
  dsimp only
  split
  · obtain ⟨k1, k2, k3⟩ := shut_quit h.good .closed
    exact Or.inl ⟨k1, by rw [k2, k3]; exact h.cons, rfl⟩
  · exact ⟨h, rfl⟩

/-- After the check of the output. -/
def AfterReady (s : S) : Prop :=
  s.st ≠ .ready ∧ s.st ≠ .closed ∧ (s.st = .startWriting → ∃ b q, s.queue = .data b :: q)

theorem checkRes_part {c : Cfg} {A : List Item} {r : Code} {b : Nat} {q : List Item} {s : S}
    (h : Mid c A s) (hst : s.st = .ready) (hrun : s.run = true) (hq : s.queue = .data b :: q) :
    Part c A (checkRes r b q (note s (.check r))) AfterReady := by
  have hr : Spec.run c.retry (note s (.check r)).log = some (checkNext r) :=
    run_note (h.good.runs hst (q := .idle) (fun _ h => h)) rfl
  have hc : consumed (note s (.check r)).log ++ s.queue = A := by
    show consumed (s.log ++ [Ev.check r]) ++ s.queue = A
    rw [consumed_append]; simpa [consumed] using h.cons
  unfold checkRes
  cases r with
  | ok =>
    refine ⟨Mid.go _ h.good.out h.good.opened hr rfl hc (by simp) (Or.inr (Or.inr hrun)), ?_⟩
    unfold AfterReady
    rw [change_st, change_queue]
    exact ⟨by simp, by simp, fun _ => ⟨b, q, hq⟩⟩
  | again =>
    exact Or.inr ⟨⟨⟨h.good.out, h.good.opened, _, hr, by show Rel s.st _; rw [hst]; rfl⟩, h.aux.congr rfl rfl rfl, hc⟩, by show Rest s.st; rw [hst]; trivial, by simp⟩
  | againTimeOut =>
    refine Or.inr ⟨⟨(Good.chg (s := note s (.check .againTimeOut)) h.good.out h.good.opened hr (st := .initTimeout) rfl).congr rfl rfl rfl rfl, ⟨fun _ _ => rfl, fun hx => ?_⟩, ?_⟩, ?_, fun _ => ?_⟩
    · exfalso
      unfold shoot change at hx
      rw [if_neg (by simp [suitable])] at hx
      exact absurd (hx.symm.trans hrun) (by simp)
    · show consumed (change _ _).log ++ (change _ _).queue = A
      rw [change_log, change_queue]; exact hc
    · show Rest (change _ _).st
      rw [change_st]; trivial
    · show (change _ _).st ≠ _
      rw [change_st]; simp
  | callBack =>
    exact Or.inr ⟨Mid.go _ h.good.out h.good.opened hr rfl hc (by simp) (Or.inr (Or.inr hrun)), by rw [change_st]; trivial, fun _ => by rw [change_st]; simp⟩
  | skip =>
    refine Or.inr ⟨⟨⟨h.good.out, h.good.opened, .idle, run_note hr rfl, by show Rel s.st _; rw [hst]; rfl⟩, h.aux.congr rfl rfl rfl, ?_⟩, by show Rest s.st; rw [hst]; trivial, by simp⟩
    show consumed ((s.log ++ [Ev.check .skip]) ++ [Ev.drop b]) ++ q = A
    rw [← h.cons, hq, consumed_append, consumed_append]; simp [consumed]
  | close =>
    refine ⟨Mid.go _ h.good.out h.good.opened hr rfl hc (by simp) (Or.inr (Or.inr hrun)), ?_⟩
    unfold AfterReady; rw [change_st]; simp
  | error =>
    refine ⟨Mid.go _ h.good.out h.good.opened hr rfl hc (by simp) (Or.inr (Or.inr hrun)), ?_⟩
    unfold AfterReady; rw [change_st]; simp
  | other =>
    refine ⟨Mid.go _ h.good.out h.good.opened hr rfl hc (by simp) (Or.inr (Or.inr hrun)), ?_⟩
    unfold AfterReady; rw [change_st]; simp

theorem readyStage_part {c : Cfg} {A : List Item} {a : Ans} {s : S} (h : Mid c A s)
    (hcl : s.st = .finishWriting ∨ Rest s.st)
    (hq : s.st = .ready → s.queue ≠ [] ∧ s.run = true) :
    Part c A (readyStage a s) AfterReady := by
  unfold readyStage
  split
  · rename_i hst
    obtain ⟨hne, hrun⟩ := hq hst
    have hr0 := h.good.runs hst (q := .idle) (fun _ h => h)
    split
    · rename_i q hq
      refine ⟨Mid.go .closing h.good.out h.good.opened (run_note hr0 rfl) rfl ?_ (by simp) (Or.inr (Or.inr hrun)), ?_⟩
      · show consumed (s.log ++ [Ev.eof]) ++ q = A
        rw [← h.cons, hq, consumed_append]; simp [consumed]
      · unfold AfterReady; rw [change_st]; simp
    · rename_i q hq
      refine Or.inr ⟨⟨⟨h.good.out, h.good.opened, .idle, run_note hr0 rfl, by show Rel s.st _; rw [hst]; rfl⟩, h.aux.congr rfl rfl rfl, ?_⟩, by show Rest s.st; rw [hst]; trivial, by simp⟩
      show consumed (s.log ++ [Ev.flush]) ++ q = A
      rw [← h.cons, hq, consumed_append]; simp [consumed]
    · rename_i b q hq
      exact checkRes_part h hst hrun hq
    · rename_i hq; exact absurd hq hne
  · rename_i hst
    refine ⟨h, hst, ?_, ?_⟩
    · intro hx
      rw [hx] at hcl
      rcases hcl with hcl | hcl
      · exact absurd hcl (by simp)
      · exact hcl
    · intro hx
      rw [hx] at hcl
      rcases hcl with hcl | hcl
      · exact absurd hcl (by simp)
      · exact absurd hcl id

theorem waitStage_part {c : Cfg} {A : List Item} {s : S} (h : Mid c A s) (hq : AfterReady s) :
    Part c A (waitStage s) (fun s => AfterReady s ∧ s.st ≠ .initTimeout ∧ s.st ≠ .waitCallback) := by
  unfold waitStage
  split
  · rename_i hx
    refine Or.inr ⟨h, ?_, fun _ => hq.1⟩
    rcases hx with hx | hx <;> (rw [hx]; trivial)
  · rename_i hx
    exact ⟨h, hq, fun hy => hx (Or.inl hy), fun hy => hx (Or.inr hy)⟩

/-- After the writing was started. -/
def Late (st : St) : Prop :=
  st = .waitFinish ∨ st = .retry ∨ st = .finishWriting ∨ st = .closing ∨ st = .error

theorem writeRes_part {c : Cfg} {A : List Item} {b : Nat} {r : Code} {s : S}
    (ho : s.out = true) (hop : s.opened = true) (hrun : s.run = true)
    (hr : Spec.run c.retry s.log = some (writeNext r)) (hc : consumed s.log ++ s.queue = A) :
    Part c A (writeRes r s) (fun s => Late s.st) := by
  unfold writeRes
  cases r with
  | ok => exact ⟨Mid.go _ ho hop hr rfl hc (by simp) (Or.inr (Or.inr hrun)), by dsimp only; rw [change_st]; simp [Late]⟩
  | callBack => exact Or.inr ⟨Mid.go _ ho hop hr rfl hc (by simp) (Or.inr (Or.inr hrun)), by rw [change_st]; trivial, fun _ => by rw [change_st]; simp⟩
  | skip => exact Or.inr ⟨Mid.go _ ho hop hr rfl hc (by simp) (Or.inr (Or.inr hrun)), by rw [change_st]; trivial, by simp⟩
  | close => exact ⟨Mid.go _ ho hop hr rfl hc (by simp) (Or.inr (Or.inr hrun)), by dsimp only; rw [change_st]; simp [Late]⟩
  | again => exact ⟨Mid.go _ ho hop hr rfl hc (by simp) (Or.inr (Or.inr hrun)), by dsimp only; rw [change_st]; simp [Late]⟩
  | againTimeOut => exact ⟨Mid.go _ ho hop hr rfl hc (by simp) (Or.inr (Or.inr hrun)), by dsimp only; rw [change_st]; simp [Late]⟩
  | error => exact ⟨Mid.go _ ho hop hr rfl hc (by simp) (Or.inr (Or.inr hrun)), by dsimp only; rw [change_st]; simp [Late]⟩
  | other => exact ⟨Mid.go _ ho hop hr rfl hc (by simp) (Or.inr (Or.inr hrun)), by dsimp only; rw [change_st]; simp [Late]⟩

theorem startStage_part {c : Cfg} {A : List Item} {a : Ans} {s : S} (h : Mid c A s)
    (hq : AfterReady s ∧ s.st ≠ .initTimeout ∧ s.st ≠ .waitCallback) :
    Part c A (startStage a s) (fun s => Late s.st) := by
  unfold startStage
  obtain ⟨⟨h1, h2, h3⟩, h4, h5⟩ := hq
  split
  · rename_i hst
    obtain ⟨b, q, hqq⟩ := h3 hst
    rw [hqq]
    dsimp only
    refine writeRes_part (b := b) h.good.out h.good.opened (h.aux.run_of (by rw [hst]; rfl) (by rw [hst]; simp)) ?_ ?_
    · exact run_note (h.good.runs hst (q := .checked) (fun _ h => h)) rfl
    · show consumed (s.log ++ [Ev.write b a.write]) ++ q = A
      rw [← h.cons, hqq, consumed_append]; simp [consumed]
  · rename_i hst
    refine ⟨h, ?_⟩
    unfold Late
    cases hx : s.st <;> simp_all

theorem finishWait_part {c : Cfg} {A : List Item} {s : S} (h : Mid c A s) (hq : Late s.st) :
    Part c A (finishWait s) (fun s => Late s.st ∧ s.st ≠ .waitFinish) := by
  unfold finishWait
  split
  · rename_i hx
    exact Or.inr ⟨h, by rw [hx]; trivial, fun _ => by rw [hx]; simp⟩
  · rename_i hx
    exact ⟨h, hq, hx⟩

theorem finishStage_part {c : Cfg} {A : List Item} {a : Ans} {s : S} (h : Mid c A s)
    (hq : Late s.st ∧ s.st ≠ .waitFinish) :
    Part c A (finishStage a s)
      (fun s => s.st = .ready ∨ s.st = .retry ∨ s.st = .closing ∨ s.st = .error) := by
  unfold finishStage
  split
  · rename_i hst
    have hrun : s.run = true := h.aux.run_of (by rw [hst]; rfl) (by rw [hst]; simp)
    have hr : Spec.run c.retry (note s (.complete a.compl)).log = some (complNext a.compl) :=
      run_note (h.good.runs hst (q := .written) (fun _ h => h)) rfl
    have hc : consumed (note s (.complete a.compl)).log ++ s.queue = A := by
      show consumed (s.log ++ [Ev.complete a.compl]) ++ s.queue = A
      rw [consumed_append]; simpa [consumed] using h.cons
    unfold complRes
    cases hcc : a.compl <;> rw [hcc] at hr hc <;>
      exact ⟨Mid.go _ h.good.out h.good.opened hr rfl hc (by simp) (Or.inr (Or.inr hrun)), by dsimp only; rw [change_st]; simp⟩
  · rename_i hst
    refine ⟨h, ?_⟩
    obtain ⟨h1, h2⟩ := hq
    unfold Late at h1
    rcases h1 with h1 | h1 | h1 | h1 | h1
    · exact absurd h1 h2
    · exact Or.inr (Or.inl h1)
    · exact absurd h1 hst
    · exact Or.inr (Or.inr (Or.inl h1))
    · exact Or.inr (Or.inr (Or.inr h1))

/-- Closing the output. -/
theorem shut_close {c : Cfg} {s : S} (ho : s.out = true) (st : St) {p : P}
    (hp : Spec.run c.retry s.log = some p) (hd : deleteNext c.retry p = some .gone) :
    Shut c (closeTransport (closeOutput (change s st))) ∧
    consumed (closeTransport (closeOutput (change s st))).log = consumed s.log ∧
    (closeTransport (closeOutput (change s st))).queue = s.queue := by
  unfold closeOutput
  rw [if_pos (by rw [change_out]; exact ho)]
  refine ⟨⟨rfl, rfl, ?_⟩, ?_, change_queue s st⟩
  · show Spec.run c.retry ((change s st).log ++ [Ev.delete]) = some .gone
    rw [change_log]
    exact run_note hp hd
  · show consumed ((change s st).log ++ [Ev.delete]) = consumed s.log
    rw [change_log, consumed_append]; simp [consumed]

theorem shut_more {c : Cfg} {s : S} (h : Shut c s) (st : St) : Shut c (shoot (change s st)) :=
  ⟨by show (change s st).out = false; rw [change_out]; exact h.out,
   by show (change s st).opened = false; rw [change_opened]; exact h.opened,
   by show Spec.run _ (change s st).log = _; rw [change_log]; exact h.log⟩

/-- `CloseOnError` after an error. -/
theorem closeOnError_done {c : Cfg} {A : List Item} {r : Bool} {s : S} (ho : s.out = true)
    (hop : s.opened = true) (hf : Spec.run c.retry s.log = some .failed)
    (hc : consumed s.log ++ s.queue = A) : Done c A (closeOnError c r s) false := by
  unfold closeOnError noRetry
  split
  · rename_i hx
    dsimp only
    rw [if_pos rfl]
    obtain ⟨k1, k2, k3⟩ := shut_close (c := c) ho .closed hf (by rw [hx]; rfl)
    refine Or.inl ⟨shut_more k1 _, ?_, rfl⟩
    show consumed (change _ _).log ++ (change _ _).queue = A
    rw [change_log, change_queue, k2, k3]; exact hc
  · rename_i hx
    have hx : c.retry = true := by simpa using hx
    rw [if_neg (by rw [ho]; simp)]
    dsimp only
    have hc' : consumed (s.log ++ [Ev.retry r]) ++ s.queue = A := by
      rw [consumed_append]; simpa [consumed] using hc
    have hr : Spec.run c.retry (note s (.retry r)).log = some (if r then .paused else .closing) := by
      refine run_note hf ?_
      show (if P.failed = .failed ∧ c.retry = true then some (if r then P.paused else .closing) else none) = _
      rw [if_pos ⟨rfl, hx⟩]
    cases r with
    | false =>
      rw [if_pos (by rfl)]
      obtain ⟨k1, k2, k3⟩ := shut_close (c := c) (s := note s (.retry false)) ho .closed hr rfl
      refine Or.inl ⟨shut_more k1 _, ?_, rfl⟩
      show consumed (change _ _).log ++ (change _ _).queue = A
      rw [change_log, change_queue, k2, k3]; exact hc'
    | true =>
      rw [if_neg (by simp)]
      have hm : Mid c A (change (note s (.retry true)) .retry) :=
        Mid.go .paused ho hop hr rfl hc' (by simp) (Or.inr (Or.inl rfl))
      refine Or.inr ⟨⟨hm.good.congr rfl rfl rfl rfl, ⟨fun _ _ => rfl, fun _ => Or.inr ?_⟩, hm.cons⟩, ?_, fun _ => ?_⟩
      · show (change _ _).st = _; rw [change_st]
      · show Rest (change _ _).st; rw [change_st]; trivial
      · show (change _ _).st ≠ _; rw [change_st]; simp

theorem lastStage_part {c : Cfg} {A : List Item} {a : Ans} {s : S} (h : Mid c A s)
    (hq : s.st = .ready ∨ s.st = .retry ∨ s.st = .closing ∨ s.st = .error) :
    Part c A (lastStage c a s) (fun _ => False) := by
  unfold lastStage
  split
  · rename_i hst
    obtain ⟨k1, k2, k3⟩ := shut_close (c := c) h.good.out .closed (h.good.runs hst (q := .closing) (fun _ h => h)) rfl
    exact Or.inl ⟨k1, by rw [k2, k3]; exact h.cons, rfl⟩
  split
  · rename_i hst
    exact closeOnError_done h.good.out h.good.opened (h.good.runs hst (q := .failed) (fun _ h => h)) h.cons
  · rename_i h1 h2
    refine Or.inr ⟨h, ?_, by simp⟩
    rcases hq with hq | hq | hq | hq
    · rw [hq]; trivial
    · rw [hq]; trivial
    · exact absurd hq h1
    · exact absurd hq h2

theorem processRecv_part {c : Cfg} {A : List Item} {a : Ans} {s : S} (h : Mid c A s)
    (hcl : s.st = .finishWriting ∨ Rest s.st)
    (hq : s.st = .ready → s.queue ≠ [] ∧ s.run = true) :
    Part c A (processRecv c a s) (fun _ => False) := by
  unfold processRecv
  refine part_then (before_part h) fun s1 h1 e => ?_
  subst e
  refine part_then (readyStage_part h1 hcl hq) fun s2 h2 q2 => ?_
  refine part_then (waitStage_part h2 q2) fun s3 h3 q3 => ?_
  refine part_then (startStage_part h3 q3) fun s4 h4 q4 => ?_
  refine part_then (finishWait_part h4 q4) fun s5 h5 q5 => ?_
  refine part_then (finishStage_part h5 q5) fun s6 h6 q6 => ?_
  exact lastStage_part h6 q6

/-- Invariant between operations. -/
def Base (c : Cfg) (A : List Item) (s : S) : Prop :=
  (Shut c s ∧ consumed s.log ++ s.queue = A) ∨
  (Mid c A s ∧ Rest s.st ∧
    (s.run = true → s.st = .ready → s.pend = true ∨ s.queue = []))

theorem Base.of_done {c : Cfg} {A : List Item} {s : S} (h : Done c A s false) : Base c A s := by
  rcases h with ⟨h1, h2, _⟩ | ⟨h1, h2, h3⟩
  · exact Or.inl ⟨h1, h2⟩
  · exact Or.inr ⟨h1, h2, fun _ hx => absurd hx (h3 rfl)⟩

theorem input_base {c : Cfg} {A : List Item} (cnt : Nat) : ∀ (as : List Ans) {s : S}, Mid c A s →
    Rest s.st → Base c A (input c cnt as s) := by
  induction cnt with
  | zero =>
    intro as s h hr
    unfold input
    split
    · rename_i hg
      simp only [Bool.and_eq_true, Bool.not_eq_true', List.isEmpty_eq_false_iff] at hg
      have hp := processRecv_part (a := as.headD {}) h (Or.inr hr) (fun _ => ⟨hg.2, hg.1.1⟩)
      obtain ⟨⟨s', b⟩, heq⟩ : ∃ k, processRecv c (as.headD {}) s = k := ⟨_, rfl⟩
      rw [heq] at hp ⊢
      match b, hp with
      | some true, hp =>
        rcases hp with ⟨_, _, hx⟩ | ⟨h1, h2, _⟩
        · exact absurd hx (by simp)
        · exact Or.inr ⟨⟨h1.good.congr rfl rfl rfl rfl, h1.aux.congr rfl rfl rfl, h1.cons⟩, h2, fun _ _ => Or.inl rfl⟩
      | some false, hp => exact Base.of_done hp
      | none, hp => exact absurd hp.2 id
    · rename_i hg
      refine Or.inr ⟨h, hr, fun hrun _ => Or.inr ?_⟩
      rw [hrun, h.good.opened] at hg
      simpa using hg
  | succ n ih =>
    intro as s h hr
    unfold input
    split
    · rename_i hg
      simp only [Bool.and_eq_true, Bool.not_eq_true', List.isEmpty_eq_false_iff] at hg
      have hp := processRecv_part (a := as.headD {}) h (Or.inr hr) (fun _ => ⟨hg.2, hg.1.1⟩)
      obtain ⟨⟨s', b⟩, heq⟩ : ∃ k, processRecv c (as.headD {}) s = k := ⟨_, rfl⟩
      rw [heq] at hp ⊢
      match b, hp with
      | some true, hp =>
        rcases hp with ⟨_, _, hx⟩ | ⟨h1, h2, _⟩
        · exact absurd hx (by simp)
        · exact ih as.tail h1 h2
      | some false, hp => exact Base.of_done hp
      | none, hp => exact absurd hp.2 id
    · rename_i hg
      refine Or.inr ⟨h, hr, fun hrun _ => Or.inr ?_⟩
      rw [hrun, h.good.opened] at hg
      simpa using hg

/-! ## Operations -/

theorem note_mid {c : Cfg} {A : List Item} {s : S} {e : Ev} {p q : P} (h : Mid c A s)
    (hp : Spec.run c.retry s.log = some p) (hn : next c.retry p e = some q) (hrel : Rel s.st q)
    (he : consumed [e] = []) : Mid c A (note s e) := by
  refine ⟨⟨h.good.out, h.good.opened, q, run_note hp hn, hrel⟩, h.aux.congr rfl rfl rfl, ?_⟩
  show consumed (s.log ++ [e]) ++ s.queue = A
  rw [consumed_append, he, List.append_nil]; exact h.cons

theorem back_log {c : Cfg} {s : S} (h : Good c s) (hr : Rest s.st) (v : Code) :
    ∃ p q, Spec.run c.retry s.log = some p ∧ Rel s.st p ∧ backNext p v = some q ∧
      (v ≠ .ok → q = .failed) ∧
      (v = .ok → s.st = .waitCallback → q = .idle) ∧ (v = .ok → s.st = .waitFinish → q = .written) ∧
      (v = .ok → s.st ≠ .waitCallback → s.st ≠ .waitFinish → q = p) := by
  obtain ⟨p, hp, hrel⟩ := h.log
  refine ⟨p, ?_⟩
  unfold Rest at hr
  unfold Rel at hrel
  cases hst : s.st <;> rw [hst] at hr hrel <;> simp only at hr hrel <;>
    subst hrel <;> cases v <;> exact ⟨_, hp, rfl, rfl, by simp, by simp, by simp, by simp⟩

theorem backOp_base {c : Cfg} {A : List Item} {v : Code} {r : Bool} {as : List Ans} {s : S}
    (h : Mid c A s) (hr : Rest s.st)
    (hw : s.run = true → s.st = .ready → s.pend = true ∨ s.queue = []) :
    Base c A (backOp c v r as s) := by
  obtain ⟨p, q, hp, hrel, hb, k1, k2, k3, k4⟩ := back_log h.good hr v
  have hrun : Spec.run c.retry (note s (.back v)).log = some q := run_note hp hb
  have hc : consumed (s.log ++ [Ev.back v]) ++ s.queue = A := by
    rw [consumed_append]; simpa [consumed] using h.cons
  unfold backOp
  dsimp only
  split
  · rename_i hv
    have hq := k1 hv
    subst hq
    exact Base.of_done (closeOnError_done h.good.out h.good.opened hrun hc)
  rename_i hv
  have hv : v = .ok := by simpa using hv
  split
  · rename_i hst
    have hst : s.st = .waitCallback := hst
    have hq := k2 hv hst
    subst hq
    refine input_base _ _ (Mid.go .idle h.good.out h.good.opened hrun rfl hc (by simp) (Or.inl rfl)) ?_
    rw [change_st]; trivial
  rename_i hst1
  have hst1 : s.st ≠ .waitCallback := hst1
  split
  · rename_i hst
    have hst : s.st = .waitFinish := hst
    have hq := k3 hv hst
    subst hq
    have hrn : s.run = true := h.aux.run_of (by rw [hst]; rfl) (by rw [hst]; simp)
    have hm : Mid c A (change (note s (.back v)) .finishWriting) :=
      Mid.go .written h.good.out h.good.opened hrun rfl hc (by simp) (Or.inr (Or.inr hrn))
    have hpr := processRecv_part (a := as.headD {}) hm (Or.inl (change_st _ _)) (fun hx => by rw [change_st] at hx; exact absurd hx (by simp))
    split
    · rename_i s' heq
      rw [heq] at hpr
      rcases hpr with ⟨_, _, hx⟩ | ⟨h1, h2, _⟩
      · exact absurd hx (by simp)
      · exact input_base _ _ h1 h2
    · rename_i s' b hne heq
      rw [heq] at hpr
      match b, hpr with
      | some true, hp => exact absurd rfl hne
      | some false, hp => exact Base.of_done hp
      | none, hp => exact absurd hp.2 id
  · rename_i hst2
    have hst2 : s.st ≠ .waitFinish := hst2
    have hq := k4 hv hst1 hst2
    subst hq
    exact Or.inr ⟨⟨⟨h.good.out, h.good.opened, _, hrun, hrel⟩, h.aux.congr rfl rfl rfl, hc⟩, hr, hw⟩

theorem timerOp_base {c : Cfg} {A : List Item} {r : Bool} {as : List Ans} {s : S}
    (h : Mid c A s) (hr : Rest s.st) (hrn : s.run = true) :
    Base c A (timerOp c r as { s with timer := false }) := by
  obtain ⟨p, hp, hrel⟩ := h.good.log
  have hc : consumed (s.log ++ [Ev.timer]) ++ s.queue = A := by
    rw [consumed_append]; simpa [consumed] using h.cons
  have hl : ∀ q, timerNext p = some q → Spec.run c.retry (s.log ++ [Ev.timer]) = some q :=
    fun q hq => run_note hp hq
  have haux : s.st ≠ .initTimeout → Aux (note { s with timer := false } .timer) := by
    intro hx
    exact ⟨fun _ hy => absurd hy hx, fun hy => absurd (hy.symm.trans hrn) (by simp)⟩
  unfold timerOp
  dsimp only
  by_cases h1 : s.st = .initTimeout
  · rw [if_pos (show (note { s with timer := false } .timer).st = .initTimeout from h1)]
    rw [if_neg (by rw [change_st]; simp)]
    rw [h1] at hrel
    obtain rfl : p = .timed := hrel
    refine input_base _ _ (Mid.go .idle h.good.out h.good.opened (hl _ rfl) rfl hc (by simp) (Or.inl rfl)) ?_
    rw [change_st]; trivial
  · rw [if_neg (show (note { s with timer := false } .timer).st ≠ .initTimeout from h1)]
    split
    · rename_i h2
      have h2 : s.st = .retry := h2
      rw [h2] at hrel
      obtain rfl : p = .paused := hrel
      rw [if_pos (show (note { s with timer := false } .timer).out = true from h.good.out)]
      have hr2 : ∀ b, Spec.run c.retry ((s.log ++ [Ev.timer]) ++ [Ev.init b]) = some (if b then .idle else .paused) :=
        fun b => run_note (hl _ rfl) (by cases b <;> rfl)
      have hc2 : ∀ b, consumed ((s.log ++ [Ev.timer]) ++ [Ev.init b]) ++ s.queue = A := by
        intro b; rw [consumed_append]; simpa [consumed] using hc
      split
      · rename_i hr
        subst hr
        refine input_base _ _ (Mid.go .idle h.good.out h.good.opened (hr2 true) rfl (hc2 true) (by simp) (Or.inl rfl)) ?_
        rw [change_st]; trivial
      · rename_i hr
        obtain rfl : r = false := by simpa using hr
        refine Or.inr ⟨⟨⟨h.good.out, h.good.opened, .paused, hr2 false, ?_⟩, ⟨fun _ _ => rfl, fun _ => Or.inr h2⟩, hc2 false⟩, ?_, fun _ hx => ?_⟩
        · show Rel s.st _; rw [h2]; rfl
        · show Rest s.st; rw [h2]; trivial
        · exact absurd ((show s.st = .ready from hx).symm.trans h2) (by simp)
    · rename_i h2
      have h2 : s.st ≠ .retry := h2
      have hq : timerNext p = some p := by
        unfold Rest at hr
        unfold Rel at hrel
        cases hst : s.st <;> rw [hst] at hr hrel h1 h2 <;> simp only at hr hrel <;> first
          | exact absurd rfl h1
          | exact absurd rfl h2
          | (subst hrel; rfl)
      exact input_base _ _ ⟨⟨h.good.out, h.good.opened, p, hl _ hq, hrel⟩, haux h1, hc⟩ hr

theorem startOp_base {c : Cfg} {A : List Item} {s : S} (h : Mid c A s) (hr : Rest s.st)
    (hw : s.run = true → s.st = .ready → s.pend = true ∨ s.queue = []) :
    Base c A (startOp s) := by
  unfold startOp
  split
  · cases hrun : s.run with
    | true =>
      rw [if_pos rfl]
      dsimp only
      rw [if_neg (by rw [h.good.out]; simp)]
      exact Or.inr ⟨⟨h.good.congr rfl rfl rfl rfl, h.aux.congr rfl rfl rfl, h.cons⟩, hr, fun _ => hw hrun⟩
    | false =>
      rw [if_neg (show ¬ (false = true) by simp)]
      dsimp only
      rw [if_neg (by rw [h.good.out]; simp)]
      refine Or.inr ⟨⟨h.good.congr rfl rfl rfl rfl, ⟨fun _ hx => ?_, fun hx => absurd hx (by simp)⟩, h.cons⟩, hr, fun _ _ => ?_⟩
      · have hx : s.st = .initTimeout := hx
        rcases h.aux.halted hrun with hy | hy
        · rw [hx] at hy; exact absurd hy (by simp [suitable])
        · rw [hx] at hy; exact absurd hy (by simp)
      · show (s.pend || !s.queue.isEmpty) = true ∨ s.queue = []
        cases hq : s.queue with
        | nil => exact Or.inr rfl
        | cons a l => left; simp
  · exact Or.inr ⟨h, hr, hw⟩

theorem halt_frame (s : S) : (halt s).st = s.st ∧ (halt s).out = s.out ∧ (halt s).opened = s.opened ∧
    (halt s).log = s.log ∧ (halt s).queue = s.queue ∧ (halt s).run = false := by
  unfold halt
  split
  · exact ⟨rfl, rfl, rfl, rfl, rfl, rfl⟩
  · rename_i h
    exact ⟨rfl, rfl, rfl, rfl, rfl, by simpa using h⟩

theorem stopOp_base {c : Cfg} {A : List Item} {s : S} (h : Mid c A s) (hr : Rest s.st)
    (hw : s.run = true → s.st = .ready → s.pend = true ∨ s.queue = []) :
    Base c A (stopOp s) := by
  unfold stopOp
  split
  · split
    · rename_i hs
      obtain ⟨k1, k2, k3, k4, k5, k6⟩ := halt_frame { s with stopReq := false }
      refine Or.inr ⟨⟨h.good.congr k2 k3 k4 k1, ⟨fun hx => ?_, fun _ => Or.inl ?_⟩, ?_⟩, ?_, fun hx => ?_⟩
      · exact absurd (k6.symm.trans hx) (by simp)
      · show suitable (halt _).st = true; rw [k1]; exact hs
      · show consumed (halt _).log ++ (halt _).queue = A; rw [k4, k5]; exact h.cons
      · show Rest (halt _).st; rw [k1]; exact hr
      · exact absurd (k6.symm.trans hx) (by simp)
    · exact Or.inr ⟨⟨h.good.congr rfl rfl rfl rfl, h.aux.congr rfl rfl rfl, h.cons⟩, hr, hw⟩
  · exact Or.inr ⟨h, hr, hw⟩

/-- What an operation adds to the arrivals. -/
def adds (s : S) : Op → List Item
  | .arrive i => if s.opened then [i] else []
  | _ => []

theorem step_base {c : Cfg} {A : List Item} {s : S} (o : Op) (h : Base c A s) :
    Base c (A ++ adds s o) (step c s o) := by
  rcases h with ⟨hs, hc⟩ | ⟨hm, hr, hw⟩
  · have h0 : adds s o = [] := by
      unfold adds; split
      · rw [if_neg (by rw [hs.opened]; simp)]
      · rfl
    rw [h0, List.append_nil]
    left
    unfold step
    split
    · unfold quitOutput
      rw [if_neg (by rw [hs.out]; simp)]
      exact ⟨⟨hs.out, rfl, hs.log⟩, hc⟩
    · rw [if_pos hs.opened]
      exact ⟨hs, hc⟩
  · have ho := hm.good.opened
    unfold step
    cases o with
    | cleanup =>
      simp only [adds, List.append_nil]
      obtain ⟨k1, k2, k3⟩ := shut_quit (s := { s with stopReq := false }) (hm.good.congr rfl rfl rfl rfl) s.st
      left
      unfold quitOutput closeOutput
      rw [if_pos hm.good.out, if_pos (show (note s .quit).out = true from hm.good.out)]
      obtain ⟨p, hp, hrel⟩ := hm.good.log
      refine ⟨⟨rfl, rfl, ?_⟩, ?_⟩
      · show Spec.run c.retry ((s.log ++ [Ev.quit]) ++ [Ev.delete]) = some .gone
        refine run_note (run_note hp (q := .leaving) ?_) rfl
        show quitNext p = some .leaving
        unfold Rel at hrel
        split at hrel <;> first | (subst hrel; rfl) | exact absurd hrel id
      · show consumed ((s.log ++ [Ev.quit]) ++ [Ev.delete]) ++ s.queue = A
        rw [consumed_append, consumed_append]; simpa [consumed] using hm.cons
    | arrive i =>
      dsimp only
      rw [if_neg (by rw [ho]; simp)]
      rw [show adds s (.arrive i) = [i] by unfold adds; dsimp only; rw [if_pos ho]]
      refine Or.inr ⟨⟨hm.good.congr rfl rfl rfl rfl, hm.aux.congr rfl rfl rfl, ?_⟩, hr, fun hx _ => Or.inl ?_⟩
      · show consumed s.log ++ (s.queue ++ [i]) = A ++ [i]
        rw [← List.append_assoc, hm.cons]
      · show (s.pend || s.run) = true
        rw [show s.run = true from hx]; simp
    | input as =>
      dsimp only
      rw [if_neg (by rw [ho]; simp)]
      simp only [adds, List.append_nil]
      exact input_base _ _ ⟨hm.good.congr rfl rfl rfl rfl, hm.aux.congr rfl rfl rfl, hm.cons⟩ hr
    | back v r as =>
      dsimp only
      rw [if_neg (by rw [ho]; simp)]
      simp only [adds, List.append_nil]
      exact backOp_base hm hr hw
    | timer r as =>
      dsimp only
      rw [if_neg (by rw [ho]; simp)]
      simp only [adds, List.append_nil]
      split
      · split
        · rename_i hx
          exact timerOp_base hm hr hx
        · rename_i hx
          have hx : s.run = false := by simpa using hx
          refine Or.inr ⟨⟨hm.good.congr rfl rfl rfl rfl, ⟨fun hy => ?_, hm.aux.halted⟩, hm.cons⟩, hr, hw⟩
          exact absurd (hx.symm.trans hy) (by simp)
      · exact Or.inr ⟨hm, hr, hw⟩
    | start =>
      dsimp only
      rw [if_neg (by rw [ho]; simp)]
      simp only [adds, List.append_nil]
      exact startOp_base hm hr hw
    | stop =>
      dsimp only
      rw [if_neg (by rw [ho]; simp)]
      simp only [adds, List.append_nil]
      exact stopOp_base hm hr hw

theorem new_base (c : Cfg) : Base c [] new :=
  Or.inr ⟨⟨⟨rfl, rfl, .idle, rfl, rfl⟩, ⟨fun _ h => absurd h (by decide), fun _ => Or.inl rfl⟩, rfl⟩, trivial,
    fun _ _ => Or.inr rfl⟩

theorem arrived_snoc (c : Cfg) (os : List Op) (o : Op) :
    arrived c (os ++ [o]) = arrived c os ++ adds (steps c new os) o := by
  have hfst : ∀ os : List Op, (os.foldl (arriveStep c) (new, [])).1 = steps c new os := by
    intro os
    induction os using List.reverseRecOn with
    | nil => rfl
    | append_singleton l a ih =>
      unfold steps at ih ⊢
      rw [List.foldl_append, List.foldl_cons, List.foldl_nil, List.foldl_append, List.foldl_cons, List.foldl_nil, ← ih]
      rfl
  unfold arrived
  rw [List.foldl_append, List.foldl_cons, List.foldl_nil]
  unfold arriveStep adds
  dsimp only
  have h := hfst os
  unfold arriveStep at h
  rw [h]
  cases o <;> simp only [List.append_nil]
  split <;> simp

theorem steps_base (c : Cfg) (os : List Op) : Base c (arrived c os) (steps c new os) := by
  induction os using List.reverseRecOn with
  | nil => exact new_base c
  | append_singleton l a ih =>
    rw [arrived_snoc]
    show Base c _ ((l ++ [a]).foldl (step c) new)
    rw [List.foldl_append]
    exact step_base a ih

/-! ## While nobody stops the transport -/

structure Live (s : S) : Prop where
  run : s.run = true
  free : s.stopReq = false
  tst : s.tst = .running
  paused : s.opened = true → s.st = .retry → s.timer = true

theorem change_free {s : S} (h : s.stopReq = false) (st : St) : change s st = { s with st := st } := by
  unfold change
  rw [if_neg (by rw [h]; simp)]

theorem Live.chg {s : S} (h : Live s) {st : St} (hst : st ≠ .retry) : Live (change s st) := by
  rw [change_free h.free]
  exact ⟨h.run, h.free, h.tst, fun _ hx => absurd hx hst⟩

theorem Live.note {s : S} (h : Live s) (e : Ev) : Live (note s e) := ⟨h.run, h.free, h.tst, h.paused⟩

theorem Live.quit {s : S} (h : Live s) : Live (quitOutput s) := by
  unfold quitOutput closeOutput
  split
  · split
    · exact ⟨h.run, h.free, h.tst, h.paused⟩
    · exact ⟨h.run, h.free, h.tst, h.paused⟩
  · exact h

theorem Live.shut {s : S} (h : Live s) : Live (closeTransport s) :=
  ⟨h.run, h.free, h.tst, fun hx => absurd hx (by simp [closeTransport])⟩

theorem Live.closeOut {s : S} (h : Live s) : Live (closeOutput s) := by
  unfold closeOutput
  split
  · exact ⟨h.run, h.free, h.tst, h.paused⟩
  · exact h

theorem Live.queue {s : S} (h : Live s) (q : List Item) : Live { s with queue := q } :=
  ⟨h.run, h.free, h.tst, h.paused⟩

theorem Live.shoot {s : S} (h : Live s) : Live (shoot s) :=
  ⟨h.run, h.free, h.tst, fun _ _ => rfl⟩

theorem Live.onError {c : Cfg} {r : Bool} {s : S} (h : Live s) : Live (closeOnError c r s) := by
  have key : ∀ s, Live s → Live (Verif.OutTransport.shoot (change s .retry)) := by
    intro s h
    rw [change_free h.free]
    exact ⟨h.run, h.free, h.tst, fun _ _ => rfl⟩
  unfold closeOnError noRetry
  split
  · exact key _ (h.chg (by simp)).closeOut.shut
  split
  · exact key _ (h.chg (by simp)).closeOut.shut
  · dsimp only
    split
    · exact key _ ((h.note _).chg (by simp)).closeOut.shut
    · exact key _ (h.note _)

theorem live_then {r : R} {f : S → R} (h : Live r.1) (hf : ∀ s, Live s → Live (f s).1) :
    Live (andThen r f).1 := by
  unfold andThen
  match r, h with
  | (s, some b), h => exact h
  | (s, none), h => exact hf s h

theorem processRecv_live {c : Cfg} {a : Ans} {s : S} (h : Live s) : Live (processRecv c a s).1 := by
  unfold processRecv
  refine live_then ?_ fun s h => live_then ?_ fun s h => live_then ?_ fun s h => live_then ?_ fun s h =>
    live_then ?_ fun s h => live_then ?_ fun s h => ?_
  · unfold before
    have h' : Live (if s.out = false then change s .error else s) := by
      split
      · exact h.chg (by simp)
      · exact h
    dsimp only
    generalize (if s.out = false then change s .error else s) = t at h' ⊢
    split
    · exact (h'.chg (by simp)).quit.shut
    · exact h'
  · unfold readyStage
    split
    · split
      · exact ((h.queue _).note _).chg (by simp)
      · exact (h.queue _).note _
      · unfold checkRes
        split
        · exact (h.note _).chg (by simp)
        · exact h.note _
        · exact ((h.note _).chg (by simp)).shoot
        · exact (h.note _).chg (by simp)
        · exact ((h.note _).queue _).note _
        · exact (h.note _).chg (by simp)
        · exact (h.note _).chg (by simp)
        · exact (h.note _).chg (by simp)
      · exact h
    · exact h
  · unfold waitStage; split <;> exact h
  · unfold startStage
    split
    · split
      · unfold writeRes
        split <;> exact ((h.queue _).note _).chg (by simp)
      · exact (h.queue _).chg (by simp)
      · exact h.chg (by simp)
    · exact h
  · unfold finishWait; split <;> exact h
  · unfold finishStage
    split
    · unfold complRes
      split <;> exact (h.note _).chg (by simp)
    · exact h
  · unfold lastStage
    split
    · exact (h.chg (by simp)).closeOut.shut
    split
    · exact h.onError
    · exact h

theorem input_live {c : Cfg} (cnt : Nat) : ∀ (as : List Ans) {s : S}, Live s → Live (input c cnt as s) := by
  induction cnt with
  | zero =>
    intro as s h
    unfold input
    split
    · have hp := processRecv_live (c := c) (a := as.headD {}) h
      obtain ⟨⟨s', b⟩, heq⟩ : ∃ k, processRecv c (as.headD {}) s = k := ⟨_, rfl⟩
      rw [heq] at hp ⊢
      match b, hp with
      | some true, hp => exact ⟨hp.run, hp.free, hp.tst, hp.paused⟩
      | some false, hp => exact hp
      | none, hp => exact hp
    · exact h
  | succ n ih =>
    intro as s h
    unfold input
    split
    · have hp := processRecv_live (c := c) (a := as.headD {}) h
      obtain ⟨⟨s', b⟩, heq⟩ : ∃ k, processRecv c (as.headD {}) s = k := ⟨_, rfl⟩
      rw [heq] at hp ⊢
      match b, hp with
      | some true, hp => exact ih _ hp
      | some false, hp => exact hp
      | none, hp => exact hp
    · exact h

theorem step_live {c : Cfg} {s : S} {o : Op} (h : Live s) (ho : o ≠ .stop) : Live (step c s o) := by
  unfold step
  cases o with
  | cleanup => exact h.quit.shut
  | arrive i =>
    dsimp only
    split
    · exact h
    · exact ⟨h.run, h.free, h.tst, h.paused⟩
  | input as =>
    dsimp only
    split
    · exact h
    · exact input_live _ _ ⟨h.run, h.free, h.tst, h.paused⟩
  | back v r as =>
    dsimp only
    split
    · exact h
    · unfold backOp
      dsimp only
      split
      · exact (h.note _).onError
      split
      · exact input_live _ _ ((h.note _).chg (by simp))
      split
      · have hp := processRecv_live (c := c) (a := as.headD {}) ((h.note (.back v)).chg (st := .finishWriting) (by simp))
        obtain ⟨⟨s', b⟩, heq⟩ : ∃ k, processRecv c (as.headD {}) (change (note s (.back v)) .finishWriting) = k := ⟨_, rfl⟩
        rw [heq] at hp ⊢
        match b, hp with
        | some true, hp => exact input_live _ _ hp
        | some false, hp => exact hp
        | none, hp => exact hp
      · exact h.note _
  | timer r as =>
    dsimp only
    split
    · exact h
    split
    · rw [if_pos h.run]
      unfold timerOp
      dsimp only
      by_cases h1 : s.st = .initTimeout
      · rw [if_pos (show (note { s with timer := false } .timer).st = .initTimeout from h1)]
        rw [if_neg (by rw [change_st]; simp)]
        refine input_live _ _ ?_
        rw [change_free (by exact h.free)]
        exact ⟨h.run, h.free, h.tst, fun _ hx => absurd hx (by simp)⟩
      · rw [if_neg (show (note { s with timer := false } .timer).st ≠ .initTimeout from h1)]
        split
        · split
          · split
            · refine input_live _ _ ?_
              rw [change_free (by exact h.free)]
              exact ⟨h.run, h.free, h.tst, fun _ hx => absurd hx (by simp)⟩
            · exact ⟨h.run, h.free, h.tst, fun _ _ => rfl⟩
          · exact ⟨h.run, h.free, h.tst, fun _ _ => rfl⟩
        · rename_i h2
          exact input_live _ _ ⟨h.run, h.free, h.tst, fun _ hx => absurd hx h2⟩
    · exact h
  | start =>
    dsimp only
    split
    · exact h
    · unfold startOp
      rw [if_neg (by rw [h.tst]; simp)]
      exact h
  | stop => exact absurd rfl ho

theorem steps_live {c : Cfg} {os : List Op} : ∀ {s : S}, Live s → Op.stop ∉ os → Live (steps c s os) := by
  induction os with
  | nil => intro s h _; exact h
  | cons o os ih =>
    intro s h hn
    rw [List.mem_cons, not_or] at hn
    exact ih (step_live h (fun hx => hn.1 hx.symm)) hn.2

/-! ## Retry without timer -/

theorem retry_turn {c : Cfg} {a : Ans} {s : S} (hst : s.st = .retry) (ho : s.out = true)
    (hg : a.gone = false) : processRecv c a s = (s, some true) := by
  unfold processRecv before
  rw [if_neg (show ¬ s.out = false by rw [ho]; simp)]
  dsimp only
  rw [if_neg (by rw [hg]; simp)]
  simp only [andThen]
  unfold readyStage
  rw [if_neg (by rw [hst]; simp)]
  dsimp only
  unfold waitStage
  rw [if_neg (by rw [hst]; simp)]
  dsimp only
  unfold startStage
  rw [if_neg (by rw [hst]; simp)]
  dsimp only
  unfold finishWait
  rw [if_neg (by rw [hst]; simp)]
  dsimp only
  unfold finishStage
  rw [if_neg (by rw [hst]; simp)]
  dsimp only
  unfold lastStage
  rw [if_neg (by rw [hst]; simp), if_neg (by rw [hst]; simp)]

theorem retry_input {c : Cfg} (cnt : Nat) : ∀ (as : List Ans) {s : S}, s.st = .retry → s.out = true →
    (∀ a ∈ as, a.gone = false) →
    input c cnt as s = if s.run && s.opened && !s.queue.isEmpty then { s with pend := true } else s := by
  induction cnt with
  | zero =>
    intro as s h1 h2 h3
    have hg : (as.headD {}).gone = false := by
      cases as with
      | nil => rfl
      | cons a l => exact h3 a (by simp)
    unfold input
    split
    · rw [retry_turn h1 h2 hg]
    · rfl
  | succ n ih =>
    intro as s h1 h2 h3
    have hg : (as.headD {}).gone = false := by
      cases as with
      | nil => rfl
      | cons a l => exact h3 a (by simp)
    unfold input
    split
    · rename_i hx
      rw [retry_turn h1 h2 hg]
      show input c n as.tail s = _
      rw [ih as.tail h1 h2 (fun a ha => h3 a (List.mem_of_mem_tail ha)), if_pos hx]
    · rfl

/-- Waiting for a new initialisation which never comes, or closed. -/
structure Stuck (l : List Item) (s : S) : Prop where
  state : (s.st = .retry ∧ s.out = true ∧ s.timer = false) ∨ s.opened = false
  same : consumed s.log = l

theorem stuck_input {c : Cfg} {l : List Item} (cnt : Nat) : ∀ (as : List Ans) {s : S}, Stuck l s →
    Stuck l (input c cnt as s) := by
  have turn : ∀ (a : Ans) (s : S), Stuck l s → s.opened = true →
      Stuck l (processRecv c a s).1 ∧ ((processRecv c a s).2 = some true ∨ (processRecv c a s).2 = some false) := by
    intro a s h ho
    obtain ⟨hst | hst, hl⟩ := h
    swap
    · exact absurd (ho.symm.trans hst) (by simp)
    cases hg : a.gone with
    | false =>
      rw [retry_turn hst.1 hst.2.1 hg]
      exact ⟨⟨Or.inl hst, hl⟩, Or.inl rfl⟩
    | true =>
      unfold processRecv before
      rw [if_neg (show ¬ s.out = false by rw [hst.2.1]; simp)]
      dsimp only
      rw [if_pos hg]
      refine ⟨⟨Or.inr rfl, ?_⟩, Or.inr rfl⟩
      show consumed (quitOutput (change s .closed)).log = l
      unfold quitOutput
      rw [if_pos (by rw [change_out]; exact hst.2.1)]
      unfold closeOutput
      rw [if_pos (show (note (change s .closed) .quit).out = true by show (change s St.closed).out = true; rw [change_out]; exact hst.2.1)]
      show consumed (((change s .closed).log ++ [Ev.quit]) ++ [Ev.delete]) = l
      rw [change_log, consumed_append, consumed_append, hl]; simp [consumed]
  induction cnt with
  | zero =>
    intro as s h
    unfold input
    split
    · rename_i hg
      simp only [Bool.and_eq_true] at hg
      obtain ⟨hp, hb⟩ := turn (as.headD {}) s h hg.1.2
      obtain ⟨⟨s', b⟩, heq⟩ : ∃ k, processRecv c (as.headD {}) s = k := ⟨_, rfl⟩
      rw [heq] at hp hb ⊢
      rcases hb with rfl | rfl
      · exact ⟨hp.state, hp.same⟩
      · exact hp
    · exact h
  | succ n ih =>
    intro as s h
    unfold input
    split
    · rename_i hg
      simp only [Bool.and_eq_true] at hg
      obtain ⟨hp, hb⟩ := turn (as.headD {}) s h hg.1.2
      obtain ⟨⟨s', b⟩, heq⟩ : ∃ k, processRecv c (as.headD {}) s = k := ⟨_, rfl⟩
      rw [heq] at hp hb ⊢
      rcases hb with rfl | rfl
      · exact ih _ hp
      · exact hp
    · exact h

theorem stuck_step {c : Cfg} {l : List Item} {s : S} {o : Op} (h : Stuck l s)
    (ho : ∀ v r as, o = .back v r as → v = .ok) : Stuck l (step c s o) := by
  unfold step
  cases o with
  | cleanup =>
    refine ⟨Or.inr rfl, ?_⟩
    show consumed (quitOutput s).log = l
    unfold quitOutput
    split
    · unfold closeOutput
      split
      · show consumed ((s.log ++ [Ev.quit]) ++ [Ev.delete]) = l
        rw [consumed_append, consumed_append, h.same]; simp [consumed]
      · show consumed (s.log ++ [Ev.quit]) = l
        rw [consumed_append, h.same]; simp [consumed]
    · exact h.same
  | arrive i =>
    dsimp only
    split
    · exact h
    · exact ⟨h.state, h.same⟩
  | input as =>
    dsimp only
    split
    · exact h
    · exact stuck_input _ _ ⟨h.state, h.same⟩
  | back v r as =>
    obtain rfl := ho v r as rfl
    dsimp only
    split
    · exact h
    · rename_i hop
      obtain ⟨hst | hst, hl⟩ := h
      swap
      · exact absurd hst hop
      unfold backOp
      dsimp only
      rw [if_neg (by simp)]
      rw [if_neg (show ¬ (note s (Ev.back .ok)).st = .waitCallback from fun hx => absurd (hx.symm.trans hst.1) (by simp)),
        if_neg (show ¬ (note s (Ev.back .ok)).st = .waitFinish from fun hx => absurd (hx.symm.trans hst.1) (by simp))]
      refine ⟨Or.inl hst, ?_⟩
      show consumed (s.log ++ [Ev.back .ok]) = l
      rw [consumed_append, hl]; simp [consumed]
  | timer r as =>
    dsimp only
    split
    · exact h
    · rename_i hop
      obtain ⟨hst | hst, hl⟩ := h
      swap
      · exact absurd hst hop
      rw [if_neg (by rw [hst.2.2]; simp)]
      exact ⟨Or.inl hst, hl⟩
  | start =>
    dsimp only
    split
    · exact h
    · rename_i hop
      obtain ⟨hst | hst, hl⟩ := h
      swap
      · exact absurd hst hop
      unfold startOp
      split
      · split
        · dsimp only
          split
          · exact ⟨Or.inr rfl, hl⟩
          · exact ⟨Or.inl hst, hl⟩
        · dsimp only
          split
          · exact ⟨Or.inr rfl, hl⟩
          · exact ⟨Or.inl hst, hl⟩
      · exact ⟨Or.inl hst, hl⟩
  | stop =>
    dsimp only
    split
    · exact h
    · rename_i hop
      obtain ⟨hst | hst, hl⟩ := h
      swap
      · exact absurd hst hop
      unfold stopOp
      split
      · rw [if_neg (by rw [hst.1]; simp [suitable])]
        exact ⟨Or.inl hst, hl⟩
      · exact ⟨Or.inl hst, hl⟩

theorem stuck_steps {c : Cfg} {l : List Item} {os : List Op} : ∀ {s : S}, Stuck l s →
    (∀ v r as, Op.back v r as ∈ os → v = .ok) → Stuck l (steps c s os) := by
  induction os with
  | nil => intro s h _; exact h
  | cons o os ih =>
    intro s h ho
    refine ih (stuck_step h fun v r as hx => ho v r as (by rw [hx]; simp)) ?_
    intro v r as hx
    exact ho v r as (List.mem_cons_of_mem _ hx)

end Verif.OutTransport
