import Verif.Spec.Readout
/-!
# Reading without a limit of the age returns every event
-/

namespace Verif.Readout
open Spec

theorem returned_append (l : List Ret) (r : Ret) : returned (l ++ [r]) = returned l ++ r.ev.toList := by
  unfold returned
  rw [List.filterMap_append]
  cases h : r.ev <;> simp [h]

theorem events_append (h : Bool) (a b : List Buf) : events h (a ++ b) = events h a ++ events h b := by
  unfold events; exact List.flatMap_append

theorem events_cons (h : Bool) (a : Buf) (b : List Buf) : events h (a :: b) = visible h a ++ events h b := by
  unfold events; exact List.flatMap_cons

/-- What of an MBS buffer is still to come. -/
def vis (h : Bool) (l : List Ev) : List Ev := visible h (.mbs l)

theorem vis_nil (h : Bool) : vis h [] = [] := by cases h <;> rfl

theorem vis_cons (s : S) (e : Ev) (l : List Ev) (hc : s.cur2 = none) :
    vis s.h (e :: l) = (getEvent e s).toList ++ vis s.h l := by
  unfold vis visible getEvent
  rw [hc]
  cases s.h
  · simp
  · cases hr : e.raw <;> simp [hr]

structure Inv (s : S) : Prop where
  stale : s.stale = []
  waits : s.cmd ≠ none → ∃ m, s.user = .waiting m
  cmdAge : ∀ m, s.cmd = some m → m = none
  sentAge : ∀ dl m, s.user = .sent dl m → m = none
  busy : ((∃ dl m, s.user = .sent dl m) ∨ ∃ m, s.user = .waiting m) → s.iter = [] ∧ s.iter2 = [] ∧ s.cur2 = none
  one : s.iter ≠ [] → s.iter2 = [] ∧ s.cur2 = none
  mbs : s.h = false → s.iter2 = [] ∧ s.cur2 = none
  cons : returned s.log ++ (s.iter2 ++ (vis s.h s.iter ++ events s.h s.queue)) = events s.h s.arrived

theorem inv_new (h : Bool) (cap : Nat) : Inv (new h cap) := by
  constructor <;> simp [new, vis_nil]
  rfl

/-- An answer to the waiting user. -/
theorem Inv.answer {s : S} (hi : Inv s) {m : Option Nat} (hu : s.user = .waiting m) (res : Bool)
    (it it2 : List Ev) (c2 : Option Ev) (tm nf : Option Nat) (q : List Buf) (r : Bool)
    (h1 : it ≠ [] → it2 = [] ∧ c2 = none) (h2 : s.h = false → it2 = [] ∧ c2 = none)
    (h3 : it2 ++ (vis s.h it ++ events s.h q) = events s.h s.queue) :
    Inv (reply res { s with iter := it, iter2 := it2, cur2 := c2, curTm := tm, lastNF := nf, queue := q, racy := r }) := by
  obtain ⟨b1, b2, _⟩ := hi.busy (.inr ⟨m, hu⟩)
  unfold reply
  dsimp only
  rw [hu]
  dsimp only
  refine ⟨hi.stale, ?_, ?_, ?_, ?_, h1, h2, ?_⟩
  · intro h; exact absurd rfl h
  · intro m h; cases h
  · intro dl m h; cases h
  · intro h
    rcases h with ⟨_, _, h⟩ | ⟨_, h⟩ <;> cases h
  · dsimp only
    have := hi.cons
    rw [b1, b2, vis_nil] at this
    simp only [List.nil_append] at this
    rw [h3]
    exact this

theorem processData_idle {s : S} (hc : s.cmd = none) : processData s = s := by
  unfold processData
  rw [hc]

theorem processData_nil {s : S} {ma : Option Nat} (hc : s.cmd = some ma) (hq : s.queue = []) :
    ∃ nf, processData s = reply false { s with lastNF := nf } := by
  refine ⟨if cleanq ma s then some s.now else s.lastNF, ?_⟩
  unfold processData
  rw [hc]
  dsimp only
  rw [hq]
  rfl

theorem processData_cons {s : S} {ma : Option Nat} {b : Buf} {q : List Buf} (hc : s.cmd = some ma)
    (hd : drain (cleanq ma s) s.queue = some (b, q)) :
    ∃ nf, processData s = accept b { s with lastNF := nf, queue := q, curTm := some s.now } := by
  refine ⟨if cleanq ma s then some s.now else s.lastNF, ?_⟩
  unfold processData
  rw [hc]
  dsimp only
  rw [hd]

theorem drain_keep (b : Buf) (q : List Buf) : drain false (b :: q) = some (b, q) := by
  cases b <;> simp [drain]

theorem bool_cases (b : Bool) : b = true ∨ b = false := by cases b <;> simp

theorem Inv.processData {s : S} (hi : Inv s) : Inv (processData s) := by
  cases hc : s.cmd with
  | none => rw [processData_idle hc]; exact hi
  | some ma =>
    have hm := hi.cmdAge _ hc
    subst hm
    obtain ⟨m, hu⟩ := hi.waits (by rw [hc]; simp)
    obtain ⟨b1, b2, b3⟩ := hi.busy (.inr ⟨m, hu⟩)
    cases hq : s.queue with
    | nil =>
      obtain ⟨nf, e⟩ := processData_nil hc hq
      rw [e]
      exact hi.answer hu false s.iter s.iter2 s.cur2 s.curTm nf s.queue s.racy hi.one hi.mbs
        (by rw [b1, b2, vis_nil]; rfl)
    | cons b q =>
      obtain ⟨nf, e⟩ := processData_cons (b := b) (q := q) hc (by rw [hq]; exact drain_keep b q)
      rw [e]
      cases b with
      | eof =>
        exact hi.answer hu false s.iter s.iter2 s.cur2 (some s.now) nf q s.racy hi.one hi.mbs
          (by rw [b1, b2, vis_nil, hq, events_cons]; rfl)
      | mbs l =>
        exact hi.answer hu true l s.iter2 s.cur2 (some s.now) nf q _ (fun _ => ⟨b2, b3⟩) hi.mbs
          (by rw [b2, hq, events_cons]; rfl)
      | had l =>
        unfold accept
        dsimp only
        rcases bool_cases s.h with hh | hh
        · rw [if_pos hh]
          exact hi.answer hu true s.iter l l.head? (some s.now) nf q _ (fun h => absurd b1 h)
            (fun h => by rw [hh] at h; cases h)
            (by rw [b1, vis_nil, hq, events_cons, hh]; simp [visible])
        · rw [if_neg (by rw [hh]; simp)]
          exact hi.answer hu false s.iter s.iter2 s.cur2 (some s.now) nf q s.racy hi.one hi.mbs
            (by rw [b1, b2, vis_nil, hq, events_cons, hh]; rfl)
      | other =>
        unfold accept
        dsimp only
        rcases bool_cases s.h with hh | hh
        · rw [if_pos hh]
          exact hi.answer hu false s.iter [] none (some s.now) nf q _ (fun h => absurd b1 h)
            (fun h => by rw [hh] at h; cases h)
            (by rw [b1, vis_nil, hq, events_cons]; rfl)
        · rw [if_neg (by rw [hh]; simp)]
          exact hi.answer hu false s.iter s.iter2 s.cur2 (some s.now) nf q s.racy hi.one hi.mbs
            (by rw [b1, b2, vis_nil, hq, events_cons]; rfl)

theorem Inv.take {s : S} (hi : Inv s) (dl : Option Nat) : Inv (take dl s) := by
  unfold Readout.take
  split
  · exact hi.processData
  · split
    · exact hi.processData
    · exact ⟨hi.stale, hi.waits, hi.cmdAge, hi.sentAge, hi.busy, hi.one, hi.mbs, hi.cons⟩

/-- The call returns; the iterators are as given. -/
theorem Inv.ret {s : S} (hi : Inv s) (hc : s.cmd = none) (e : Option Ev) (ma : Option Nat)
    (it it2 : List Ev) (c2 : Option Ev)
    (h1 : it ≠ [] → it2 = [] ∧ c2 = none) (h2 : s.h = false → it2 = [] ∧ c2 = none)
    (h3 : s.iter2 ++ vis s.h s.iter = e.toList ++ (it2 ++ vis s.h it)) :
    Inv (ret e ma { s with iter := it, iter2 := it2, cur2 := c2 }) := by
  unfold Readout.ret
  refine ⟨hi.stale, ?_, hi.cmdAge, ?_, ?_, h1, h2, ?_⟩
  · intro h; exact absurd hc h
  · intro dl m h; cases h
  · intro h
    rcases h with ⟨_, _, h⟩ | ⟨_, h⟩ <;> cases h
  · dsimp only
    rw [returned_append]
    dsimp only
    have := hi.cons
    rw [← List.append_assoc s.iter2, h3] at this
    rw [← this]
    simp only [List.append_assoc]

theorem Inv.send {s : S} (hi : Inv s) (hc : s.cmd = none) (dl : Option Nat) (h1 : s.iter = []) (h2 : s.iter2 = [])
    (h3 : s.cur2 = none) : Inv { s with user := .sent dl none } := by
  refine ⟨hi.stale, ?_, hi.cmdAge, ?_, ?_, hi.one, hi.mbs, hi.cons⟩
  · intro h; exact absurd hc h
  · intro dl m h; cases h; rfl
  · intro _; exact ⟨h1, h2, h3⟩

theorem Inv.callMbs {s : S} (hi : Inv s) (hc : s.cmd = none) (dl : Option Nat) (h2 : s.iter2 = [])
    (h3 : s.cur2 = none) : Inv (callMbs dl none s) := by
  unfold Readout.callMbs
  rw [show inTime none s = true from rfl, if_pos rfl]
  split
  · rename_i e l hit
    refine hi.ret hc _ _ l s.iter2 s.cur2 (fun _ => ⟨h2, h3⟩) hi.mbs ?_
    rw [hit, h2, vis_cons s e l h3]
    simp
  · rename_i hit
    exact hi.send hc dl hit h2 h3

theorem Inv.dropCur {s : S} (hi : Inv s) : Inv { s with cur2 := none } := by
  refine ⟨hi.stale, hi.waits, hi.cmdAge, hi.sentAge, ?_, ?_, ?_, hi.cons⟩
  · intro h; exact ⟨(hi.busy h).1, (hi.busy h).2.1, rfl⟩
  · intro h; exact ⟨(hi.one h).1, rfl⟩
  · intro h; exact ⟨(hi.mbs h).1, rfl⟩

theorem Inv.step {s t : S} {a : Act} (hi : Inv s) (ha : NoAge a) (hg : a ≠ .giveUp) (h : step s a = some t) : Inv t := by
  cases a with
  | tick d =>
    simp only [Readout.step, Option.some.injEq] at h
    subst h
    exact ⟨hi.stale, hi.waits, hi.cmdAge, hi.sentAge, hi.busy, hi.one, hi.mbs, hi.cons⟩
  | arrive b =>
    simp only [Readout.step, Option.some.injEq] at h
    subst h
    refine ⟨hi.stale, hi.waits, hi.cmdAge, hi.sentAge, hi.busy, hi.one, hi.mbs, ?_⟩
    dsimp only
    rw [events_append, events_append, ← hi.cons]
    simp only [List.append_assoc]
  | input =>
    simp only [Readout.step] at h
    split at h
    · simp only [Option.some.injEq] at h
      subst h
      exact Inv.processData ⟨hi.stale, hi.waits, hi.cmdAge, hi.sentAge, hi.busy, hi.one, hi.mbs, hi.cons⟩
    · cases h
  | timer =>
    simp only [Readout.step] at h
    split at h
    · split at h
      · simp only [Option.some.injEq] at h
        subst h
        exact Inv.processData ⟨hi.stale, hi.waits, hi.cmdAge, hi.sentAge, hi.busy, hi.one, hi.mbs, hi.cons⟩
      · cases h
    · cases h
  | call tm m =>
    have hm := ha tm m rfl
    subst hm
    simp only [Readout.step] at h
    split at h
    · rename_i hu
      simp only [Option.some.injEq] at h
      subst h
      have hc : s.cmd = none := by
        cases hcc : s.cmd with
        | none => rfl
        | some x =>
          obtain ⟨m, hm⟩ := hi.waits (by rw [hcc]; simp)
          rw [hu] at hm; cases hm
      replace hi : Inv { s with since := s.now, tmo := tm } :=
        ⟨hi.stale, hi.waits, hi.cmdAge, hi.sentAge, hi.busy, hi.one, hi.mbs, hi.cons⟩
      unfold Readout.call
      rw [show inTime none { s with since := s.now, tmo := tm } = true from rfl]
      rcases bool_cases s.h with hh | hh
      · rw [if_pos ⟨hh, rfl⟩]
        split
        · rename_i e l h2
          have hit : s.iter = [] := by
            cases hx : s.iter with
            | nil => rfl
            | cons e l => have := (hi.one (by rw [hx]; simp)).1; rw [h2] at this; cases this
          refine hi.ret hc _ _ s.iter l (some e) (fun h => absurd hit h) (fun h => by rw [hh] at h; cases h) ?_
          rw [h2]
          simp
        · rename_i h2
          exact hi.dropCur.callMbs hc _ h2 rfl
      · rw [if_neg (by rw [hh]; simp)]
        exact hi.callMbs hc _ (hi.mbs hh).1 (hi.mbs hh).2
    · cases h
  | exec =>
    simp only [Readout.step] at h
    split at h
    · rename_i dl m hu
      split at h
      · simp only [Option.some.injEq] at h
        subst h
        have hm := hi.sentAge _ _ hu
        subst hm
        have hb := hi.busy (.inl ⟨dl, none, hu⟩)
        unfold Readout.exec
        split
        · rename_i hc
          obtain ⟨m, hm⟩ := hi.waits hc
          rw [hu] at hm; cases hm
        · apply Inv.take
          refine ⟨hi.stale, ?_, ?_, ?_, ?_, hi.one, hi.mbs, hi.cons⟩
          · intro _; exact ⟨none, rfl⟩
          · intro m h; cases h; rfl
          · intro _ _ h; cases h
          · intro _; exact hb
      · cases h
    · cases h
  | giveUp => exact absurd rfl hg
  | late =>
    simp only [Readout.step, hi.stale] at h
    cases h
  | finish =>
    simp only [Readout.step] at h
    split at h
    · rename_i r m hu
      simp only [Option.some.injEq] at h
      subst h
      have hc : s.cmd = none := by
        cases hcc : s.cmd with
        | none => rfl
        | some x =>
          obtain ⟨m, hm⟩ := hi.waits (by rw [hcc]; simp)
          rw [hu] at hm; cases hm
      unfold Readout.finish
      split
      · rename_i e l hit
        obtain ⟨o1, o2⟩ := hi.one (by rw [hit]; simp)
        refine hi.ret hc _ _ l s.iter2 s.cur2 (fun _ => ⟨o1, o2⟩) hi.mbs ?_
        rw [hit, o1, vis_cons s e l o2]
        simp
      · rcases bool_cases s.h with hh | hh
        · rw [if_pos hh]
          split
          · rename_i e l h2
            have hit : s.iter = [] := by
              cases hx : s.iter with
              | nil => rfl
              | cons e l => have := (hi.one (by rw [hx]; simp)).1; rw [h2] at this; cases this
            refine hi.ret hc _ _ s.iter l (some e) (fun h => absurd hit h) (fun h => by rw [hh] at h; cases h) ?_
            rw [h2]
            simp
          · rename_i h2
            exact hi.ret hc none m s.iter s.iter2 none (fun _ => ⟨h2, rfl⟩) (fun _ => ⟨h2, rfl⟩) rfl
        · rw [if_neg (by rw [hh]; simp)]
          exact hi.ret hc none m s.iter s.iter2 s.cur2 hi.one hi.mbs rfl
    · cases h

theorem Inv.run {as : List Act} : ∀ {s t : S}, Inv s → (∀ a ∈ as, NoAge a ∧ a ≠ .giveUp) → run s as = some t → Inv t := by
  induction as with
  | nil => intro s t hi _ h; simp only [Readout.run, Option.some.injEq] at h; subst h; exact hi
  | cons a as ih =>
    intro s t hi ha h
    simp only [Readout.run] at h
    cases hs : Readout.step s a with
    | none => rw [hs] at h; cases h
    | some u =>
      rw [hs] at h
      exact ih (hi.step (ha a (by simp)).1 (ha a (by simp)).2 hs) (fun b hb => ha b (by simp [hb])) h

end Verif.Readout
