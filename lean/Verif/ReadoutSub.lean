import Verif.ReadoutInv
/-!
# Whatever the limits of the age are, events are returned once and in their order
-/

namespace Verif.Readout
open Spec

/-- The kind of the source. -/
def Kind (mbs : Bool) (b : Buf) : Prop :=
  if mbs then (∃ l, b = .mbs l) ∨ b = .eof else ∀ l, b ≠ .mbs l

theorem drain_mem {c : Bool} : ∀ {l : List Buf} {b : Buf} {q : List Buf}, drain c l = some (b, q) →
    b ∈ l ∧ (∀ x ∈ q, x ∈ l) ∧ ∀ h, (visible h b ++ events h q).Sublist (events h l) := by
  intro l
  induction l with
  | nil => intro b q h; cases h
  | cons a l ih =>
    intro b q h
    have keep : some (a, l) = some (b, q) →
        b ∈ a :: l ∧ (∀ x ∈ q, x ∈ a :: l) ∧ ∀ h, (visible h b ++ events h q).Sublist (events h (a :: l)) := by
      intro h
      cases h
      refine ⟨by simp, fun x hx => by simp [hx], fun h => ?_⟩
      rw [events_cons]
      exact List.Sublist.refl _
    have skip : drain c l = some (b, q) →
        b ∈ a :: l ∧ (∀ x ∈ q, x ∈ a :: l) ∧ ∀ h, (visible h b ++ events h q).Sublist (events h (a :: l)) := by
      intro h
      obtain ⟨h1, h2, h3⟩ := ih h
      refine ⟨by simp [h1], fun x hx => by simp [h2 x hx], fun h => ?_⟩
      rw [events_cons]
      exact (h3 h).trans (List.sublist_append_right _ _)
    cases a <;> simp only [drain] at h
    · exact keep h
    all_goals
      split at h
      · exact skip h
      · exact keep h

theorem drain_none {c : Bool} : ∀ {l : List Buf}, drain c l = none → l = [] := by
  intro l
  induction l with
  | nil => intro _; rfl
  | cons a l ih =>
    intro h
    cases a <;> simp only [drain] at h
    · cases h
    all_goals
      split at h
      · rename_i hc
        exact absurd (ih h) hc.2
      · cases h

def rest (s : S) : List Ev := s.iter2 ++ (vis s.h s.iter ++ events s.h s.queue)

structure Sub (k : Bool) (s : S) : Prop where
  kind : ∀ b ∈ s.queue, Kind k b
  mbs : k = true → s.iter2 = [] ∧ s.cur2 = none
  had : k = false → s.iter = []
  sub : (returned s.log ++ rest s).Sublist (events s.h s.arrived)

theorem sub_new (k h : Bool) (cap : Nat) : Sub k (new h cap) := by
  refine ⟨?_, fun _ => ⟨rfl, rfl⟩, fun _ => rfl, ?_⟩
  · intro b hb; cases hb
  · unfold rest
    simp only [new, vis_nil]
    exact List.Sublist.refl _

theorem vis_sub {h : Bool} {it : List Ev} {q : List Ev} : q.Sublist (vis h it ++ q) := List.sublist_append_right _ _

/-- A buffer becomes the current one, or nothing comes. -/
theorem Sub.answer {k : Bool} {s : S} (hi : Sub k s) (res : Bool)
    (it it2 : List Ev) (c2 : Option Ev) (tm nf : Option Nat) (q : List Buf) (r : Bool)
    (hq : ∀ b ∈ q, Kind k b)
    (h1 : k = true → it2 = [] ∧ c2 = none) (h2 : k = false → it = [])
    (h3 : (it2 ++ (vis s.h it ++ events s.h q)).Sublist (rest s)) :
    Sub k (reply res { s with iter := it, iter2 := it2, cur2 := c2, curTm := tm, lastNF := nf, queue := q, racy := r }) := by
  unfold reply
  refine ⟨hq, h1, h2, ?_⟩
  exact (List.Sublist.append (List.Sublist.refl _) h3).trans hi.sub

theorem Sub.processData {k : Bool} {s : S} (hi : Sub k s) : Sub k (processData s) := by
  cases hc : s.cmd with
  | none => rw [processData_idle hc]; exact hi
  | some ma =>
    cases hd : drain (cleanq ma s) s.queue with
    | none =>
      obtain ⟨nf, e⟩ := processData_nil hc (drain_none hd)
      rw [e]
      exact hi.answer false s.iter s.iter2 s.cur2 s.curTm nf s.queue s.racy hi.kind hi.mbs hi.had (List.Sublist.refl _)
    | some bq =>
      obtain ⟨b, q⟩ := bq
      obtain ⟨nf, e⟩ := processData_cons hc hd
      obtain ⟨d1, d2, d3⟩ := drain_mem hd
      have hq : ∀ b ∈ q, Kind k b := fun x hx => hi.kind x (d2 x hx)
      have hb := hi.kind b d1
      have hqs : (events s.h q).Sublist (events s.h s.queue) := (List.sublist_append_right _ _).trans (d3 s.h)
      rw [e]
      have same : Sub k (reply false { s with lastNF := nf, queue := q, curTm := some s.now }) :=
        hi.answer false s.iter s.iter2 s.cur2 (some s.now) nf q s.racy hq hi.mbs hi.had
          (List.Sublist.append (List.Sublist.refl _) (List.Sublist.append (List.Sublist.refl _) hqs))
      cases b with
      | eof => exact same
      | mbs l =>
        have hk : k = true := by
          rcases bool_cases k with h | h
          · exact h
          · subst h; exact absurd rfl (hb l)
        refine hi.answer true l s.iter2 s.cur2 (some s.now) nf q _ hq hi.mbs (fun h => by rw [hk] at h; cases h) ?_
        unfold rest
        refine List.Sublist.append (List.Sublist.refl _) ?_
        exact (d3 s.h).trans (List.sublist_append_right _ _)
      | had l =>
        have hk : k = false := by
          rcases bool_cases k with h | h
          · subst h
            rcases hb with ⟨_, h⟩ | h <;> cases h
          · exact h
        unfold accept
        dsimp only
        rcases bool_cases s.h with hh | hh
        · rw [if_pos hh]
          refine hi.answer true s.iter l l.head? (some s.now) nf q _ hq (fun h => by rw [hk] at h; cases h) hi.had ?_
          unfold rest
          rw [hi.had hk, vis_nil]
          refine List.Sublist.trans ?_ (List.sublist_append_right _ _)
          have := d3 s.h
          rw [hh] at this ⊢
          exact this
        · rw [if_neg (by rw [hh]; simp)]
          exact same
      | other =>
        have hk : k = false := by
          rcases bool_cases k with h | h
          · subst h
            rcases hb with ⟨_, h⟩ | h <;> cases h
          · exact h
        unfold accept
        dsimp only
        rcases bool_cases s.h with hh | hh
        · rw [if_pos hh]
          refine hi.answer false s.iter [] none (some s.now) nf q _ hq (fun h => by rw [hk] at h; cases h) hi.had ?_
          unfold rest
          exact (List.Sublist.append (List.Sublist.refl _) hqs).trans (List.sublist_append_right _ _)
        · rw [if_neg (by rw [hh]; simp)]
          exact same

theorem Sub.take {k : Bool} {s : S} (hi : Sub k s) (dl : Option Nat) : Sub k (take dl s) := by
  unfold Readout.take
  split
  · exact hi.processData
  · split
    · exact hi.processData
    · exact ⟨hi.kind, hi.mbs, hi.had, hi.sub⟩

theorem Sub.ret {k : Bool} {s : S} (hi : Sub k s) (e : Option Ev) (ma : Option Nat) (it it2 : List Ev) (c2 : Option Ev)
    (h1 : k = true → it2 = [] ∧ c2 = none) (h2 : k = false → it = [])
    (h3 : s.iter2 ++ vis s.h s.iter = e.toList ++ (it2 ++ vis s.h it)) :
    Sub k (ret e ma { s with iter := it, iter2 := it2, cur2 := c2 }) := by
  unfold Readout.ret
  refine ⟨hi.kind, h1, h2, ?_⟩
  have := hi.sub
  unfold rest at this ⊢
  dsimp only
  rw [returned_append]
  dsimp only
  rw [← List.append_assoc s.iter2, h3] at this
  simpa only [List.append_assoc] using this

theorem Sub.callMbs {k : Bool} {s : S} (hi : Sub k s) (dl ma : Option Nat) : Sub k (callMbs dl ma s) := by
  unfold Readout.callMbs
  have send : Sub k { s with user := .sent dl ma } := ⟨hi.kind, hi.mbs, hi.had, hi.sub⟩
  split
  · split
    · rename_i e l hit
      have hk : k = true := by
        rcases bool_cases k with h | h
        · exact h
        · rw [hi.had h] at hit; cases hit
      obtain ⟨h2, h3⟩ := hi.mbs hk
      refine hi.ret _ _ l s.iter2 s.cur2 hi.mbs (fun h => by rw [hk] at h; cases h) ?_
      rw [hit, h2, vis_cons s e l h3]
      simp
    · exact send
  · exact send

theorem Sub.finish {k : Bool} {s : S} (hi : Sub k s) (res : Bool) (ma : Option Nat) : Sub k (finish res ma s) := by
  unfold Readout.finish
  split
  · rename_i e l hit
    have hk : k = true := by
      rcases bool_cases k with h | h
      · exact h
      · rw [hi.had h] at hit; cases hit
    obtain ⟨h2, h3⟩ := hi.mbs hk
    refine hi.ret _ _ l s.iter2 s.cur2 hi.mbs (fun h => by rw [hk] at h; cases h) ?_
    rw [hit, h2, vis_cons s e l h3]
    simp
  · split
    · split
      · rename_i e l h2
        have hk : k = false := by
          rcases bool_cases k with h | h
          · rw [(hi.mbs h).1] at h2; cases h2
          · exact h
        refine hi.ret _ _ s.iter l (some e) (fun h => by rw [hk] at h; cases h) hi.had ?_
        rw [h2]
        simp
      · rename_i h2
        exact hi.ret none ma s.iter s.iter2 none (fun h => ⟨h2, rfl⟩) hi.had rfl
    · exact hi.ret none ma s.iter s.iter2 s.cur2 hi.mbs hi.had rfl

theorem Sub.call {k : Bool} {s : S} (hi : Sub k s) (dl ma : Option Nat) : Sub k (call dl ma s) := by
  unfold Readout.call
  split
  · split
    · rename_i e l h2
      have hk : k = false := by
        rcases bool_cases k with h | h
        · rw [(hi.mbs h).1] at h2; cases h2
        · exact h
      refine hi.ret _ _ s.iter l (some e) (fun h => by rw [hk] at h; cases h) hi.had ?_
      rw [h2]
      simp
    · apply Sub.callMbs
      exact ⟨hi.kind, fun h => ⟨(hi.mbs h).1, rfl⟩, hi.had, hi.sub⟩
  · exact hi.callMbs dl ma

theorem Sub.step {k : Bool} {s t : S} {a : Act} (hi : Sub k s) (ha : ∀ b, a = .arrive b → Kind k b)
    (h : step s a = some t) : Sub k t := by
  cases a <;> simp only [Readout.step] at h
  case tick d =>
    simp only [Option.some.injEq] at h
    subst h
    exact ⟨hi.kind, hi.mbs, hi.had, hi.sub⟩
  case arrive b =>
    simp only [Option.some.injEq] at h
    subst h
    refine ⟨?_, hi.mbs, hi.had, ?_⟩
    · intro x hx
      simp only [List.mem_append, List.mem_singleton] at hx
      rcases hx with hx | rfl
      · exact hi.kind x hx
      · exact ha _ rfl
    · have := hi.sub
      unfold rest at this ⊢
      dsimp only
      rw [events_append, events_append]
      have := List.Sublist.append this (List.Sublist.refl (events s.h [b]))
      simpa only [List.append_assoc] using this
  case input =>
    split at h
    · simp only [Option.some.injEq] at h
      subst h
      exact Sub.processData ⟨hi.kind, hi.mbs, hi.had, hi.sub⟩
    · cases h
  case timer =>
    split at h
    · split at h
      · simp only [Option.some.injEq] at h
        subst h
        exact Sub.processData ⟨hi.kind, hi.mbs, hi.had, hi.sub⟩
      · cases h
    · cases h
  case call tm m =>
    split at h
    · simp only [Option.some.injEq] at h
      subst h
      apply Sub.call
      exact ⟨hi.kind, hi.mbs, hi.had, hi.sub⟩
    · cases h
  case exec =>
    split at h
    · split at h
      · simp only [Option.some.injEq] at h
        subst h
        unfold Readout.exec
        split
        · exact ⟨hi.kind, hi.mbs, hi.had, hi.sub⟩
        · apply Sub.take
          exact ⟨hi.kind, hi.mbs, hi.had, hi.sub⟩
      · cases h
    · cases h
  case giveUp =>
    split at h
    · simp only [Option.some.injEq] at h
      subst h
      exact ⟨hi.kind, hi.mbs, hi.had, hi.sub⟩
    · simp only [Option.some.injEq] at h
      subst h
      exact ⟨hi.kind, hi.mbs, hi.had, hi.sub⟩
    · cases h
  case late =>
    split at h
    · cases h
    · split at h
      · simp only [Option.some.injEq] at h
        subst h
        exact ⟨hi.kind, hi.mbs, hi.had, hi.sub⟩
      · simp only [Option.some.injEq] at h
        subst h
        apply Sub.take
        exact ⟨hi.kind, hi.mbs, hi.had, hi.sub⟩
  case finish =>
    split at h
    · simp only [Option.some.injEq] at h
      subst h
      exact hi.finish _ _
    · cases h

theorem run_ind {P : S → Prop} {Q : Act → Prop} (hs : ∀ s a t, P s → Q a → step s a = some t → P t) :
    ∀ {as : List Act} {s t : S}, P s → (∀ a ∈ as, Q a) → run s as = some t → P t := by
  intro as
  induction as with
  | nil => intro s t hi _ h; simp only [Readout.run, Option.some.injEq] at h; subst h; exact hi
  | cons a as ih =>
    intro s t hi ha h
    simp only [Readout.run] at h
    cases hx : Readout.step s a with
    | none => rw [hx] at h; cases h
    | some u =>
      rw [hx] at h
      exact ih (hs s a u hi (ha a (by simp)) hx) (fun b hb => ha b (by simp [hb])) h

end Verif.Readout
