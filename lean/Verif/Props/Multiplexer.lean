import Verif.MultiplexerLemmas

/-!
# C66: the multiplexer gives all buffers to all outputs in the order of arrival
-/

namespace Verif.Multiplexer

open Spec

/-- **C66.** The buffers of each input are taken in the order of arrival, each
once: taken and waiting buffers together are those which arrived. -/
theorem C66_taken (i m : Nat) (os : List Op) (p : Nat) :
    only p (steps (new i m) os).taken ++ ((steps (new i m) os).inputs[p]?).getD [] =
    only p (arrivals i os) := (steps_arr i m os).2.2 p

/-- **C66.** An output which is connected all the time, and whose queue is
emptied by the other side only, is given exactly the buffers taken from the
inputs, in the same order. -/
theorem C66_all (i m : Nat) (os : List Op) (n : Nat) (hn : n < m) (hs : ∀ o ∈ os, Steady n o) :
    (steps (new i m) os).outs[n]? = some ((steps (new i m) os).taken.map (·.2)) := by
  suffices h : ∀ (os : List Op) (s : S), Full n m s → (∀ o ∈ os, Steady n o) → Full n m (steps s os) from
    (h os (new i m) ⟨by simp [new], by simp [new, hn]⟩ hs).2
  intro os
  induction os with
  | nil => intro s h _; exact h
  | cons o os ih =>
    intro s h hs
    exact ih (step s o) (step_full hn h (hs o (by simp))) fun x hx => hs x (by simp [hx])

/-- **C66** (partial: the module is never stopped and no buffer comes before its
input is connected).  Buffers are taken in the order of arrival at the module. -/
theorem C66_order_partial (i m : Nat) (os : List Op) (hc : ∀ o ∈ os, Calm o) :
    ∃ r, (steps (new i m) os).taken ++ r = arrivals i os := by
  have h := steps_good i m os hc
  refine tags_prefix _ _ ⟨(steps (new i m) os).ids ++ (steps (new i m) os).pend, ?_⟩
    fun p => ⟨_, h.arr.2.2 p⟩
  rw [← h.ports, List.append_assoc]

/-- **C66** (partial: as before).  Nothing is forgotten: when all events are
processed and the last look found a place in all connected outputs, nothing is
waiting. -/
theorem C66_rest_partial (i m : Nat) (os : List Op) (hc : ∀ o ∈ os, Calm o) (l : Nat → Look)
    (hl : ∀ k, canAll m (l k) = true) (hp : (steps (new i m) os).pend.length ≤ 1) :
    (steps (new i m) (os ++ [.inEvent l, .outEvent l])).taken = arrivals i os := by
  have hc' : ∀ o ∈ os ++ [Op.inEvent l] ++ [Op.outEvent l], Calm o := by
    intro o ho
    simp only [List.mem_append, List.mem_singleton] at ho
    rcases ho with (ho | rfl) | rfl
    · exact hc o ho
    · trivial
    · trivial
  have e : os ++ [Op.inEvent l, .outEvent l] = os ++ [Op.inEvent l] ++ [Op.outEvent l] := by simp
  have h := steps_good i m _ hc'
  have h1 := steps_good i m (os ++ [Op.inEvent l]) fun o ho => hc' o (List.mem_append_left _ ho)
  have harr : arrivals i (os ++ [Op.inEvent l] ++ [Op.outEvent l]) = arrivals i os := by
    simp [arrivals, arrival]
  -- the loop empties the queue
  have hloop : ∀ (ids : List Nat) (k : Nat) (s : S), s.outs.length = m → (loop l ids k s).1 = [] := by
    intro ids
    induction ids with
    | nil => intro k s _; rfl
    | cons id r ih =>
      intro k s hs
      unfold loop
      rw [if_pos (by rw [hs]; exact hl k)]
      exact ih _ _ ((turn_outs_length _ _ _).trans hs)
  have hpend : ∀ (ids : List Nat) (k : Nat) (s : S), (loop l ids k s).2.pend = s.pend := by
    intro ids
    induction ids with
    | nil => intro k s; rfl
    | cons id r ih =>
      intro k s
      unfold loop
      split
      · rw [ih]; unfold turn; dsimp only; split <;> rfl
      · rfl
  have hp1 : (steps (new i m) (os ++ [Op.inEvent l])).pend = [] := by
    rw [steps_snoc]
    simp only [step]
    have hr := (steps_good i m os hc).run
    split
    · assumption
    · rename_i p r hpp
      rw [hpp] at hp
      have : r = [] := List.eq_nil_of_length_eq_zero (by simpa using hp)
      subst this
      rw [if_pos hr]
      unfold check
      dsimp only
      rw [hpend]
  have hids : (steps (new i m) (os ++ [Op.inEvent l] ++ [Op.outEvent l])).ids = [] := by
    rw [steps_snoc]
    simp only [step]
    rw [if_pos h1.run]
    exact hloop _ _ _ h1.arr.2.1
  have hpd : (steps (new i m) (os ++ [Op.inEvent l] ++ [Op.outEvent l])).pend = [] := by
    rw [steps_snoc]
    simp only [step]
    rw [if_pos h1.run]
    unfold check
    dsimp only
    rw [hpend, hp1]
  rw [e]
  have hports := h.ports
  rw [hids, hpd, List.append_nil, List.append_nil, harr] at hports
  obtain ⟨r, hr⟩ := C66_order_partial i m _ hc'
  rw [harr] at hr
  have hlen := congrArg List.length hports
  have hlen2 := congrArg List.length hr
  simp only [List.length_map, List.length_append] at hlen hlen2
  have : r = [] := List.eq_nil_of_length_eq_zero (by omega)
  subst this
  simpa using hr

/-- **C66.** When a stopped module starts there is an event for every waiting
buffer. -/
theorem C66_start (s : S) (h : s.running = false) (p : Nat) :
    ((s.inputs[p]?).getD []).length ≤ (step s .start).pend.count p ∧ (step s .start).running = true := by
  simp only [step, h]
  refine ⟨?_, rfl⟩
  show _ ≤ (s.pend ++ startEvents s.inputs).count p
  rw [List.count_append, count_start]
  omega

/-! ## Counterexamples -/

/-- All outputs are connected and have a place. -/
def free : Nat → Look := fun _ => ⟨fun _ => true, fun _ => true, fun _ => true⟩

/-- A module is stopped, its input events are dropped and it is started again;
start events come for all waiting buffers.  The order of arrival is lost. -/
theorem C66_order_counterexample :
    let os : List Op := [.arrive 1 7, .stop, .inEvent free, .arrive 0 8, .inEvent free, .start,
      .inEvent free, .inEvent free]
    arrivals 2 os = [(1, 7), (0, 8)] ∧ (steps (new 2 1) os).taken = [(0, 8), (1, 7)] := by decide

/-- A buffer which comes before the input is connected (the queue of the output
port is used again after another receiver left it, LocalTransport.cxx:386-394)
gives no event: from then on one buffer is always left in the queue. -/
theorem C66_late_counterexample :
    let os : List Op := [.silent 0 1, .arrive 0 2, .inEvent free, .outEvent free, .arrive 0 3, .inEvent free, .outEvent free]
    (steps (new 1 1) os).taken = [(0, 1), (0, 2)] ∧ (steps (new 1 1) os).inputs = [[3]] ∧
    (steps (new 1 1) os).pend = [] ∧ (steps (new 1 1) os).ids = [] := by decide

/-- An output which has a place at the first look and none at the second is
passed over (this happens when a full queue, which overwrites its oldest buffer
while it is not connected, is connected in between). -/
theorem C66_skip_counterexample :
    let l : Nat → Look := fun _ => ⟨fun _ => true, fun _ => true, fun n => n = 0⟩
    (steps (new 1 2) [.arrive 0 1, .inEvent l]).outs = [[1], []] := by decide

/-! ## Examples -/

def demo : List Op :=
  let full : Nat → Look := fun k => ⟨fun _ => true, fun n => n = 0 || k = 0, fun n => n = 0 || k = 0⟩
  [.arrive 1 10, .arrive 0 20, .inEvent full, .arrive 1 11, .inEvent full, .inEvent full]

example : (steps (new 2 2) demo).outs = [[10, 20, 11], [10, 20, 11]] ∧
    (steps (new 2 2) demo).taken = [(1, 10), (0, 20), (1, 11)] := by decide

example : ∀ o ∈ demo, Calm o := by simp [demo, Calm]

example : ∀ o ∈ demo, Steady 1 o := by
  intro o ho l hl k
  simp only [demo, List.mem_cons, List.not_mem_nil, or_false] at ho
  rcases ho with rfl | rfl | rfl | rfl | rfl | rfl <;> simp [looks] at hl <;> subst hl <;> simp

/-- A full output stops all. -/
example :
    let l : Nat → Look := fun _ => ⟨fun _ => true, fun n => n = 0, fun n => n = 0⟩
    (steps (new 2 2) [.arrive 1 10, .inEvent l]).outs = [[], []] ∧
    (steps (new 2 2) [.arrive 1 10, .inEvent l, .outEvent free]).outs = [[10], [10]] := by decide

end Verif.Multiplexer
