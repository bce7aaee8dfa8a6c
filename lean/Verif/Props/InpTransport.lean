import Verif.InpTransportLemmas

/-!
# C63: input transports keep to the protocol of their input object
-/

namespace Verif.InpTransport

open Spec

/-- **C63**.  In every run the calls on the input object, the use of buffers and
the sending of data follow the protocol: size, buffer of that size, start,
complete with the same buffer, send; pauses and call-backs are awaited; after
the deletion of the input it is not used any more. -/
theorem C63_protocol (c : Cfg) (os : List Op) (h : AllFit os) :
    (run (steps c new os).log).isSome := by
  obtain ⟨p, hp, _⟩ := due_of_base (steps_inv (c := c) new_inv h)
  rw [hp]; rfl

/-- **C63**.  The buffers sent are exactly the buffers which the input declared
as filled, in this order and each once; each of them was taken from the pool
for this purpose. -/
theorem C63_delivered (c : Cfg) (os : List Op) (h : AllFit os) :
    sent (steps c new os).log = filled (steps c new os).log ∧
    (filled (steps c new os).log).Sublist (taken (steps c new os).log) := by
  obtain ⟨p, hp, hd⟩ := due_of_base (steps_inv (c := c) new_inv h)
  refine ⟨?_, ?_⟩
  · have := sent_filled _ hp
    rw [hd, List.append_nil] at this
    exact this
  · exact (List.sublist_append_left _ _).trans (filled_taken _ hp)

/-- **C63**.  The end-of-file buffer is sent only after the input reported its
end (or an error) and was deleted; it is sent once and is the last thing that
happens. -/
theorem C63_eof (c : Cfg) (os : List Op) (h : AllFit os)
    (he : Ev.eof ∈ (steps c new os).log) :
    ∃ l, (steps c new os).log = l ++ [.delete, .eof] ∧ run l = some .finished ∧ Ev.eof ∉ l := by
  obtain ⟨p, hp, _⟩ := due_of_base (steps_inv (c := c) new_inv h)
  exact (eof_last _ hp he).2

/-- **C63**.  A running transport never falls asleep: between operations an
event for its output port is under way, or the port was full (and will fire an
event), or the input owes a call-back, or the transport waits for the memory
pool, or it needs a pause and its timer is armed. -/
theorem C63_awake (c : Cfg) (os : List Op) (h : AllFit os) (s : S) (hs : s = steps c new os)
    (halive : s.dead = false) (ho : s.opened = true) (hr : s.run = true) :
    s.pend = true ∨ s.full = true ∨
    run s.log = some .sizing ∨ (∃ b, run s.log = some (.waiting b)) ∨
    (s.st = .waitBuffer ∧ ∃ n, run s.log = some (.sized n)) ∨
    (s.timer = true ∧ (run s.log = some .timed ∨ (∃ b, run s.log = some (.ftimed b)) ∨
      run s.log = some .gone ∨ ∃ n, run s.log = some (.sized n))) := by
  have hinv := steps_inv (c := c) new_inv h
  rw [← hs] at hinv
  rcases hinv with ⟨_, hb⟩ | ⟨hd, _⟩
  swap
  · rw [halive] at hd; exact absurd hd (by simp)
  rcases hb.wake ho hr with hq | hq | hq
  · obtain ⟨_, p, hp, hrel⟩ := hb.good
    unfold Rel at hrel
    rw [hp]
    rcases hq with hq | hq | hq | ⟨hq, ht⟩ | ⟨hq, ht⟩
    · rw [hq] at hrel
      exact Or.inr (Or.inr (Or.inl (by rw [hrel.2])))
    · rw [hq] at hrel
      obtain ⟨_, b, sz, _, rfl⟩ := hrel
      exact Or.inr (Or.inr (Or.inr (Or.inl ⟨b, rfl⟩)))
    · rw [hq] at hrel
      exact Or.inr (Or.inr (Or.inr (Or.inr (Or.inl ⟨hq, _, by rw [hrel.2]⟩))))
    · refine Or.inr (Or.inr (Or.inr (Or.inr (Or.inr ⟨ht, ?_⟩))))
      rcases hq with hq | hq
      · rw [hq] at hrel; exact Or.inl (by rw [hrel.2])
      · rw [hq] at hrel
        obtain ⟨_, b, sz, _, rfl⟩ := hrel
        exact Or.inr (Or.inl ⟨b, rfl⟩)
    · refine Or.inr (Or.inr (Or.inr (Or.inr (Or.inr ⟨ht, ?_⟩))))
      rcases hq with hq | hq
      · rw [hq] at hrel; exact Or.inr (Or.inr (Or.inr ⟨_, by rw [hrel.2]⟩))
      · rw [hq] at hrel; exact Or.inr (Or.inr (Or.inl (by rw [hrel.2])))
  · exact Or.inl hq
  · exact Or.inr (Or.inl hq)

/-- **C63**.  The process is ended (`exit`) only by a call-back which arrives
while the transport expects nothing from the input; in particular never because
the port turned out to be full. -/
theorem C63_exit (c : Cfg) (os : List Op) (h : AllFit os) (hd : (steps c new os).dead = true) :
    ∃ l v, (steps c new os).log = l ++ [.back v] ∧ run l = some .idle := by
  rcases steps_inv (c := c) new_inv h with ⟨hx, _⟩ | ⟨_, _, hx⟩
  · rw [hx] at hd; exact absurd hd (by simp)
  · exact hx

/-- One turn of the loop while a buffer is awaited. -/
theorem busy_turn (c : Cfg) (a : Ans) (s : S) (hp : c.pools = true) (hg : a.gone = false)
    (hst : s.st = .waitBuffer) (hi : s.inp = true) : processSend c a s = (s, some true) := by
  simp [processSend, before, idle, sizeStage, sizeCheck, bufferStage, bufferCheck, startStage, waitStage,
    complStage, readyStage, endStage, lastStage, andThen, hst, hi, hp, hg]

/-- **C63, finding**.  While the transport waits for a buffer of the pool and
its port can send, it keeps itself busy: every event of the port does nothing
but fire the next one, for ever. -/
theorem C63_busy_counterexample (c : Cfg) (s : S) (n : Nat) (hp : c.pools = true)
    (hl : c.loop = 1) (hst : s.st = .waitBuffer) (hi : s.inp = true) (ho : s.opened = true)
    (hr : s.run = true) (hd : s.dead = false) (hpend : s.pend = true) :
    steps c s (List.replicate n (.output [{}, {}])) = s := by
  induction n with
  | zero => rfl
  | succ n ih =>
    show steps c (step c s (.output [{}, {}])) (List.replicate n (.output [{}, {}])) = s
    have h1 : ∀ b, processSend c {} { s with pend := b } = ({ s with pend := b }, some true) :=
      fun b => busy_turn c {} { s with pend := b } hp rfl hst hi
    have : step c s (.output [{}, {}]) = s := by
      unfold step
      rw [if_neg (by rw [hd]; simp)]
      dsimp only
      rw [if_neg (by rw [ho]; simp), hl]
      unfold output
      rw [if_neg (by rw [show ({ s with pend := false } : S).dead = s.dead from rfl, hd]; simp)]
      rw [if_pos (by rw [show ({ s with pend := false } : S).run = s.run from rfl, hr, show ({ s with pend := false } : S).opened = s.opened from rfl, ho]; rfl)]
      rw [if_neg (by decide), h1]
      dsimp only
      unfold output
      rw [if_neg (by rw [show ({ s with pend := false } : S).dead = s.dead from rfl, hd]; simp)]
      rw [if_pos (by rw [show ({ s with pend := false } : S).run = s.run from rfl, hr, show ({ s with pend := false } : S).opened = s.opened from rfl, ho]; rfl)]
      rw [if_neg (by decide), h1]
      dsimp only
      rw [← hpend]
    rw [this]; exact ih

/-- Settings of the examples: pool with queue, reconnect allowed, loop length 1
as set in `Transport.cxx:61`. -/
def cfg : Cfg := { pools := true, auto := true, recon := true, loop := 1, work := false }

/-- **C63, finding**.  A transport that waits for its input to be recreated does
not survive a stop and start of the connection. -/
theorem C63_restart_counterexample :
    (steps cfg new [.start, .close, .stop, .start]).opened = false ∧
    (steps cfg new [.start, .close]).opened = true ∧
    (steps cfg new [.start, .close, .timer [{}, {}]]).inp = true := by
  decide +kernel

/-- **C63, finding**.  A call-back while the transport is idle ends the whole
process. -/
theorem C63_exit_counterexample :
    (steps cfg new [.start, .back cOk true []]).dead = true := by
  decide +kernel

/-! ## Examples -/

/-- Answers of an input which delivers one buffer after the other. -/
def plain : Ans := {}

theorem plain_fits : Fits plain :=
  ⟨fun h => absurd rfl h, fun h => absurd rfl h, by decide, by decide, by decide⟩

/-- A run that reads two buffers, then sees the end of the stream. -/
def demo : List Op :=
  [.start, .output [{ buf := none }], .pool 100 [plain], .space,
   .output [plain, { size := cRepeatTimeOut }], .timer [{ size := 50, buf := some 100, start := cCallBack }],
   .back cOk true [], .output [{ compl := cEndOfStream }]]

example : AllFit demo := by
  intro o ho a ha
  simp only [demo, List.mem_cons, List.not_mem_nil, or_false] at ho
  rcases ho with rfl | rfl | rfl | rfl | rfl | rfl | rfl | rfl <;>
    simp only [answers, List.mem_cons, List.not_mem_nil, or_false] at ha
  · subst ha; exact ⟨fun h => absurd rfl h, fun h => absurd rfl h, by decide, by decide, by decide⟩
  · subst ha; exact plain_fits
  · rcases ha with rfl | rfl
    · exact plain_fits
    · exact ⟨fun _ => absurd rfl ‹_›, fun h => absurd rfl h, by decide, by decide, by decide⟩
  · subst ha; exact ⟨fun h => absurd rfl h, fun h => absurd rfl h, by decide, by decide, by decide⟩
  · subst ha; exact ⟨fun h => absurd rfl h, fun h => absurd rfl h, by decide, by decide, by decide⟩

example : (steps cfg new demo).log =
    [.size cDfltBufSize, .take 0 100, .start 0 100 cOk, .complete 0 cOk, .send 0,
     .size cDfltBufSize, .take 1 0, .start 1 0 cOk, .complete 1 cOk, .send 1,
     .size cRepeatTimeOut, .timer, .size 50, .take 2 100, .start 2 50 cCallBack, .back cOk,
     .complete 2 cEndOfStream, .delete, .eof] := by
  decide +kernel

example : sent (steps cfg new demo).log = [0, 1] ∧ (steps cfg new demo).opened = false := by
  decide +kernel

/-- A state as in the theorem on the busy loop. -/
example : let s := steps cfg new [.start, .output [{ buf := none }], .space]
    s.st = .waitBuffer ∧ s.inp = true ∧ s.opened = true ∧ s.run = true ∧ s.dead = false ∧ s.pend = true := by
  decide +kernel

end Verif.InpTransport
