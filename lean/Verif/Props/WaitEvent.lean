import Verif.WaitEventLemmas

/-!
# C67: a thread never sleeps over its events
-/

namespace Verif.WaitEvent

open Spec

/-! ## `dabc::Thread` -/

/-- However threads fire events and however the waiting thread is woken up: every returned event was fired and
not returned before, `WaitEvent` returns nothing only if no event waits, and the thread sleeps only if no event
waits. -/
theorem C67_thread (os : List Cond.Op) :
    ∃ l, waiting (Cond.steps Cond.new os).log = some l ∧
      ((Cond.steps Cond.new os).phase = .asleep → l = []) := by
  have h := Cond.inv_steps os _ Cond.inv_new
  obtain ⟨l, hl, hp⟩ := h.good
  refine ⟨l, hl, fun hs => ?_⟩
  rw [(h.sleep hs).1] at hp
  exact hp.eq_nil

example : ∃ os, (Cond.steps Cond.new os).phase = .asleep ∧
    (Cond.steps Cond.new os).log = [.post 3, .ret (some 3)] :=
  ⟨[.fire 3, .wait none 0, .wait (some 5) 0], by decide⟩

/-- A thread which waits without a limit comes back with an event, if the system does not wake it for no
reason. -/
theorem C67_thread_forever (os : List Cond.Op) (h : ∀ o ∈ os, Cond.Forever o) :
    Cond.Ev.ret none ∉ (Cond.steps Cond.new os).log :=
  (Cond.inv2_steps os _ h Cond.inv2_new).never

example : ∃ os, (∀ o ∈ os, Cond.Forever o) ∧
    (Cond.steps Cond.new os).log = [.post 7, .post 8, .ret (some 8)] :=
  ⟨[.wait none 0, .fire 7, .fire 8, .resume 1], by intro o ho; simp at ho; rcases ho with rfl | rfl | rfl | rfl <;> simp [Cond.Forever], by decide⟩

/-- Without the hypothesis it can come back with nothing. -/
theorem C67_thread_forever_counterexample :
    Cond.Ev.ret none ∈ (Cond.steps Cond.new [.wait none 0, .wake, .resume 0]).log := by decide

/-! ## `dabc::SocketThread` -/

/-- Every event which was fired or found in a socket is returned exactly once, if it does not wait any more;
each socket gives its events once per `poll`, in whatever order the sockets are looked at. -/
theorem C67_socket_once (os : List Sock.Op) (x : Sock.Ev) (hx : x ≠ .enable) :
    (brought (Sock.steps Sock.new os).log).count x =
      (taken (Sock.steps Sock.new os).log).count x + (Sock.steps Sock.new os).events.count x :=
  (Sock.inv_steps os _ Sock.inv_new).once x hx

/-- While the thread is in `poll` although an event waits, `poll` does not block: it has no time to wait, or
there is a byte in the pipe. -/
theorem C67_socket_sleep (os : List Sock.Op) (set : List Sock.Ufd) (tm : Option Nat) (x : Sock.Ev) (hx : x ≠ .enable)
    (hp : (Sock.steps Sock.new os).phase = .polling set tm)
    (hw : (taken (Sock.steps Sock.new os).log).count x < (brought (Sock.steps Sock.new os).log).count x) :
    tm = some 0 ∨ (Sock.steps Sock.new os).pipe = 1 := by
  have h := Sock.inv_steps os _ Sock.inv_new
  have h1 := h.once x hx
  have hpoll := h.polls
  simp only [Sock.Polls, hp] at hpoll
  rcases hpoll.2.2 with h2 | h2 | h2
  · rw [h2, List.count_nil] at h1
    omega
  · exact Or.inl h2
  · have := h.pipe
    rw [if_pos h2] at this
    exact Or.inr this

example : ∃ os set, (Sock.steps Sock.new os).phase = .polling set none ∧ (Sock.steps Sock.new os).pipe = 1 ∧
    (taken (Sock.steps Sock.new os).log).count (.user 4) < (brought (Sock.steps Sock.new os).log).count (.user 4) :=
  ⟨[.wait none 0, .fire 4, .fire 5], [], by decide⟩

/-- `WaitEvent` returns nothing only if no event waits. -/
theorem C67_socket_nothing (os : List Sock.Op) (h t : List Sock.Rec)
    (he : (Sock.steps Sock.new os).log = h ++ .ret none :: t) (x : Sock.Ev) (hx : x ≠ .enable) :
    (brought h).count x = (taken h).count x :=
  (Sock.inv_steps os _ Sock.inv_new).nothing h t he x hx

example : (Sock.steps Sock.new [.wait (some 5) 0, .poll false (fun _ => {}) 0]).log = [.ret none] := by decide

/-- The thread never blocks in reading the pipe, and the pipe never fills up. -/
theorem C67_socket_pipe (os : List Sock.Op) :
    (Sock.steps Sock.new os).blocked = false ∧ (Sock.steps Sock.new os).pipe ≤ 1 := by
  have h := Sock.inv_steps os _ Sock.inv_new
  refine ⟨h.unblocked, ?_⟩
  rw [h.pipe]
  split <;> omega

/-- `poll` gets exactly the sockets whose workers want to read or to write, each one once, with what they want. -/
theorem C67_socket_set (os : List Sock.Op) (set : List Sock.Ufd) (tm : Option Nat)
    (hp : (Sock.steps Sock.new os).phase = .polling set tm) :
    (∀ u, u ∈ set ↔ Wanted (Sock.steps Sock.new os).addons u) ∧ (set.map Sock.Ufd.indx).Nodup := by
  have hpoll := (Sock.inv_steps os _ Sock.inv_new).polls
  simp only [Sock.Polls, hp] at hpoll
  rw [hpoll.2.1]
  exact ⟨Sock.mem_ufds _, Sock.nodup_ufds _⟩

/-- Two sockets, one which wants to read and one which wants nothing. -/
def twoSockets : List Sock.Op := [.change [some ⟨true, false, false⟩, some ⟨true, false, false⟩], .doing 2 true false]

example : (Sock.steps Sock.new (twoSockets ++ [.wait none 0])).phase = .polling [⟨2, true, false⟩] none := by decide

/-- When there are sockets and they are not looked at, the event which enables this again is waiting. -/
theorem C67_socket_check (os : List Sock.Op) (hc : (Sock.steps Sock.new os).check = false)
    (hs : ∃ a, some a ∈ (Sock.steps Sock.new os).addons) : .enable ∈ (Sock.steps Sock.new os).events :=
  (Sock.inv_steps os _ Sock.inv_new).enable hc hs

example : ∃ os, (Sock.steps Sock.new os).check = false ∧ (∃ a, some a ∈ (Sock.steps Sock.new os).addons) ∧
    (Sock.steps Sock.new os).log = [.polled [(2, ⟨false, true, false⟩)], .ret (some (.read 2))] :=
  ⟨twoSockets ++ [.wait none 0, .poll true (fun _ => ⟨false, true, false⟩) 0],
   by decide, ⟨⟨true, false, false⟩, by decide⟩, by decide⟩

/-- The enabling event is not queued if no socket reported anything. -/
theorem C67_socket_quiet (set : List Sock.Ufd) (res : Bool) (rev : Nat → Sock.Rev) (s : Sock.T)
    (hq : res = true → ∀ u ∈ set, rev u.indx = {}) : (Sock.collect set res rev s).events = s.events ∧
      (Sock.collect set res rev s).check = s.check := by
  unfold Sock.collect
  split
  · next hr =>
    dsimp only
    have hperm := Sock.visited_perm set rev s.bal s.addons
    have hnil : (set.map fun u => Sock.found u.indx (rev u.indx)).flatten = [] := by
      rw [List.flatten_eq_nil_iff]
      intro l hl
      obtain ⟨u, hu, rfl⟩ := List.mem_map.1 hl
      rw [hq hr u hu]; rfl
    rw [hnil] at hperm
    have h0 := hperm.eq_nil
    rw [if_pos h0, h0]
    exact ⟨List.append_nil _, rfl⟩
  · exact ⟨rfl, rfl⟩

example : (true = true → ∀ u ∈ [(⟨2, true, false⟩ : Sock.Ufd)], (fun _ => ({} : Sock.Rev)) u.indx = {}) := by simp

/-- After `poll`, a worker is asked for again only where nothing was reported: a reported direction is switched
off, both are after an error, and nothing else changes. -/
theorem C67_socket_flags (s : Sock.T) (set : List Sock.Ufd) (tm : Option Nat) (rev : Nat → Sock.Rev) (k i : Nat)
    (a : Sock.Addon) (hp : s.phase = .polling set tm) (ha : s.addons[i]? = some (some a)) :
    ∃ a', (Sock.step s (.poll true rev k)).addons[i]? = some (some a') ∧ a'.fd = a.fd ∧
      (a'.inp = true ↔ a.inp = true ∧ ¬ (i ∈ set.map Sock.Ufd.indx ∧ ((rev i).err = true ∨ (rev i).inp = true))) ∧
      (a'.out = true ↔ a.out = true ∧ ¬ (i ∈ set.map Sock.Ufd.indx ∧ ((rev i).err = true ∨ (rev i).out = true))) := by
  have hadd : (Sock.step s (.poll true rev k)).addons
      = ((Sock.order set.length s.bal).foldl (Sock.visit set rev) ([], s.addons)).2 := by
    simp only [Sock.step, hp]
    show (Sock.collect set true rev (Sock.drain { s with waitFire := false })).addons = _
    have hb : (Sock.drain { s with waitFire := false }).bal = s.bal ∧
        (Sock.drain { s with waitFire := false }).addons = s.addons := by
      unfold Sock.drain; split <;> exact ⟨rfl, rfl⟩
    unfold Sock.collect
    rw [if_pos rfl, hb.1, hb.2]
    dsimp only
    split <;> rfl
  rw [hadd, Sock.visited_snd, ha]
  by_cases hi : i ∈ set.map Sock.Ufd.indx
  · rw [if_pos hi]
    refine ⟨Sock.mark (rev i) a, rfl, rfl, ?_, ?_⟩
    · simp only [hi, true_and]
      show (a.inp && !(rev i).err && !(rev i).inp) = true ↔ _
      cases a.inp <;> cases (rev i).err <;> cases (rev i).inp <;> simp
    · simp only [hi, true_and]
      show (a.out && !(rev i).err && !(rev i).out) = true ↔ _
      cases a.out <;> cases (rev i).err <;> cases (rev i).out <;> simp
  · rw [if_neg hi]
    exact ⟨a, rfl, rfl, by simp [hi], by simp [hi]⟩

example : ∃ s : Sock.T, s.phase = .polling [⟨2, true, false⟩] none ∧ s.addons[2]? = some (some ⟨true, true, false⟩) :=
  ⟨Sock.steps Sock.new (twoSockets ++ [.wait none 0]), by decide⟩

/-- With sockets to look at, `WaitEvent` looks at them before it returns an event; so a stream of fired events
cannot keep the thread from its sockets.  Without an event it waits for the whole time it is given. -/
theorem C67_socket_look (s : Sock.T) (tm : Option Nat) (k : Nat) (ha : s.phase = .awake)
    (hc : s.check = true ∨ s.events = []) :
    ∃ tm', (Sock.step s (.wait tm k)).phase = .polling (Sock.ufds s.addons) tm' ∧
      (∀ u, u ∈ Sock.ufds s.addons ↔ Wanted s.addons u) ∧ (Sock.step s (.wait tm k)).log = s.log ∧
      tm' = if s.events = [] then tm else some 0 := by
  have hg : (s.events ≠ [] && !s.check) = false := by
    rcases hc with hc | hc <;> simp [hc]
  simp only [Sock.step, if_pos ha, Sock.wait, hg, Bool.false_eq_true, if_false]
  refine ⟨_, rfl, Sock.mem_ufds _, trivial, ?_⟩
  by_cases he : s.events = [] <;> simp [he]

example : ∃ s : Sock.T, s.phase = .awake ∧ s.check = true ∧ s.events = [.user 3] :=
  ⟨Sock.steps Sock.new (twoSockets ++ [.fire 3]), by decide⟩

end Verif.WaitEvent
