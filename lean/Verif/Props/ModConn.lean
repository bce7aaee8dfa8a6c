import Verif.ModConnInv

/-!
# C94: run state, connections and reconnection of a module
-/

namespace Verif.ModConn
open Verif.ModConn.Spec

/-- **C94, order of calls.** In every execution `BeforeModuleStart` and `AfterModuleStop` alternate, the items
are started and stopped in between, and data events reach the module only between start and stop. -/
theorem C94_life (s s' : St) (os : List Op) (l : List Eff) (h : run s os = .ok (l, s')) : Life s.running l s'.running := by
  induction os generalizing s l with
  | nil => cases h; exact .nil _
  | cons o os ih =>
    obtain ⟨e, s1, m, h1, h2, rfl⟩ := run_cons h
    exact (life_step h1).append (ih s1 m h2)

/-- A port as it is created, base/src/Port.cxx:23-38. -/
def newPort : Port :=
  { pool := false, connected := false, period := false, limit := -1, doing := false, onError := .other, req := none, timer := false }

example : ∃ l s', run ⟨false, true, [newPort]⟩ [.start, .connected 0, .evConnect 0, .evData 0, .lost 0, .evDisconnect 0] = .ok (l, s') ∧
    l = [.before, .itemsOn, .connect 0, .data 0, .disconnect 0, .closed 0, .itemsOff, .after] := ⟨_, _, rfl, by decide⟩

/-- **C94, notifications.** Every connect and disconnect event of a port is told to the module exactly once
and in order, if the module is running or not. -/
theorem C94_told (s s' : St) (os : List Op) (l : List Eff) (h : run s os = .ok (l, s')) : told l = due s.ports.length os := by
  induction os generalizing s l with
  | nil => cases h; rfl
  | cons o os ih =>
    obtain ⟨e, s1, m, h1, h2, rfl⟩ := run_cons h
    rw [told_append, due_cons, told_step h1, ih s1 m h2, step_length h1]

/-- **C94, automatic stop.** A running module with automatic stop which is still running after a disconnect
event has an input or output which is connected or is being connected again, or it is the port of the event
which is being connected again; and the lost connection was not one which is required. -/
theorem C94_autostop (s s' : St) (i : Nat) (e : List Eff) (h : step s (.evDisconnect i) = .ok (e, s')) (ha : s.auto = true)
    (hr : s'.running = true) :
    (Busy s' ∨ ∃ p, s'.ports[i]? = some p ∧ p.doing = true) ∧ (∀ p, s.ports[i]? = some p → p.req ≠ some false) := by
  have tail : ∀ t : St, t.auto = true → (stopTail t false).2.running = true → Busy (stopTail t false).2 := by
    intro t h1 h2
    unfold stopTail doStop at h2 ⊢
    rcases hrun : t.running
    · simp [h1, hrun] at h2
    · rcases hal : alive t
      · simp [h1, hrun, hal] at h2
      · simp only [h1, hrun, hal]; exact (busy_iff t).1 hal
  rcases evDisconnect_ok h with ⟨hn, hh⟩ | ⟨p, hp, ⟨hq, q, -, rfl, rfl, rfl⟩ | ⟨hq, e1, s1, ht, rfl, rfl⟩ | ⟨hq, rfl, rfl⟩⟩
  · have h1 := tail s ha
    rw [← hh] at h1
    exact ⟨.inl (h1 hr), fun p hp => by rw [hn] at hp; cases hp⟩
  · refine ⟨.inr ⟨_, getElem_set_self hp, rfl⟩, fun p' hp' => ?_⟩
    rw [hp] at hp'; cases hp'
    intro h1; rw [h1] at hq; cases hq
  · have h1 := (tryNext_ok ht).2.1
    refine ⟨.inl (tail s1 (h1.trans ha) hr), fun p' hp' => ?_⟩
    rw [hp] at hp'; cases hp'
    intro h1; rw [h1] at hq; cases hq
  · rcases hm : p.req with _ | o
    · rw [hm] at hq; cases hq
    cases o with
    | true =>
      have h1 : mandatory s p = false := by unfold mandatory; rw [hm]
      rw [h1] at hr ⊢
      refine ⟨.inl (tail s ha hr), fun p' hp' => ?_⟩
      rw [hp] at hp'; cases hp'
      rw [hm]; simp
    | false =>
      exfalso
      have h1 : mandatory s p = s.running := by unfold mandatory; rw [hm, ha]; rfl
      rw [h1] at hr
      unfold stopTail doStop at hr
      rcases hrun : s.running <;> simp [ha, hrun] at hr

example : step ⟨true, true, [newPort, { newPort with connected := true }]⟩ (.evDisconnect 0) =
    .ok ([.disconnect 0, .closed 0], ⟨true, true, [newPort, { newPort with connected := true }]⟩) := rfl

/-- **C94, no other stop.** A disconnect event stops a running module only if automatic stop is on and either
no input and no output is connected or being connected again, or the lost connection was required; or if the
port is configured to stop the module. -/
theorem C94_stopped (s s' : St) (i : Nat) (e : List Eff) (h : step s (.evDisconnect i) = .ok (e, s')) (hs : s.running = true)
    (hr : s'.running = false) :
    (s.auto = true ∧ (¬ Busy s' ∨ ∃ p, s.ports[i]? = some p ∧ p.req = some false)) ∨
      ∃ p, s.ports[i]? = some p ∧ p.req = none ∧ p.onError = .stop := by
  have tail : ∀ t : St, t.running = true → (stopTail t false).2.running = false → t.auto = true ∧ ¬ Busy (stopTail t false).2 := by
    intro t h1 h2
    unfold stopTail doStop at h2 ⊢
    rcases hau : t.auto
    · simp [h1, hau] at h2
    · rcases hal : alive t
      · simp only [h1]
        refine ⟨trivial, fun hb => ?_⟩
        have : Busy t := hb
        rw [(busy_iff t).2 this] at hal; cases hal
      · simp [h1, hau, hal] at h2
  rcases evDisconnect_ok h with ⟨hn, hh⟩ | ⟨p, hp, ⟨hq, q, -, rfl, rfl, rfl⟩ | ⟨hq, e1, s1, ht, rfl, rfl⟩ | ⟨hq, rfl, rfl⟩⟩
  · have h1 := tail s hs
    rw [← hh] at h1
    obtain ⟨h2, h3⟩ := h1 hr
    exact .inl ⟨h2, .inl h3⟩
  · exact absurd (hs.symm.trans hr) (by decide)
  · obtain ⟨-, hau, ⟨hc, -, -⟩ | ⟨-, c, -, -, hports, ⟨h1, -⟩ | ⟨ho, -, -, -⟩⟩⟩ := tryNext_ok ht
    · cases hc
    · obtain ⟨h2, h3⟩ := tail s1 (h1.trans hs) hr
      exact .inl ⟨hau ▸ h2, .inl h3⟩
    · exact .inr ⟨p, hp, Option.isNone_iff_eq_none.1 hq, ho⟩
  · rcases hm : p.req with _ | o
    · rw [hm] at hq; cases hq
    cases o with
    | true =>
      have h1 : mandatory s p = false := by unfold mandatory; rw [hm]
      rw [h1] at hr ⊢
      obtain ⟨h2, h3⟩ := tail s hs hr
      exact .inl ⟨h2, .inl h3⟩
    | false =>
      rcases hau : s.auto
      · have h1 : mandatory s p = false := by unfold mandatory; rw [hm, hau]; rfl
        rw [h1] at hr
        have := (tail s hs hr).1
        rw [hau] at this; cases this
      · exact .inl ⟨rfl, .inr ⟨p, hp, hm⟩⟩

example : ∃ e s', step ⟨true, true, [newPort]⟩ (.evDisconnect 0) = .ok (e, s') ∧ s'.running = false := ⟨_, _, rfl, rfl⟩
example : ∃ e s', step ⟨true, true, [{ newPort with req := some false }, { newPort with connected := true }]⟩ (.evDisconnect 0) = .ok (e, s') ∧
    s'.running = false := ⟨_, _, rfl, rfl⟩

/-- **C94, alive (partial).** A module with automatic stop which is running after a disconnect event keeps
having a connection, or a port which is being connected again, until a connection is closed, a reconnection
fails or is configured.  Missing: a reconnection which is given up, see `C94_giveup_counterexample`, and
`DisconnectPort`; both do not look if the module has to be stopped. -/
theorem C94_alive_partial (s s' : St) (pre post : List Op) (i : Nat) (l : List Eff)
    (h : run s (pre ++ .evDisconnect i :: post) = .ok (l, s')) (hg : ∀ o ∈ post, gentle o = true)
    (ha : s.auto = true) (hp : ∀ p ∈ s.ports, p.pool = false)
    (hs : Op.start ∉ post) (hr : s'.running = true) : Busy s' := by
  have hinv : ∀ (os : List Op) (t t' : St) (m : List Eff), run t os = .ok (m, t') → t.auto = true → (∀ p ∈ t.ports, p.pool = false) →
      t'.auto = true ∧ ∀ p ∈ t'.ports, p.pool = false := by
    intro os
    induction os with
    | nil => intro t t' m h h1 h2; cases h; exact ⟨h1, h2⟩
    | cons o os ih =>
      intro t t' m h h1 h2
      obtain ⟨e, t1, m1, g1, g2, rfl⟩ := run_cons h
      have key : t1.auto = t.auto ∧ ∀ p ∈ t1.ports, p.pool = false := by
        have hset : ∀ (i : Nat) (p q : Port), t.ports[i]? = some p → q.pool = p.pool → ∀ r ∈ t.ports.set i q, r.pool = false := by
          intro i p q hp hq r hr
          rcases List.mem_or_eq_of_mem_set hr with hr | rfl
          · exact h2 r hr
          · rw [hq]; exact h2 p (List.mem_of_getElem? hp)
        have hcd : ∀ p : Port, (countDown p).2.pool = p.pool := by
          intro p; unfold countDown; repeat' split
          all_goals rfl
        cases o with
        | start => simp only [step, doStart] at g1; split at g1 <;> cases g1 <;> exact ⟨rfl, h2⟩
        | stop => simp only [step, doStop] at g1; split at g1 <;> cases g1 <;> exact ⟨rfl, h2⟩
        | evData j =>
          simp only [step, evData] at g1
          repeat' split at g1
          all_goals (cases g1 <;> exact ⟨rfl, h2⟩)
        | evConnect j =>
          simp only [step, evConnect] at g1
          split at g1 <;> cases g1
          exact ⟨rfl, h2⟩
        | evDisconnect j =>
          rcases evDisconnect_ok g1 with ⟨-, hh⟩ | ⟨p, hp, ⟨-, q, -, rfl, rfl, rfl⟩ | ⟨-, e1, s1, ht, rfl, rfl⟩ | ⟨-, rfl, rfl⟩⟩
          · have := stopTail_ports t false
            rw [← hh] at this
            dsimp only at this
            exact ⟨this.2, by rw [this.1]; exact h2⟩
          · exact ⟨rfl, hset _ p _ hp (hcd p)⟩
          · rw [(stopTail_ports s1 false).1, (stopTail_ports s1 false).2]
            obtain ⟨-, hau, ⟨hc, -, -⟩ | ⟨-, c, -, -, hports, -⟩⟩ := tryNext_ok ht
            · cases hc
            · rw [hports]; exact ⟨hau, hset _ p _ hp (hcd p)⟩
          · rw [(stopTail_ports t _).1, (stopTail_ports t _).2]; exact ⟨rfl, h2⟩
        | connTimer j ok conn =>
          rcases connTimer_ok g1 with ⟨-, rfl, rfl⟩ | ⟨p, hp, ⟨-, rfl, rfl⟩ | ⟨-, -, rfl, rfl⟩ | ⟨-, -, -, rfl, rfl⟩ | ⟨-, -, -, -, rfl, rfl⟩ | ⟨-, -, -, -, -, rfl, rfl⟩ | ⟨-, -, -, -, e1, s1, q, ht, hq, rfl, rfl⟩⟩
          · exact ⟨rfl, h2⟩
          · exact ⟨rfl, h2⟩
          · exact ⟨rfl, hset _ p _ hp rfl⟩
          · exact ⟨rfl, hset _ p _ hp rfl⟩
          · exact ⟨rfl, hset _ p _ hp rfl⟩
          · exact ⟨rfl, hset _ p _ hp (hcd p)⟩
          · obtain ⟨-, hau, ⟨hc, -, -⟩ | ⟨-, c, -, -, hports, -⟩⟩ := tryNext_ok ht
            · cases hc
            · rw [hports, getElem_set_self hp] at hq
              have hq := Option.some.inj hq
              subst hq
              refine ⟨hau, ?_⟩
              simp only [setPort, hports, List.set_set]
              exact hset _ p _ hp (hcd p)
        | connected j =>
          simp only [step, setConn] at g1
          split at g1 <;> cases g1
          · exact ⟨rfl, h2⟩
          next hp => exact ⟨rfl, hset _ _ _ hp rfl⟩
        | lost j =>
          simp only [step, setConn] at g1
          split at g1 <;> cases g1
          · exact ⟨rfl, h2⟩
          next hp => exact ⟨rfl, hset _ _ _ hp rfl⟩
        | disconnectPort j =>
          simp only [step, disconnectPort] at g1
          split at g1 <;> cases g1
          · exact ⟨rfl, h2⟩
          next hp => exact ⟨rfl, hset _ _ _ hp rfl⟩
        | configure j pos num =>
          simp only [step, configure] at g1
          split at g1
          · cases g1; exact ⟨rfl, h2⟩
          next hp =>
            repeat' split at g1
            all_goals (cases g1; exact ⟨rfl, hset _ _ _ hp rfl⟩)
      exact ih t1 t' m1 g2 (key.1.trans h1) key.2
  obtain ⟨s1, m, n, h1, h2, rfl⟩ := run_append h
  obtain ⟨e, s2, k, h3, h4, rfl⟩ := run_cons h2
  obtain ⟨ha1, hp1⟩ := hinv pre s s1 m h1 ha hp
  obtain ⟨-, hp2⟩ := hinv [.evDisconnect i] s1 s2 e (by simp only [run, h3]; change Except.ok (e ++ [], s2) = _; rw [List.append_nil]) ha1 hp1
  have hrun : ∀ (os : List Op) (t t' : St) (m : List Eff), run t os = .ok (m, t') → Op.start ∉ os → t'.running = true → t.running = true := by
    intro os
    induction os with
    | nil => intro t t' m h _ h2; cases h; exact h2
    | cons o os ih =>
      intro t t' m h h1 h2
      obtain ⟨e, t1, m1, g1, g2, rfl⟩ := run_cons h
      have h3 := ih t1 t' m1 g2 (fun hm => h1 (List.mem_cons_of_mem _ hm)) h2
      rcases ht : t.running
      · exfalso
        have hl := life_step g1
        have ht' := told_step g1
        rw [ht, h3] at hl
        have hb : ∀ (a b : Bool) (x : List Eff), Life a x b → a = false → b = true → Eff.before ∈ x := by
          intro a b x hx
          induction hx with
          | nil b => intro h1 h2; rw [h1] at h2; cases h2
          | start _ _ => intro _ _; exact List.mem_cons_self
          | stop _ _ => intro h1; cases h1
          | data _ _ _ => intro h1; cases h1
          | other e _ _ ih => intro h1 h2; exact List.mem_cons_of_mem _ (ih h1 h2)
        have hmem := hb _ _ _ hl rfl rfl
        have hno : Eff.before ∉ e := by
          have ntail : ∀ (t : St) (d : Bool), Eff.before ∉ (stopTail t d).1 := by
            intro t d; rcases stopTail_eff t d with hh | hh <;> rw [hh] <;> decide
          have ntry : ∀ {t t' : St} {i : Nat} {p : Port} {can go : Bool} {x : List Eff}, tryNext t i p can = .ok (go, x, t') → Eff.before ∉ x := by
            intro t t' i p can go x hx
            obtain ⟨-, -, ⟨-, rfl, rfl⟩ | ⟨-, c, -, -, -, ⟨-, rfl | rfl | rfl⟩ | ⟨-, -, -, rfl⟩⟩⟩ := tryNext_ok hx <;> simp
          cases o with
          | start => exact absurd List.mem_cons_self h1
          | stop => simp only [step, doStop] at g1; split at g1 <;> cases g1 <;> simp
          | evData j =>
            simp only [step, evData] at g1
            repeat' split at g1
            all_goals (cases g1 <;> simp)
          | evConnect j =>
            simp only [step, evConnect] at g1
            split at g1 <;> cases g1
            simp
          | evDisconnect j =>
            rcases evDisconnect_ok g1 with ⟨-, hh⟩ | ⟨p, hp, ⟨-, q, -, rfl, rfl, rfl⟩ | ⟨-, e1, s1, ht, rfl, rfl⟩ | ⟨-, rfl, rfl⟩⟩
            · have := ntail t false
              rw [← hh] at this; exact this
            · simp
            · simp only [List.mem_cons, List.mem_append, not_or]
              exact ⟨by simp, ntry ht, ntail s1 false⟩
            · simp only [List.mem_cons, not_or]
              exact ⟨by simp, ntail t _⟩
          | connTimer j ok conn =>
            rcases connTimer_ok g1 with ⟨-, rfl, rfl⟩ | ⟨p, hp, ⟨-, rfl, rfl⟩ | ⟨-, -, rfl, rfl⟩ | ⟨-, -, -, rfl, rfl⟩ | ⟨-, -, -, -, rfl, rfl⟩ | ⟨-, -, -, -, -, rfl, rfl⟩ | ⟨-, -, -, -, e1, s1, q, ht, hq, rfl, rfl⟩⟩
            · simp
            · simp
            · simp
            · simp
            · simp
            · simp
            · simp only [List.mem_cons, not_or]
              exact ⟨by simp, ntry ht⟩
          | connected j => simp only [step, setConn] at g1; split at g1 <;> cases g1 <;> simp
          | lost j => simp only [step, setConn] at g1; split at g1 <;> cases g1 <;> simp
          | disconnectPort j => simp only [step, disconnectPort] at g1; split at g1 <;> cases g1 <;> simp
          | configure j pos num =>
            simp only [step, configure] at g1
            repeat' split at g1
            all_goals (cases g1; simp)
        exact hno hmem
      · rfl
  have hr2 := hrun post s2 s' k h4 hs hr
  have hb2 : Busy s2 := by
    rcases (C94_autostop s1 s2 i e h3 ha1 hr2).1 with hb | ⟨p, hp, hd⟩
    · exact hb
    · exact ⟨p, List.mem_of_getElem? hp, hp2 p (List.mem_of_getElem? hp), .inr hd⟩
  clear h1 h2 h3 hr2 hp2 hrun hinv h hs hr
  induction post generalizing s2 k with
  | nil => cases h4; exact hb2
  | cons o os ih =>
    obtain ⟨e', t1, m1, g1, g2, rfl⟩ := run_cons h4
    exact ih (fun o ho => hg o (List.mem_cons_of_mem _ ho)) t1 m1 g2 (busy_gentle g1 (hg o List.mem_cons_self) hb2)

example : ∃ l s', run ⟨false, true, [{ newPort with period := true, limit := 3 }]⟩
    ([.start, .connected 0, .evConnect 0, .lost 0] ++ .evDisconnect 0 :: [.evData 0, .connTimer 0 true true, .evConnect 0]) = .ok (l, s') ∧
    s'.running = true := ⟨_, _, rfl, rfl⟩

/-- **C94, number of attempts (partial).** A port which is configured to be connected again at most `L` times
tries this at most `L` times.  Missing: a second disconnect event of the port, see
`C94_limit_counterexample`. -/
theorem C94_attempts_partial (s s' : St) (i L : Nat) (p : Port) (os : List Op) (l : List Eff) (hp : s.ports[i]? = some p)
    (h1 : p.period = true) (h2 : p.limit = L) (h3 : p.doing = false) (h4 : p.timer = false)
    (hk : Keeps i os) (hn : losses i os ≤ 1) (h : run s os = .ok (l, s')) : attempts i l ≤ L := by
  have t : Track i L False 0 0 s := ⟨⟨p, hp, h1, False.elim, .inl ⟨rfl, rfl, h2, h3, h4⟩⟩⟩
  obtain ⟨q, -, -, -, hq⟩ := (t.run h hk (by omega) (fun x => x.elim)).ex
  rw [Nat.zero_add, Nat.zero_add] at hq
  rcases hq with hq | hq | hq
  · rw [hq.2.1]; exact Nat.zero_le _
  · have := hq.2.2.2.2
    have := hq.2.2.2.1
    omega
  · exact hq.2.2.2.1

/-- **C94, all attempts.** When the connection of such a port is lost and nothing connects it, the module does
not give up before it has tried `L` times. -/
theorem C94_all_attempts (s s' : St) (i L : Nat) (p q : Port) (os : List Op) (l : List Eff) (hp : s.ports[i]? = some p)
    (h1 : p.period = true) (h2 : p.limit = L) (h3 : p.doing = false) (h4 : p.timer = false) (h5 : p.connected = false) (h6 : p.req = none)
    (hk : Keeps i os) (hn : losses i os = 1) (hj : Op.connected i ∉ os) (hj' : ∀ conn, Op.connTimer i true conn ∉ os)
    (h : run s os = .ok (l, s')) (hq : s'.ports[i]? = some q) (hd : q.doing = false) : attempts i l = L := by
  have t : Track i L True 0 0 s := ⟨⟨p, hp, h1, fun _ => ⟨h5, h6⟩, .inl ⟨rfl, rfl, h2, h3, h4⟩⟩⟩
  obtain ⟨q', hq', -, -, hh⟩ := (t.run h hk (by omega) (fun _ o ho => by
    rcases hjo : joins i o with _ | _
    · rfl
    · exfalso
      cases o with
      | connTimer j ok conn =>
        obtain ⟨rfl, rfl⟩ : j = i ∧ ok = true := by simpa [joins] using hjo
        exact hj' conn ho
      | connected j =>
        have : j = i := by simpa [joins] using hjo
        subst this; exact hj ho
      | _ => cases hjo)).ex
  rw [hq] at hq'
  have hq' := Option.some.inj hq'
  subst hq'
  rw [Nat.zero_add, Nat.zero_add] at hh
  rcases hh with hh | hh | hh
  · omega
  · rw [hd] at hh; cases hh.2.1
  · exact hh.2.2.2.2 trivial

example : ∃ l s', run ⟨true, false, [{ newPort with period := true, limit := 2 }]⟩
    [.evDisconnect 0, .connTimer 0 false false, .connTimer 0 false false, .connTimer 0 false false] = .ok (l, s') ∧
    attempts 0 l = 2 ∧ s'.ports[0]?.map (·.doing) = some false := ⟨_, _, rfl, by decide, by decide⟩

/-- A port whose limit has become negative and which is being connected again. -/
def endless : St := ⟨true, false, [{ newPort with period := true, limit := -1, doing := true, timer := true }]⟩

/-- **C94, counterexample: limit of attempts.** With a limit of 0 attempts, the second lost connection makes
the module try any number of times: `fReconnectLimit--` has made the limit negative, which means unlimited. -/
theorem C94_limit_counterexample (n : Nat) : ∃ l s',
    run ⟨true, false, [{ newPort with period := true, limit := 0 }]⟩
      ([.evDisconnect 0, .connected 0, .lost 0, .evDisconnect 0] ++ List.replicate n (.connTimer 0 false false)) = .ok (l, s') ∧ attempts 0 l = n := by
  have key : ∀ n, run endless (List.replicate n (.connTimer 0 false false)) = .ok (List.replicate n (.attempt 0), endless) := by
    intro n
    induction n with
    | zero => rfl
    | succ n ih =>
      rw [List.replicate_succ, List.replicate_succ]
      have h1 : step endless (.connTimer 0 false false) = .ok ([.attempt 0], endless) := rfl
      simp only [run, h1]
      change (run _ _ >>= _) = _
      rw [ih]; rfl
  refine ⟨[.disconnect 0, .disconnect 0] ++ List.replicate n (.attempt 0), endless, run_append_of rfl (key n), ?_⟩
  rw [attempts_append]
  simp [attempts]

/-- **C94, counterexample: giving up.** When the last reconnection of a module fails, the module has no
connection and no port which is being connected again, but it is not stopped: it is running after the
timeout, and later timeouts and data events change nothing. -/
theorem C94_giveup_counterexample : ∃ l s', run ⟨false, true, [{ newPort with period := true, limit := 1 }]⟩
      [.start, .connected 0, .evConnect 0, .lost 0, .evDisconnect 0, .connTimer 0 false false] = .ok (l, s') ∧
    s'.running = true ∧ s'.auto = true ∧ ¬ Busy s' ∧ (∀ ok conn, step s' (.connTimer 0 ok conn) = .ok ([], s')) ∧ Eff.closed 0 ∈ l := by
  refine ⟨_, _, rfl, rfl, rfl, ?_, fun _ _ => rfl, by decide⟩
  rw [← busy_iff]; decide

/-- **C94, counterexample: late event.** The disconnect event of an earlier connection closes the connection
which was made in the meantime. -/
theorem C94_late_counterexample : ∃ l s', run ⟨true, true, [{ newPort with connected := true }]⟩
      [.lost 0, .connected 0, .evDisconnect 0] = .ok (l, s') ∧ Eff.closed 0 ∈ l ∧ s'.ports[0]?.map (·.connected) = some false ∧ s'.running = false :=
  ⟨_, _, rfl, by decide, by decide, rfl⟩

/-- **C94, counterexample: `DisconnectPort`.** A module with automatic stop is not stopped when its only
connection is closed by the command `DisconnectPort`. -/
theorem C94_command_counterexample : ∃ l s', run ⟨true, true, [{ newPort with connected := true }]⟩ [.disconnectPort 0] = .ok (l, s') ∧
    s'.running = true ∧ ¬ Busy s' := by
  refine ⟨_, _, rfl, rfl, ?_⟩
  rw [← busy_iff]; decide

end Verif.ModConn
