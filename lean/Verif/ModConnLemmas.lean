import Verif.Spec.ModConn

/-!
# Lemmas about run state and connections of a module
-/

namespace Verif.ModConn
open Verif.ModConn.Spec

/-! ## Order of calls -/

theorem Spec.Life.append {a b c : Bool} {l m : List Eff} (h : Life a l b) (g : Life b m c) : Life a (l ++ m) c := by
  induction h with
  | nil => exact g
  | start _ ih => exact .start (ih g)
  | stop _ ih => exact .stop (ih g)
  | data i _ ih => exact .data i (ih g)
  | other e he _ ih => exact .other e he (ih g)

theorem life_start (s : St) : Life s.running (doStart s).1 (doStart s).2.running := by
  unfold doStart
  rcases h : s.running
  · exact .start (.nil _)
  · simp only [↓reduceIte, h]; exact .nil _

theorem life_stop (s : St) : Life s.running (doStop s).1 (doStop s).2.running := by
  unfold doStop
  rcases h : s.running
  · simp only [Bool.not_false, ↓reduceIte, h]; exact .nil _
  · exact .stop (.nil _)

theorem life_tail (s : St) (d : Bool) : Life s.running (stopTail s d).1 (stopTail s d).2.running := by
  unfold stopTail
  split
  · split
    · exact .nil _
    · exact life_stop s
  · split
    · exact life_stop s
    · exact .nil _

/-- What `TryNextReconnect` can do. -/
theorem tryNext_ok {s s' : St} {i : Nat} {p : Port} {can go : Bool} {e : List Eff}
    (h : tryNext s i p can = .ok (go, e, s')) :
    go = (countDown p).1 ∧ s'.auto = s.auto ∧
    ((go = true ∧ e = [] ∧ s' = setPort s i (countDown p).2) ∨
     (go = false ∧ ∃ c : Bool, (c = true → p.connected = true) ∧ (c = p.connected ∨ (can = true ∧ p.onError = .other)) ∧ s'.ports = s.ports.set i { (countDown p).2 with doing := false, connected := c } ∧
        ((s'.running = s.running ∧ (e = [] ∨ e = [.exitApp] ∨ e = [.closed i])) ∨
         (p.onError = .stop ∧ s.running = true ∧ s'.running = false ∧ e = [.itemsOff, .after])))) := by
  have hc : (countDown p).2.connected = p.connected := by
    unfold countDown; repeat' split
    all_goals rfl
  unfold tryNext at h
  dsimp only at h
  split at h
  next hg =>
    cases h
    exact ⟨hg.symm, rfl, .inl ⟨rfl, rfl, rfl⟩⟩
  next hg =>
    have hg : (countDown p).1 = false := by simpa using hg
    split at h
    · cases h
      exact ⟨hg.symm, rfl, .inr ⟨rfl, p.connected, id, .inl rfl, by rw [← hc]; rfl, .inl ⟨rfl, .inl rfl⟩⟩⟩
    next ho =>
      rcases hr : s.running
      · have e1 : doStop (setPort s i { (countDown p).2 with doing := false }) = ([], setPort s i { (countDown p).2 with doing := false }) := by
          simp [doStop, setPort, hr]
        rw [e1] at h
        cases h
        exact ⟨hg.symm, rfl, .inr ⟨rfl, p.connected, id, .inl rfl, by rw [← hc]; rfl, .inl ⟨hr, .inl rfl⟩⟩⟩
      · have e1 : doStop (setPort s i { (countDown p).2 with doing := false }) = ([.itemsOff, .after], { setPort s i { (countDown p).2 with doing := false } with running := false }) := by
          simp [doStop, setPort, hr]
        rw [e1] at h
        cases h
        exact ⟨hg.symm, rfl, .inr ⟨rfl, p.connected, id, .inl rfl, by rw [← hc]; rfl, .inr ⟨ho, rfl, rfl, rfl⟩⟩⟩
    · cases h
      exact ⟨hg.symm, rfl, .inr ⟨rfl, p.connected, id, .inl rfl, by rw [← hc]; rfl, .inl ⟨rfl, .inr (.inl rfl)⟩⟩⟩
    · cases h
    next ho =>
      split at h
      next hcan =>
        cases h
        exact ⟨hg.symm, rfl, .inr ⟨rfl, false, by simp, .inr ⟨hcan, ho⟩, rfl, .inl ⟨rfl, .inr (.inr rfl)⟩⟩⟩
      · cases h
        exact ⟨hg.symm, rfl, .inr ⟨rfl, p.connected, id, .inl rfl, by rw [← hc]; rfl, .inl ⟨rfl, .inl rfl⟩⟩⟩

theorem life_try {s s' : St} {i : Nat} {p : Port} {can go : Bool} {e : List Eff}
    (h : tryNext s i p can = .ok (go, e, s')) : Life s.running e s'.running := by
  obtain ⟨-, -, ⟨-, rfl, rfl⟩ | ⟨-, c, -, -, -, ⟨hr, rfl | rfl | rfl⟩ | ⟨-, h1, h2, rfl⟩⟩⟩ := tryNext_ok h
  · exact .nil _
  · rw [hr]; exact .nil _
  · rw [hr]; exact .other _ rfl (.nil _)
  · rw [hr]; exact .other _ rfl (.nil _)
  · rw [h1, h2]; exact .stop (.nil _)

/-- Shape of the disconnect event. -/
theorem evDisconnect_ok {s s' : St} {i : Nat} {e : List Eff} (h : evDisconnect s i = .ok (e, s')) :
    (s.ports[i]? = none ∧ (e, s') = stopTail s false) ∨
    ∃ p, s.ports[i]? = some p ∧
      ((p.req.isNone = true ∧ ∃ q, (countDown p).1 = true ∧ e = [.disconnect i] ∧ q = (countDown p).2 ∧
          s' = setPort s i { q with doing := true, timer := true }) ∨
       (p.req.isNone = true ∧ ∃ e1 s1, tryNext s i p s.auto = .ok (false, e1, s1) ∧
          e = .disconnect i :: (e1 ++ (stopTail s1 false).1) ∧ s' = (stopTail s1 false).2) ∨
       (p.req.isNone = false ∧ e = .disconnect i :: (stopTail s (mandatory s p)).1 ∧ s' = (stopTail s (mandatory s p)).2)) := by
  unfold evDisconnect at h
  split at h
  next hn => exact .inl ⟨hn, (Except.ok.inj h).symm⟩
  next p hp =>
    refine .inr ⟨p, hp, ?_⟩
    dsimp only at h
    split at h
    next hq =>
      have hm : mandatory s p = false := by
        unfold mandatory; split
        next hh => rw [hh] at hq; cases hq
        · rfl
      cases ht : tryNext s i p s.auto with
      | error x => rw [ht] at h; cases h
      | ok r =>
        obtain ⟨go, e1, s1⟩ := r
        rw [ht] at h
        change (if go = true then _ else _) = _ at h
        split at h
        next hg =>
          subst hg
          obtain ⟨hgo, -, ⟨-, rfl, rfl⟩ | ⟨hf, -⟩⟩ := tryNext_ok ht
          · have hl : i < s.ports.length := (List.getElem?_eq_some_iff.1 hp).1
            have e2 : (setPort s i (countDown p).2).ports[i]? = some (countDown p).2 := by
              simp [setPort, hl]
            dsimp only at h
            rw [e2] at h
            cases h
            refine .inl ⟨hq, _, hgo.symm, rfl, rfl, ?_⟩
            simp [setPort]
          · cases hf
        next hg =>
          have hg : go = false := by simpa using hg
          subst hg
          dsimp only at h
          cases h
          rw [hm]
          exact .inr (.inl ⟨hq, e1, s1, rfl, rfl, rfl⟩)
    next hq =>
      cases h
      exact .inr (.inr ⟨Bool.eq_false_iff.2 hq, rfl, rfl⟩)

/-- Shape of a timeout of the reconnect timer. -/
theorem connTimer_ok {s s' : St} {i : Nat} {ok conn : Bool} {e : List Eff} (h : connTimer s i ok conn = .ok (e, s')) :
    (s.ports[i]? = none ∧ e = [] ∧ s' = s) ∨
    ∃ p, s.ports[i]? = some p ∧
      ((p.timer = false ∧ e = [] ∧ s' = s) ∨
       (p.timer = true ∧ p.doing = false ∧ e = [] ∧ s' = setPort s i { p with timer := false }) ∨
       (p.timer = true ∧ p.doing = true ∧ p.connected = true ∧ e = [] ∧ s' = setPort s i { p with doing := false, timer := false }) ∨
       (p.timer = true ∧ p.doing = true ∧ p.connected = false ∧ ok = true ∧ e = [.attempt i] ∧
          s' = setPort s i { p with doing := false, timer := false, connected := conn }) ∨
       (p.timer = true ∧ p.doing = true ∧ p.connected = false ∧ ok = false ∧ (countDown p).1 = true ∧ e = [.attempt i] ∧
          s' = setPort s i (countDown p).2) ∨
       (p.timer = true ∧ p.doing = true ∧ p.connected = false ∧ ok = false ∧ ∃ e1 s1 q, tryNext s i p true = .ok (false, e1, s1) ∧
          s1.ports[i]? = some q ∧ e = .attempt i :: e1 ∧ s' = setPort s1 i { q with timer := false })) := by
  unfold connTimer at h
  split at h
  next hn => cases h; exact .inl ⟨hn, rfl, rfl⟩
  next p hp =>
    refine .inr ⟨p, hp, ?_⟩
    split at h
    next h1 => cases h; exact .inl ⟨by simpa using h1, rfl, rfl⟩
    next h1 =>
      have h1 : p.timer = true := by simpa using h1
      split at h
      next h2 => cases h; exact .inr (.inl ⟨h1, by simpa using h2, rfl, rfl⟩)
      next h2 =>
        have h2 : p.doing = true := by simpa using h2
        split at h
        next h3 => cases h; exact .inr (.inr (.inl ⟨h1, h2, h3, rfl, rfl⟩))
        next h3 =>
          have h3 : p.connected = false := by simpa using h3
          split at h
          next h4 => cases h; exact .inr (.inr (.inr (.inl ⟨h1, h2, h3, h4, rfl, rfl⟩)))
          next h4 =>
            have h4 : ok = false := by simpa using h4
            cases ht : tryNext s i p true with
            | error x => rw [ht] at h; cases h
            | ok r =>
              obtain ⟨go, e1, s1⟩ := r
              rw [ht] at h
              change (if go = true then _ else _) = _ at h
              split at h
              next hg =>
                subst hg
                obtain ⟨hgo, -, ⟨-, rfl, rfl⟩ | ⟨hf, -⟩⟩ := tryNext_ok ht
                · cases h
                  exact .inr (.inr (.inr (.inr (.inl ⟨h1, h2, h3, h4, hgo.symm, rfl, rfl⟩))))
                · cases hf
              next hg =>
                have hg : go = false := by simpa using hg
                subst hg
                dsimp only at h
                split at h
                · cases h
                next q hq =>
                  cases h
                  exact .inr (.inr (.inr (.inr (.inr ⟨h1, h2, h3, h4, e1, s1, q, rfl, hq, rfl, rfl⟩))))

theorem life_step {s s' : St} {o : Op} {e : List Eff} (h : step s o = .ok (e, s')) : Life s.running e s'.running := by
  cases o with
  | start =>
    have h : doStart s = (e, s') := Except.ok.inj h
    have := life_start s
    rw [h] at this; exact this
  | stop =>
    have h : doStop s = (e, s') := Except.ok.inj h
    have := life_stop s
    rw [h] at this; exact this
  | evData i =>
    simp only [step, evData] at h
    split at h
    next hr =>
      split at h
      · cases h
      · cases h; rw [hr]; exact .data _ (.nil _)
    · cases h; exact .nil _
  | evConnect i =>
    simp only [step, evConnect] at h
    split at h
    · cases h
    · cases h; exact .other _ rfl (.nil _)
  | evDisconnect i =>
    rcases evDisconnect_ok h with ⟨-, hh⟩ | ⟨p, -, ⟨-, q, -, rfl, -, rfl⟩ | ⟨-, e1, s1, ht, rfl, rfl⟩ | ⟨-, rfl, rfl⟩⟩
    · have := life_tail s false
      rw [← hh] at this; exact this
    · exact .other _ rfl (.nil _)
    · exact .other _ rfl ((life_try ht).append (life_tail s1 false))
    · exact .other _ rfl (life_tail s _)
  | connTimer i ok conn =>
    rcases connTimer_ok h with ⟨-, rfl, rfl⟩ | ⟨p, -, ⟨-, rfl, rfl⟩ | ⟨-, -, rfl, rfl⟩ | ⟨-, -, -, rfl, rfl⟩ | ⟨-, -, -, -, rfl, rfl⟩ | ⟨-, -, -, -, -, rfl, rfl⟩ | ⟨-, -, -, -, e1, s1, q, ht, -, rfl, rfl⟩⟩
    · exact .nil _
    · exact .nil _
    · exact .nil _
    · exact .nil _
    · exact .other _ rfl (.nil _)
    · exact .other _ rfl (.nil _)
    · have : Life s.running e1 s1.running := life_try ht
      exact .other _ rfl this
  | connected i =>
    simp only [step, setConn] at h
    split at h <;> cases h <;> exact .nil _
  | lost i =>
    simp only [step, setConn] at h
    split at h <;> cases h <;> exact .nil _
  | disconnectPort i =>
    simp only [step, disconnectPort] at h
    split at h
    · cases h; exact .nil _
    · cases h; exact .other _ rfl (.other _ rfl (.nil _))
  | configure i pos num =>
    simp only [step, configure] at h
    repeat' split at h
    all_goals (cases h; exact .nil _)

/-- Executions are taken apart at the front. -/
theorem run_cons {s s' : St} {o : Op} {os : List Op} {l : List Eff} (h : run s (o :: os) = .ok (l, s')) :
    ∃ e s1 m, step s o = .ok (e, s1) ∧ run s1 os = .ok (m, s') ∧ l = e ++ m := by
  simp only [run] at h
  cases h1 : step s o with
  | error x => rw [h1] at h; cases h
  | ok r =>
    obtain ⟨e, s1⟩ := r
    rw [h1] at h
    change (run s1 os >>= _) = _ at h
    cases h2 : run s1 os with
    | error x => rw [h2] at h; cases h
    | ok r2 =>
      obtain ⟨m, s2⟩ := r2
      rw [h2] at h
      cases h
      exact ⟨e, s1, m, rfl, h2, rfl⟩

theorem run_append {s s' : St} {os ps : List Op} {l : List Eff} (h : run s (os ++ ps) = .ok (l, s')) :
    ∃ s1 m n, run s os = .ok (m, s1) ∧ run s1 ps = .ok (n, s') ∧ l = m ++ n := by
  induction os generalizing s l with
  | nil => exact ⟨s, [], l, rfl, h, rfl⟩
  | cons o os ih =>
    obtain ⟨e, s1, m, h1, h2, rfl⟩ := run_cons h
    obtain ⟨s2, m1, m2, h3, h4, rfl⟩ := ih h2
    refine ⟨s2, e ++ m1, m2, ?_, h4, (List.append_assoc _ _ _).symm⟩
    simp only [run, h1]
    change (run s1 os >>= _) = _
    rw [h3]; rfl

theorem run_append_of {s s1 s' : St} {os ps : List Op} {m n : List Eff} (h : run s os = .ok (m, s1)) (g : run s1 ps = .ok (n, s')) :
    run s (os ++ ps) = .ok (m ++ n, s') := by
  induction os generalizing s m with
  | nil => cases h; exact g
  | cons o os ih =>
    obtain ⟨e, s2, k, h1, h2, rfl⟩ := run_cons h
    have := ih h2
    simp only [List.cons_append, run, h1]
    change (run s2 (os ++ ps) >>= _) = _
    rw [this]
    change Except.ok (e ++ (k ++ n), s') = _
    rw [List.append_assoc]

/-! ## Number of ports and notifications -/

theorem stopTail_ports (s : St) (d : Bool) : (stopTail s d).2.ports = s.ports ∧ (stopTail s d).2.auto = s.auto := by
  unfold stopTail doStop
  repeat' split
  all_goals exact ⟨rfl, rfl⟩

theorem stopTail_eff (s : St) (d : Bool) : (stopTail s d).1 = [] ∨ (stopTail s d).1 = [.itemsOff, .after] := by
  unfold stopTail doStop
  repeat' split
  all_goals first | exact .inl rfl | exact .inr rfl

/-- A step changes at most one port. -/
theorem step_ports {s s' : St} {o : Op} {e : List Eff} (h : step s o = .ok (e, s')) :
    s'.ports = s.ports ∨ ∃ i q, s'.ports = s.ports.set i q := by
  cases o with
  | start =>
    simp only [step, doStart] at h
    split at h <;> cases h <;> exact .inl rfl
  | stop =>
    simp only [step, doStop] at h
    split at h <;> cases h <;> exact .inl rfl
  | evData i =>
    simp only [step, evData] at h
    repeat' split at h
    all_goals (cases h <;> exact .inl rfl)
  | evConnect i =>
    simp only [step, evConnect] at h
    split at h <;> cases h
    exact .inl rfl
  | evDisconnect i =>
    rcases evDisconnect_ok h with ⟨-, hh⟩ | ⟨p, -, ⟨-, q, -, rfl, -, rfl⟩ | ⟨-, e1, s1, ht, rfl, rfl⟩ | ⟨-, rfl, rfl⟩⟩
    · have := stopTail_ports s false
      rw [← hh] at this; exact .inl this.1
    · exact .inr ⟨_, _, rfl⟩
    · rw [(stopTail_ports s1 false).1]
      obtain ⟨-, -, ⟨-, -, rfl⟩ | ⟨-, c, -, -, hp, -⟩⟩ := tryNext_ok ht
      · exact .inr ⟨_, _, rfl⟩
      · exact .inr ⟨_, _, hp⟩
    · exact .inl (stopTail_ports s _).1
  | connTimer i ok conn =>
    rcases connTimer_ok h with ⟨-, rfl, rfl⟩ | ⟨p, -, ⟨-, rfl, rfl⟩ | ⟨-, -, rfl, rfl⟩ | ⟨-, -, -, rfl, rfl⟩ | ⟨-, -, -, -, rfl, rfl⟩ | ⟨-, -, -, -, -, rfl, rfl⟩ | ⟨-, -, -, -, e1, s1, q, ht, -, rfl, rfl⟩⟩
    · exact .inl rfl
    · exact .inl rfl
    · exact .inr ⟨_, _, rfl⟩
    · exact .inr ⟨_, _, rfl⟩
    · exact .inr ⟨_, _, rfl⟩
    · exact .inr ⟨_, _, rfl⟩
    · obtain ⟨-, -, ⟨-, -, rfl⟩ | ⟨-, c, -, -, hp, -⟩⟩ := tryNext_ok ht
      · exact .inr ⟨i, _, by simp [setPort]; rfl⟩
      · exact .inr ⟨i, _, by simp only [setPort, hp, List.set_set]; rfl⟩
  | connected i =>
    simp only [step, setConn] at h
    split at h <;> cases h
    · exact .inl rfl
    · exact .inr ⟨_, _, rfl⟩
  | lost i =>
    simp only [step, setConn] at h
    split at h <;> cases h
    · exact .inl rfl
    · exact .inr ⟨_, _, rfl⟩
  | disconnectPort i =>
    simp only [step, disconnectPort] at h
    split at h <;> cases h
    · exact .inl rfl
    · exact .inr ⟨_, _, rfl⟩
  | configure i pos num =>
    simp only [step, configure] at h
    repeat' split at h
    all_goals cases h
    · exact .inl rfl
    · exact .inr ⟨_, _, rfl⟩
    · exact .inr ⟨_, _, rfl⟩
    · exact .inr ⟨_, _, rfl⟩

theorem step_length {s s' : St} {o : Op} {e : List Eff} (h : step s o = .ok (e, s')) : s'.ports.length = s.ports.length := by
  rcases step_ports h with h | ⟨i, q, h⟩ <;> rw [h]
  rw [List.length_set]

theorem told_append (l m : List Eff) : told (l ++ m) = told l ++ told m := List.filter_append ..

theorem told_try {s s' : St} {i : Nat} {p : Port} {can go : Bool} {e : List Eff}
    (h : tryNext s i p can = .ok (go, e, s')) : told e = [] := by
  obtain ⟨-, -, ⟨-, rfl, rfl⟩ | ⟨-, c, -, -, -, ⟨hr, rfl | rfl | rfl⟩ | ⟨-, h1, h2, rfl⟩⟩⟩ := tryNext_ok h <;> rfl

theorem told_tail (s : St) (d : Bool) : told (stopTail s d).1 = [] := by
  rcases stopTail_eff s d with h | h <;> rw [h] <;> rfl

theorem lt_of_some {α : Type} {l : List α} {i : Nat} {a : α} (h : l[i]? = some a) : i < l.length :=
  (List.getElem?_eq_some_iff.1 h).1

theorem not_lt_of_none {α : Type} {l : List α} {i : Nat} (h : l[i]? = none) : ¬ i < l.length := by
  have := List.getElem?_eq_none_iff.1 h; omega

theorem told_step {s s' : St} {o : Op} {e : List Eff} (h : step s o = .ok (e, s')) : told e = due s.ports.length [o] := by
  cases o with
  | start =>
    simp only [step, doStart] at h
    split at h <;> cases h <;> rfl
  | stop =>
    simp only [step, doStop] at h
    split at h <;> cases h <;> rfl
  | evData i =>
    simp only [step, evData] at h
    repeat' split at h
    all_goals (cases h <;> rfl)
  | evConnect i =>
    simp only [step, evConnect] at h
    split at h <;> cases h
    next hp => simp [due, lt_of_some hp, told]
  | evDisconnect i =>
    rcases evDisconnect_ok h with ⟨hn, hh⟩ | ⟨p, hp, ⟨-, q, -, rfl, -, rfl⟩ | ⟨-, e1, s1, ht, rfl, rfl⟩ | ⟨-, rfl, rfl⟩⟩
    · have := told_tail s false
      rw [← hh] at this
      simp only [due]
      rw [if_neg (not_lt_of_none hn)]; exact this
    · simp [due, lt_of_some hp, told]
    · have : told (.disconnect i :: (e1 ++ (stopTail s1 false).1)) = .disconnect i :: told (e1 ++ (stopTail s1 false).1) := rfl
      rw [this, told_append, told_try ht, told_tail]
      simp [due, lt_of_some hp]
    · have : told (.disconnect i :: (stopTail s (mandatory s p)).1) = .disconnect i :: told (stopTail s (mandatory s p)).1 := rfl
      rw [this, told_tail]
      simp [due, lt_of_some hp]
  | connTimer i ok conn =>
    rcases connTimer_ok h with ⟨-, rfl, rfl⟩ | ⟨p, -, ⟨-, rfl, rfl⟩ | ⟨-, -, rfl, rfl⟩ | ⟨-, -, -, rfl, rfl⟩ | ⟨-, -, -, -, rfl, rfl⟩ | ⟨-, -, -, -, -, rfl, rfl⟩ | ⟨-, -, -, -, e1, s1, q, ht, -, rfl, rfl⟩⟩
    · rfl
    · rfl
    · rfl
    · rfl
    · rfl
    · rfl
    · have : told e1 = [] := told_try ht
      exact this
  | connected i =>
    simp only [step, setConn] at h
    split at h <;> cases h <;> rfl
  | lost i =>
    simp only [step, setConn] at h
    split at h <;> cases h <;> rfl
  | disconnectPort i =>
    simp only [step, disconnectPort] at h
    split at h <;> cases h
    next hn => simp [due, not_lt_of_none hn, told]
    next hp => simp [due, lt_of_some hp, told]
  | configure i pos num =>
    simp only [step, configure] at h
    repeat' split at h
    all_goals (cases h; rfl)

theorem due_cons (n : Nat) (o : Op) (os : List Op) : due n (o :: os) = due n [o] ++ due n os := by
  cases o <;> simp only [due, List.nil_append] <;> split <;> rfl

end Verif.ModConn
