import Verif.ModConnLemmas

/-!
# Attempts to connect a port again
-/

namespace Verif.ModConn
open Verif.ModConn.Spec

/-- Operations on another port, or on none. -/
def apart (i : Nat) : Op → Bool
  | .evDisconnect j | .connTimer j _ _ | .connected j | .lost j | .disconnectPort j | .configure j _ _ => decide (j ≠ i)
  | _ => true

theorem attempts_append (i : Nat) (l m : List Eff) : attempts i (l ++ m) = attempts i l + attempts i m := List.count_append

theorem attempts_try {s s' : St} {i j : Nat} {p : Port} {can go : Bool} {e : List Eff}
    (h : tryNext s i p can = .ok (go, e, s')) : attempts j e = 0 := by
  obtain ⟨-, -, ⟨-, rfl, rfl⟩ | ⟨-, c, -, -, -, ⟨hr, rfl | rfl | rfl⟩ | ⟨-, h1, h2, rfl⟩⟩⟩ := tryNext_ok h <;> simp [attempts]

theorem attempts_tail (s : St) (d : Bool) (j : Nat) : attempts j (stopTail s d).1 = 0 := by
  rcases stopTail_eff s d with h | h <;> rw [h] <;> simp [attempts]

theorem set_other {l : List Port} {i j : Nat} {q : Port} (h : j ≠ i) : (l.set j q)[i]? = l[i]? := List.getElem?_set_ne h

/-- Other operations leave the port and make no attempts. -/
theorem frame {s s' : St} {o : Op} {e : List Eff} {i : Nat} (h : step s o = .ok (e, s')) (ha : apart i o = true) :
    s'.ports[i]? = s.ports[i]? ∧ attempts i e = 0 := by
  cases o with
  | start =>
    simp only [step, doStart] at h
    split at h <;> cases h <;> simp [attempts]
  | stop =>
    simp only [step, doStop] at h
    split at h <;> cases h <;> simp [attempts]
  | evData j =>
    simp only [step, evData] at h
    repeat' split at h
    all_goals (cases h <;> simp [attempts])
  | evConnect j =>
    simp only [step, evConnect] at h
    split at h <;> cases h
    simp [attempts]
  | evDisconnect j =>
    have hj : j ≠ i := by simpa [apart] using ha
    rcases evDisconnect_ok h with ⟨-, hh⟩ | ⟨p, -, ⟨-, q, -, rfl, -, rfl⟩ | ⟨-, e1, s1, ht, rfl, rfl⟩ | ⟨-, rfl, rfl⟩⟩
    · have h1 := (stopTail_ports s false).1
      have h2 := attempts_tail s false i
      rw [← hh] at h1 h2
      exact ⟨by rw [h1], h2⟩
    · exact ⟨set_other hj, by simp [attempts]⟩
    · have h2 : attempts i (.disconnect j :: (e1 ++ (stopTail s1 false).1)) = 0 := by
        have : attempts i (.disconnect j :: (e1 ++ (stopTail s1 false).1)) = attempts i (e1 ++ (stopTail s1 false).1) := by
          simp [attempts]
        rw [this, attempts_append, attempts_try ht, attempts_tail]
      refine ⟨?_, h2⟩
      rw [(stopTail_ports s1 false).1]
      obtain ⟨-, -, ⟨-, -, rfl⟩ | ⟨-, c, -, -, hp, -⟩⟩ := tryNext_ok ht
      · exact set_other hj
      · rw [hp]; exact set_other hj
    · have h2 : attempts i (.disconnect j :: (stopTail s (mandatory s p)).1) = 0 := by
        have : attempts i (.disconnect j :: (stopTail s (mandatory s p)).1) = attempts i (stopTail s (mandatory s p)).1 := by
          simp [attempts]
        rw [this, attempts_tail]
      exact ⟨by rw [(stopTail_ports s _).1], h2⟩
  | connTimer j ok conn =>
    have hj : j ≠ i := by simpa [apart] using ha
    rcases connTimer_ok h with ⟨-, rfl, rfl⟩ | ⟨p, -, ⟨-, rfl, rfl⟩ | ⟨-, -, rfl, rfl⟩ | ⟨-, -, -, rfl, rfl⟩ | ⟨-, -, -, -, rfl, rfl⟩ | ⟨-, -, -, -, -, rfl, rfl⟩ | ⟨-, -, -, -, e1, s1, q, ht, -, rfl, rfl⟩⟩
    · exact ⟨rfl, rfl⟩
    · exact ⟨rfl, rfl⟩
    · exact ⟨set_other hj, rfl⟩
    · exact ⟨set_other hj, rfl⟩
    · exact ⟨set_other hj, by simp [attempts, hj]⟩
    · exact ⟨set_other hj, by simp [attempts, hj]⟩
    · have h2 : attempts i (.attempt j :: e1) = 0 := by
        have : attempts i (.attempt j :: e1) = attempts i e1 := by simp [attempts, hj]
        rw [this, attempts_try ht]
      refine ⟨(set_other hj).trans ?_, h2⟩
      obtain ⟨-, -, ⟨-, -, rfl⟩ | ⟨-, c, -, -, hp, -⟩⟩ := tryNext_ok ht
      · exact set_other hj
      · rw [hp]; exact set_other hj
  | connected j =>
    have hj : j ≠ i := by simpa [apart] using ha
    simp only [step, setConn] at h
    split at h <;> cases h
    · exact ⟨rfl, rfl⟩
    · exact ⟨set_other hj, rfl⟩
  | lost j =>
    have hj : j ≠ i := by simpa [apart] using ha
    simp only [step, setConn] at h
    split at h <;> cases h
    · exact ⟨rfl, rfl⟩
    · exact ⟨set_other hj, rfl⟩
  | disconnectPort j =>
    have hj : j ≠ i := by simpa [apart] using ha
    simp only [step, disconnectPort] at h
    split at h <;> cases h
    · exact ⟨rfl, rfl⟩
    · exact ⟨set_other hj, by simp [attempts]⟩
  | configure j pos num =>
    have hj : j ≠ i := by simpa [apart] using ha
    simp only [step, configure] at h
    repeat' split at h
    all_goals cases h
    · exact ⟨rfl, rfl⟩
    · exact ⟨set_other hj, rfl⟩
    · exact ⟨set_other hj, rfl⟩
    · exact ⟨set_other hj, rfl⟩

/-- State of port `i` which may be connected again at most `L` times, after `a` attempts and `n` disconnect
events; with `ex` nothing connects the port. -/
structure Track (i : Nat) (L : Nat) (ex : Prop) (n a : Nat) (s : St) : Prop where
  ex : ∃ p, s.ports[i]? = some p ∧ p.period = true ∧ (ex → p.connected = false ∧ p.req = none) ∧
    ((n = 0 ∧ a = 0 ∧ p.limit = L ∧ p.doing = false ∧ p.timer = false) ∨
     (n = 1 ∧ p.doing = true ∧ p.timer = true ∧ 0 ≤ p.limit ∧ (a : Int) + p.limit + 1 = L) ∨
     (n = 1 ∧ p.doing = false ∧ p.timer = false ∧ a ≤ L ∧ (ex → a = L)))

/-- Operations on port `i` which connect it. -/
def joins (i : Nat) : Op → Bool
  | .connTimer j ok _ => decide (j = i) && ok
  | .connected j => decide (j = i)
  | _ => false

theorem getElem_set_self {l : List Port} {i : Nat} {p q : Port} (h : l[i]? = some p) : (l.set i q)[i]? = some q := by
  rw [List.getElem?_set_self (lt_of_some h)]

/-- The counter with a positive or zero limit. -/
theorem countDown_nonneg {p : Port} (hp : p.period = true) (hl : 0 ≤ p.limit) :
    countDown p = (decide (p.limit > 0), { p with limit := p.limit - 1 }) := by
  unfold countDown
  rw [if_pos hp, if_neg (by omega)]

theorem Track.step {s s' : St} {o : Op} {e : List Eff} {i L n a : Nat} {ex : Prop} (t : Track i L ex n a s)
    (h : step s o = .ok (e, s')) (hk : ∀ pos num, o ≠ .configure i pos num) (hn : n + losses i [o] ≤ 1) (hx : ex → joins i o = false) :
    Track i L ex (n + losses i [o]) (a + attempts i e) s' := by
  obtain ⟨p, hp, hper, hex, hs⟩ := t.ex
  rcases ha : apart i o with _ | _
  · cases o with
    | start => cases ha
    | stop => cases ha
    | evData j => cases ha
    | evConnect j => cases ha
    | evDisconnect j =>
      have : j = i := by simpa [apart] using ha
      subst this
      have hl : losses j [.evDisconnect j] = 1 := by simp [losses]
      rw [hl] at hn ⊢
      have hn0 : n = 0 := by omega
      subst hn0
      obtain ⟨-, rfl, hlim, hd, htm⟩ : 0 = 0 ∧ a = 0 ∧ p.limit = L ∧ p.doing = false ∧ p.timer = false := by
        rcases hs with hs | hs | hs
        · exact hs
        · exact absurd hs.1 (by decide)
        · exact absurd hs.1 (by decide)
      have hcd := countDown_nonneg hper (show 0 ≤ p.limit by omega)
      rcases evDisconnect_ok h with ⟨hnone, -⟩ | ⟨p', hp', ⟨hq, q, hgo, rfl, rfl, rfl⟩ | ⟨hq, e1, s1, ht, rfl, rfl⟩ | ⟨hq, rfl, rfl⟩⟩
      · rw [hp] at hnone; cases hnone
      · rw [hp] at hp'; cases hp'
        rw [hcd] at hgo ⊢
        have hgo : p.limit > 0 := by simpa using hgo
        refine ⟨⟨_, getElem_set_self hp, hper, hex, .inr (.inl ⟨rfl, rfl, rfl, ?_, ?_⟩)⟩⟩
        · change 0 ≤ p.limit - 1; omega
        · change ((0 + attempts j [.disconnect j] : Nat) : Int) + (p.limit - 1) + 1 = L
          simp [attempts]; omega
      · rw [hp] at hp'; cases hp'
        obtain ⟨hgo, -, ⟨hc, -, -⟩ | ⟨-, c, hc, -, hports, -⟩⟩ := tryNext_ok ht
        · cases hc
        rw [hcd] at hgo hports
        have hz : L = 0 := by
          have : ¬ p.limit > 0 := by simpa using hgo
          omega
        have h2 : attempts j (.disconnect j :: (e1 ++ (stopTail s1 false).1)) = 0 := by
          have : attempts j (.disconnect j :: (e1 ++ (stopTail s1 false).1)) = attempts j (e1 ++ (stopTail s1 false).1) := by
            simp [attempts]
          rw [this, attempts_append, attempts_try ht, attempts_tail]
        rw [h2]
        refine ⟨⟨{ p with limit := p.limit - 1, doing := false, connected := c }, ?_, hper, fun x => ⟨?_, (hex x).2⟩, .inr (.inr ⟨rfl, rfl, htm, Nat.zero_le _, fun _ => hz.symm⟩)⟩⟩
        · rw [(stopTail_ports s1 false).1, hports]; exact getElem_set_self hp
        · cases c with
          | false => rfl
          | true => rw [(hex x).1] at hc; cases hc rfl
      · rw [hp] at hp'; cases hp'
        have h2 : attempts j (.disconnect j :: (stopTail s (mandatory s p)).1) = 0 := by
          have : attempts j (.disconnect j :: (stopTail s (mandatory s p)).1) = attempts j (stopTail s (mandatory s p)).1 := by
            simp [attempts]
          rw [this, attempts_tail]
        rw [h2]
        refine ⟨⟨p, ?_, hper, hex, .inr (.inr ⟨rfl, hd, htm, Nat.zero_le _, fun x => ?_⟩)⟩⟩
        · rw [(stopTail_ports s _).1]; exact hp
        · rw [(hex x).2] at hq; cases hq
    | connTimer j ok conn =>
      have : j = i := by simpa [apart] using ha
      subst this
      have hl : losses j [.connTimer j ok conn] = 0 := by simp [losses]
      rw [hl]
      have hok : ex → ok = false := fun x => by simpa [joins] using hx x
      rcases connTimer_ok h with ⟨hnone, -, -⟩ | ⟨p', hp', hrest⟩
      · rw [hp] at hnone; cases hnone
      rw [hp] at hp'; cases hp'
      rcases hrest with ⟨-, rfl, rfl⟩ | ⟨h1, h2, rfl, rfl⟩ | ⟨h1, h2, h3, rfl, rfl⟩ | ⟨h1, h2, h3, h4, rfl, rfl⟩ | ⟨h1, h2, h3, h4, hgo, rfl, rfl⟩ | ⟨h1, h2, h3, h4, e1, s1, q, ht, hq, rfl, rfl⟩
      · exact ⟨⟨p, hp, hper, hex, hs⟩⟩
      · rcases hs with hs | hs | hs
        · rw [hs.2.2.2.2] at h1; cases h1
        · rw [hs.2.1] at h2; cases h2
        · rw [hs.2.2.1] at h1; cases h1
      · rcases hs with hs | ⟨s1, s2, s3, s4, s5⟩ | hs
        · rw [hs.2.2.2.2] at h1; cases h1
        · refine ⟨⟨_, getElem_set_self hp, hper, hex, .inr (.inr ⟨s1, rfl, rfl, ?_, fun x => ?_⟩)⟩⟩
          · simp [attempts]; omega
          · rw [(hex x).1] at h3; cases h3
        · rw [hs.2.2.1] at h1; cases h1
      · have e1 : attempts j [.attempt j] = 1 := by simp [attempts]
        rw [e1]
        rcases hs with hs | ⟨s1, s2, s3, s4, s5⟩ | hs
        · rw [hs.2.2.2.2] at h1; cases h1
        · refine ⟨⟨_, getElem_set_self hp, hper, fun x => ?_, .inr (.inr ⟨s1, rfl, rfl, ?_, fun x => ?_⟩)⟩⟩
          · rw [hok x] at h4; cases h4
          · omega
          · rw [hok x] at h4; cases h4
        · rw [hs.2.2.1] at h1; cases h1
      · have e1 : attempts j [.attempt j] = 1 := by simp [attempts]
        rw [e1]
        rcases hs with hs | ⟨s1, s2, s3, s4, s5⟩ | hs
        · rw [hs.2.2.2.2] at h1; cases h1
        · have hcd := countDown_nonneg hper s4
          rw [hcd] at hgo ⊢
          have hgo : p.limit > 0 := by simpa using hgo
          refine ⟨⟨_, getElem_set_self hp, hper, hex, .inr (.inl ⟨s1, s2, s3, ?_, ?_⟩)⟩⟩
          · change 0 ≤ p.limit - 1; omega
          · change ((a + 1 : Nat) : Int) + (p.limit - 1) + 1 = L; omega
        · rw [hs.2.2.1] at h1; cases h1
      · have e2 : attempts j (.attempt j :: e1) = 1 := by
          have : attempts j (.attempt j :: e1) = attempts j e1 + 1 := by simp [attempts]
          rw [this, attempts_try ht]
        rw [e2]
        rcases hs with hs | ⟨s2, s3, s4, s5, s6⟩ | hs
        · rw [hs.2.2.2.2] at h1; cases h1
        · have hcd := countDown_nonneg hper s5
          obtain ⟨hgo, -, ⟨hc, -, -⟩ | ⟨-, c, hc, -, hports, -⟩⟩ := tryNext_ok ht
          · cases hc
          rw [hcd] at hgo hports
          have hz : p.limit = 0 := by
            have : ¬ p.limit > 0 := by simpa using hgo
            omega
          rw [hports, getElem_set_self hp] at hq
          have hq := Option.some.inj hq
          refine ⟨⟨_, getElem_set_self (by rw [hports]; exact getElem_set_self hp), ?_, fun x => ?_, .inr (.inr ⟨s2, ?_, rfl, ?_, fun x => ?_⟩)⟩⟩
          · rw [← hq]; exact hper
          · rw [← hq]
            refine ⟨?_, (hex x).2⟩
            cases c with
            | false => rfl
            | true => rw [h3] at hc; cases hc rfl
          · rw [← hq]
          · omega
          · omega
        · rw [hs.2.2.1] at h1; cases h1
    | connected j =>
      have : j = i := by simpa [apart] using ha
      subst this
      have hl : losses j [.connected j] = 0 := by simp [losses]
      rw [hl]
      simp only [ModConn.step, setConn, hp] at h
      cases h
      exact ⟨⟨_, getElem_set_self hp, hper, fun x => absurd (hx x) (by simp [joins]), hs⟩⟩
    | lost j =>
      have : j = i := by simpa [apart] using ha
      subst this
      have hl : losses j [.lost j] = 0 := by simp [losses]
      rw [hl]
      simp only [ModConn.step, setConn, hp] at h
      cases h
      exact ⟨⟨_, getElem_set_self hp, hper, fun x => ⟨rfl, (hex x).2⟩, hs⟩⟩
    | disconnectPort j =>
      have : j = i := by simpa [apart] using ha
      subst this
      have hl : losses j [.disconnectPort j] = 0 := by simp [losses]
      rw [hl]
      simp only [ModConn.step, disconnectPort, hp] at h
      cases h
      have : attempts j [.closed j, .disconnect j] = 0 := by simp [attempts]
      rw [this]
      exact ⟨⟨_, getElem_set_self hp, hper, fun x => ⟨rfl, (hex x).2⟩, hs⟩⟩
    | configure j pos num =>
      have : j = i := by simpa [apart] using ha
      subst this
      exact absurd rfl (hk pos num)
  · have hl : losses i [o] = 0 := by
      cases o <;> try simp [losses]
      next j =>
        have hj : j ≠ i := by simpa [apart] using ha
        rw [List.count_eq_zero]
        intro hm
        rw [List.mem_singleton] at hm
        exact hj (Op.evDisconnect.inj hm).symm
    obtain ⟨h1, h2⟩ := frame h ha
    rw [h2, hl]
    exact ⟨⟨p, by rw [h1]; exact hp, hper, hex, hs⟩⟩

theorem losses_cons (i : Nat) (o : Op) (os : List Op) : losses i (o :: os) = losses i [o] + losses i os := by
  have : o :: os = [o] ++ os := rfl
  rw [this, losses, List.count_append]; rfl

theorem Track.run {s s' : St} {os : List Op} {l : List Eff} {i L n a : Nat} {ex : Prop} (t : Track i L ex n a s)
    (h : run s os = .ok (l, s')) (hk : Keeps i os) (hn : n + losses i os ≤ 1) (hx : ex → ∀ o ∈ os, joins i o = false) :
    Track i L ex (n + losses i os) (a + attempts i l) s' := by
  induction os generalizing s l n a with
  | nil => cases h; exact t
  | cons o os ih =>
    obtain ⟨e, s1, m, h1, h2, rfl⟩ := run_cons h
    rw [losses_cons] at hn ⊢
    have t1 := t.step h1 (fun pos num hh => hk pos num (hh ▸ List.mem_cons_self)) (by omega) (fun x => hx x o List.mem_cons_self)
    rw [attempts_append, ← Nat.add_assoc, ← Nat.add_assoc]
    exact ih t1 h2 (fun pos num hm => hk pos num (List.mem_cons_of_mem _ hm)) (by omega) (fun x o ho => hx x o (List.mem_cons_of_mem _ ho))

/-! ## Something left to do -/

theorem busy_iff (s : St) : alive s = true ↔ Busy s := by
  simp [alive, Busy]

theorem busy_set {s : St} {i : Nat} {p q : Port} (hb : Busy s) (hp : s.ports[i]? = some p) (h1 : q.pool = p.pool)
    (h2 : p.connected = true ∨ p.doing = true → q.connected = true ∨ q.doing = true) : Busy (setPort s i q) := by
  obtain ⟨r, hr, h3, h4⟩ := hb
  obtain ⟨j, hj⟩ := List.mem_iff_getElem?.1 hr
  by_cases hji : i = j
  · subst hji
    rw [hp] at hj; cases hj
    exact ⟨q, List.mem_iff_getElem?.2 ⟨i, getElem_set_self hp⟩, by rw [h1]; exact h3, h2 h4⟩
  · exact ⟨r, List.mem_iff_getElem?.2 ⟨j, by rw [← hj]; exact set_other hji⟩, h3, h4⟩

theorem busy_gentle {s s' : St} {o : Op} {e : List Eff} (h : step s o = .ok (e, s')) (hg : gentle o = true) (hb : Busy s) : Busy s' := by
  cases o with
  | start =>
    simp only [step, doStart] at h
    split at h <;> cases h <;> exact hb
  | stop =>
    simp only [step, doStop] at h
    split at h <;> cases h <;> exact hb
  | evData j =>
    simp only [step, evData] at h
    repeat' split at h
    all_goals (cases h <;> exact hb)
  | evConnect j =>
    simp only [step, evConnect] at h
    split at h <;> cases h
    exact hb
  | evDisconnect j => cases hg
  | connTimer j ok conn =>
    obtain ⟨g1, g2⟩ : ok = true ∧ conn = true := by simpa [gentle] using hg
    rcases connTimer_ok h with ⟨-, rfl, rfl⟩ | ⟨p, hp, ⟨-, rfl, rfl⟩ | ⟨h1, h2, rfl, rfl⟩ | ⟨-, -, h3, rfl, rfl⟩ | ⟨-, -, -, -, rfl, rfl⟩ | ⟨-, -, -, h4, -, rfl, rfl⟩ | ⟨-, -, -, h4, e1, s1, q, ht, -, rfl, rfl⟩⟩
    · exact hb
    · exact hb
    · exact busy_set hb hp rfl id
    · exact busy_set hb hp rfl (fun _ => .inl h3)
    · exact busy_set hb hp rfl (fun _ => .inl g2)
    · rw [g1] at h4; cases h4
    · rw [g1] at h4; cases h4
  | connected j =>
    simp only [step, setConn] at h
    split at h <;> cases h
    · exact hb
    next hp => exact busy_set hb hp rfl (fun _ => .inl rfl)
  | lost j => cases hg
  | disconnectPort j => cases hg
  | configure j pos num => cases hg

end Verif.ModConn
