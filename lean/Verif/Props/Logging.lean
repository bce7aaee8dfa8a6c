import Verif.LoggingLemmas

/-!
# Theorems about the logger (C91)
-/

namespace Verif.Logging

theorem Log.le {limit : Nat} {ms : List Msg} {ts : List Text} {n : Nat} {last : Int} (h : Log limit ms ts n last) : n ≤ ms.length := by
  induction h with
  | nil => simp
  | dropped m _ _ _ ih => simp; omega
  | shown m t _ _ _ _ ih => simp

theorem takes_reach {c : Cfg} {level : Int} {k : Out} (h : Takes c level k) : level ≤ c.level := by
  unfold Cfg.level
  cases k with
  | console => have : level ≤ c.debugLevel := h; split <;> omega
  | file => have : level ≤ c.fileLevel := h.2; split <;> omega
  | syslog => exact h.2.2

theorem takes_one {c : Cfg} {m : Msg} {k : Out} (h : Takes c m.level k) (t1 t2 t3 : Text) :
    ∃ t ∈ [t1, t2, t3], linesOf k (lines c m t1 t2 t3) = [t] := by
  unfold lines linesOf
  cases k with
  | console =>
    have h1 : m.level ≤ c.debugLevel := h
    refine ⟨t1, by simp, ?_⟩
    rw [if_pos h1]
    by_cases h2 : m.level < 0 <;> by_cases h3 : c.hasFile = true ∧ m.level ≤ c.fileLevel <;>
      by_cases h4 : c.hasSyslog = true ∧ m.level ≤ c.syslogLevel <;> simp [h2, h3, h4, Out.has]
  | file =>
    refine ⟨t2, by simp, ?_⟩
    rw [if_pos (⟨h.1, h.2⟩ : c.hasFile = true ∧ m.level ≤ c.fileLevel)]
    by_cases h2 : m.level < 0 <;> by_cases h3 : m.level ≤ c.debugLevel <;>
      by_cases h4 : c.hasSyslog = true ∧ m.level ≤ c.syslogLevel <;> simp [h2, h3, h4, Out.has]
  | syslog =>
    refine ⟨t3, by simp, ?_⟩
    rw [if_pos (⟨h.1, h.2.1⟩ : c.hasSyslog = true ∧ m.level ≤ c.syslogLevel)]
    by_cases h2 : m.level < 0 <;> by_cases h3 : m.level ≤ c.debugLevel <;>
      by_cases h4 : c.hasFile = true ∧ m.level ≤ c.fileLevel <;> simp [h2, h3, h4, Out.has]

/-- What the entry of a place knows. -/
def Knows (s : St) (l : Nat) (f : String) (count n : Nat) (last : Int) : Prop :=
  match entryAt s l f with
  | none => count = 0 ∧ n = 0 ∧ last = 0
  | some e => e.counter = count ∧ e.dropCnt = n ∧ e.lastTm = last

theorem knows_get {s : St} {m : Msg} {count n : Nat} {last : Int} (h : Knows s m.line m.file count n last) :
    (getEntry s m).counter = count ∧ (getEntry s m).dropCnt = n ∧ (getEntry s m).lastTm = last := by
  unfold Knows at h
  cases he : entryAt s m.line m.file with
  | none => rw [he] at h; rw [getEntry_none he]; exact ⟨h.1.symm, h.2.1.symm, h.2.2.symm⟩
  | some e => rw [he] at h; rw [getEntry_some he]; exact h

theorem run_place {l : Nat} {f : String} {k : Out} {limit : Nat} : ∀ (cs : List (Cfg × Msg)) (s s' : St) (r : List (Msg × List (Chan × Text)))
    (ms : List Msg) (ts : List Text) (n : Nat) (last : Int), run s cs = some (s', r) →
    (∀ x ∈ cs, x.2.isAt l f = true → Plain x.1 ∧ x.1.limit = limit ∧ Takes x.1 x.2.level k) → Log limit ms ts n last →
    Knows s l f ms.length n last → ms.length + cs.length < 2 ^ 32 →
    ∃ n' last', Log limit (ms ++ (ofPlace l f r).map (·.1)) (ts ++ (ofPlace l f r).flatMap fun x => linesOf k x.2) n' last'
  | [], s, s', r, ms, ts, n, last, h, _, hl, _, _ => by
    unfold run at h
    injection h with h
    injection h with _ h
    subst h
    exact ⟨n, last, by simpa [ofPlace] using hl⟩
  | (c, m) :: cs, s, s', r, ms, ts, n, last, h, hp, hl, hk, hlen => by
    unfold run at h
    cases hd : debug c s m with
    | none => rw [hd] at h; cases h
    | some so =>
      obtain ⟨s1, o⟩ := so
      rw [hd] at h
      dsimp only at h
      cases hr : run s1 cs with
      | none => rw [hr] at h; cases h
      | some sr =>
        obtain ⟨s2, r2⟩ := sr
        rw [hr] at h
        injection h with h
        injection h with _ h
        subst h
        have hp' : ∀ x ∈ cs, x.2.isAt l f = true → Plain x.1 ∧ x.1.limit = limit ∧ Takes x.1 x.2.level k := fun x hx => hp x (by simp [hx])
        simp only [List.length_cons] at hlen
        by_cases hat : m.isAt l f = true
        rotate_left
        · have hn : ¬ (m.line = l ∧ m.file = f) := by simpa [Msg.isAt] using hat
          have hk' : Knows s1 l f ms.length n last := by unfold Knows; rw [debug_other hd hn]; exact hk
          have := run_place cs s1 s2 r2 ms ts n last hr hp' hl hk' (by omega)
          simpa [ofPlace, hat] using this
        · obtain ⟨h1, h2, h3⟩ := hp (c, m) (by simp) hat
          have hloc : m.line = l ∧ m.file = f := by simpa [Msg.isAt] using hat
          obtain ⟨rfl, rfl⟩ := hloc
          obtain ⟨g1, g2, g3⟩ := knows_get hk
          have hdo : doOutput c s m = some (s1, o) := by unfold debug at hd; rwa [if_pos (takes_reach h3)] at hd
          obtain ⟨e', e1, e2, e3⟩ := doOutput_plain h1 hdo
          have hnle := hl.le
          rw [g1, Nat.mod_eq_of_lt (by omega)] at e2
          have hgoal : ∀ (ts' : List Text) (n' : Nat) (last' : Int), Log limit (ms ++ [m]) (ts ++ linesOf k o) n' last' →
              e'.dropCnt = n' → e'.lastTm = last' →
              ∃ n' last', Log limit (ms ++ (ofPlace m.line m.file ((m, o) :: r2)).map (·.1))
                (ts ++ (ofPlace m.line m.file ((m, o) :: r2)).flatMap fun x => linesOf k x.2) n' last' := by
            intro _ n' last' hlog hn' hlast'
            have hk' : Knows s1 m.line m.file (ms ++ [m]).length n' last' := by
              unfold Knows
              rw [e1, if_pos ⟨rfl, rfl⟩]
              exact ⟨by rw [e2]; simp, hn', hlast'⟩
            have := run_place cs s1 s2 r2 (ms ++ [m]) (ts ++ linesOf k o) n' last' hr hp' hlog hk' (by simp; omega)
            simpa [ofPlace, hat] using this
          have hhalf : half = 500000 := rfl
          rcases e3 with ⟨d1, d2, d3, d4, d5⟩ | ⟨d1, d2, d3, t1, t2, t3, d4, d5⟩
          · rw [h2, e2] at d1
            rw [g3, hhalf] at d2
            rw [g2, Nat.mod_eq_of_lt (by omega)] at d4
            refine hgoal ts (n + 1) last ?_ d4 (by rw [d5, g3])
            subst d3
            simpa [linesOf] using Log.dropped m hl (by omega) (by omega)
          · rw [h2, e2, g3, hhalf] at d1
            obtain ⟨t, ht, htl⟩ := takes_one h3 t1 t2 t3
            have htt := d5 t ht
            rw [g2] at htt
            refine hgoal ts 0 m.now ?_ d2 d3
            rw [d4, htl]
            exact Log.shown m t hl (d1.elim (fun d => .inl (by omega)) (fun d => .inr (by omega))) htt.1 htt.2

/-- On each output, the lines of a place of the program account for all of its messages, whatever happens elsewhere.

Messages which come closer than half a second are dropped once more than the limit came. -/
theorem C91_log {cs : List (Cfg × Msg)} {s : St} {r : List (Msg × List (Chan × Text))} {l : Nat} {f : String} {k : Out} {limit : Nat}
    (h : run .init cs = some (s, r)) (hlen : cs.length < 2 ^ 32)
    (hp : ∀ x ∈ cs, x.2.isAt l f = true → Plain x.1 ∧ x.1.limit = limit ∧ Takes x.1 x.2.level k) :
    ∃ n last, Log limit ((ofPlace l f r).map (·.1)) ((ofPlace l f r).flatMap fun x => linesOf k x.2) n last := by
  simpa using run_place cs .init s r [] [] 0 0 h hp .nil ⟨rfl, rfl, rfl⟩ (by simpa using hlen)

/-- Every message is shown or counted. -/
theorem C91_total {limit : Nat} {ms : List Msg} {ts : List Text} {n : Nat} {last : Int} (h : Log limit ms ts n last) :
    ms.length = ts.length + (ts.map fun t => t.drop.getD 0).sum + n := by
  induction h with
  | nil => rfl
  | dropped m _ _ _ ih => simp; omega
  | @shown ms ts n last m t _ _ _ hd ih =>
    have : t.drop.getD 0 = n := by rw [hd]; split <;> simp_all
    simp [this]; omega

/-- Up to the limit all messages are shown. -/
theorem C91_first {limit : Nat} {ms : List Msg} {ts : List Text} {n : Nat} {last : Int} (h : Log limit ms ts n last) (hl : ms.length ≤ limit) :
    n = 0 ∧ ts.length = ms.length ∧ ∀ t ∈ ts, t.drop = none := by
  induction h with
  | nil => simp
  | dropped m _ h1 _ _ => simp at hl; omega
  | shown m t _ _ _ hd ih =>
    obtain ⟨h1, h2, h3⟩ := ih (by simp at hl; omega)
    refine ⟨rfl, by simp [h2], ?_⟩
    intro x hx
    rcases List.mem_append.1 hx with hx | hx
    · exact h3 x hx
    · simp at hx; subst hx; rw [hd, h1]; rfl

/-- A message appears on the outputs which take its level, with its text, and on no other. -/
theorem C91_outputs {c : Cfg} {s s' : St} {m : Msg} {o : List (Chan × Text)} (hc : Plain c) (h : debug c s m = some (s', o)) :
    o = [] ∨ ∀ k, (Takes c m.level k → ∃ t, linesOf k o = [t] ∧ t.shows m.text) ∧ (¬ Takes c m.level k → linesOf k o = []) := by
  unfold debug at h
  split at h
  rotate_left
  · injection h with h; injection h with _ h; exact .inl h.symm
  rename_i hr
  obtain ⟨e', _, _, e3⟩ := doOutput_plain hc h
  rcases e3 with ⟨_, _, d3, _⟩ | ⟨_, _, _, t1, t2, t3, d4, d5⟩
  · exact .inl d3
  right
  intro k
  constructor
  · intro hk
    obtain ⟨t, ht, htl⟩ := takes_one hk t1 t2 t3
    exact ⟨t, by rw [d4, htl], (d5 t ht).1⟩
  · intro hk
    rw [d4]
    unfold lines linesOf
    cases k with
    | console =>
      have h1 : ¬ m.level ≤ c.debugLevel := hk
      by_cases h2 : m.level < 0 <;> by_cases h3 : c.hasFile = true ∧ m.level ≤ c.fileLevel <;>
        by_cases h4 : c.hasSyslog = true ∧ m.level ≤ c.syslogLevel <;> simp [h1, h2, h3, h4, Out.has]
    | file =>
      have h1 : ¬ (c.hasFile = true ∧ m.level ≤ c.fileLevel) := hk
      rw [if_neg h1]
      by_cases h2 : m.level < 0 <;> by_cases h3 : m.level ≤ c.debugLevel <;>
        by_cases h4 : c.hasSyslog = true ∧ m.level ≤ c.syslogLevel <;> simp [h2, h3, h4, Out.has]
    | syslog =>
      have h1 : ¬ (c.hasSyslog = true ∧ m.level ≤ c.syslogLevel) := fun hh => hk ⟨hh.1, hh.2, hr⟩
      rw [if_neg h1]
      by_cases h2 : m.level < 0 <;> by_cases h3 : m.level ≤ c.debugLevel <;>
        by_cases h4 : c.hasFile = true ∧ m.level ≤ c.fileLevel <;> simp [h2, h3, h4, Out.has]

/-- Errors go to the error output, everything else to the normal one. -/
theorem C91_error {c : Cfg} {s s' : St} {m : Msg} {o : List (Chan × Text)} (hc : Plain c) (h : debug c s m = some (s', o)) :
    (∀ t, (Chan.err, t) ∈ o ∨ (Chan.sysErr, t) ∈ o → m.level < 0) ∧ ∀ t, (Chan.out, t) ∈ o ∨ (Chan.sysInfo, t) ∈ o → 0 ≤ m.level := by
  unfold debug at h
  split at h
  rotate_left
  · injection h with h; injection h with _ h; subst h; simp
  obtain ⟨e', _, _, e3⟩ := doOutput_plain hc h
  rcases e3 with ⟨_, _, d3, _⟩ | ⟨_, _, _, t1, t2, t3, d4, d5⟩
  · subst d3; simp
  subst d4
  unfold lines
  constructor
  · intro t ht
    by_cases h2 : m.level < 0
    · exact h2
    rw [if_neg h2, if_neg h2] at ht
    revert ht
    split <;> split <;> split <;> simp
  · intro t ht
    by_cases h2 : 0 ≤ m.level
    · exact h2
    have h3 : m.level < 0 := by omega
    rw [if_pos h3, if_pos h3] at ht
    revert ht
    split <;> split <;> split <;> simp

theorem ite_some {α : Type} (p : Prop) [Decidable p] (a b : α) : ∃ r, (if p then some a else some b) = some r := by
  split <;> exact ⟨_, rfl⟩

/-- The logger never leaves its array of lines. -/
theorem C91_lines {c : Cfg} {s : St} {m : Msg} (h : m.line + 1024 < 2 ^ 32) (h0 : s.maxLine < 2 ^ 32) : ∃ r, debug c s m = some r := by
  unfold debug
  split
  rotate_left
  · exact ⟨_, rfl⟩
  unfold doOutput
  dsimp only
  have h1 : ¬ m.line ≥ (if m.line ≥ s.maxLine then ({ s with maxLine := extend s.maxLine (((m.line / 1024 + 1) * 1024) % 2 ^ 32) } : St) else s).maxLine := by
    split
    · unfold extend
      rw [Nat.mod_eq_of_lt (by omega)]
      dsimp only
      split <;> omega
    · omega
  rw [if_neg h1]
  exact ite_some _ _ _

/-! ## Examples -/

def exCfg : Cfg := { hasFile := true, limit := 1 }

theorem exPlain (c : Cfg) (h : c.debugMask = exCfg.debugMask ∧ c.errorMask = exCfg.errorMask ∧ c.fileMask = exCfg.fileMask) : Plain c := by
  refine ⟨?_, ?_, ?_⟩
  · rw [h.1]; decide
  · rw [h.2.1]; decide
  · rw [h.2.2]; decide

def exMsg (level : Int) (text : String) (now : Int) : Msg := ⟨level, "a.cxx", 7, "f", text, now, 0⟩

/-- Four messages of a place with the limit 1 and one of another place in between. -/
def exCalls : List (Cfg × Msg) :=
  [(exCfg, exMsg 0 "a" 1000000), (exCfg, exMsg 0 "b" 1100000), (exCfg, ⟨0, "b.cxx", 7, "g", "x", 1150000, 0⟩), (exCfg, exMsg 0 "c" 1200000),
    (exCfg, exMsg 0 "d" 1600000)]

example : ∃ n last, Log 1 ((exCalls.map (·.2)).filter fun m => m.isAt 7 "a.cxx")
    [⟨[.pfx "", .tstamp, .msg "a"], none⟩, ⟨[.pfx "", .tstamp, .msg "d"], some 2⟩] n last := by
  have := C91_log (l := 7) (f := "a.cxx") (k := .console) (limit := 1) (cs := exCalls) (s := ((run .init exCalls).getD (.init, [])).1)
    (r := ((run .init exCalls).getD (.init, [])).2) (by decide +kernel) (by decide) (by
      intro x hx _
      simp only [exCalls, List.mem_cons, List.not_mem_nil, or_false] at hx
      rcases hx with rfl | rfl | rfl | rfl | rfl <;> exact ⟨exPlain _ ⟨rfl, rfl, rfl⟩, rfl, (by show (0 : Int) ≤ 1; decide)⟩)
  obtain ⟨n, last, h⟩ := this
  refine ⟨n, last, ?_⟩
  have e1 : (ofPlace 7 "a.cxx" ((run .init exCalls).getD (.init, [])).2).flatMap (fun x => linesOf .console x.2) =
      [⟨[.pfx "", .tstamp, .msg "a"], none⟩, ⟨[.pfx "", .tstamp, .msg "d"], some 2⟩] := by decide +kernel
  rw [e1] at h
  exact h

/-- The level of the system log does not count for the decision whether a message is looked at. -/
theorem C91_syslog_counterexample : ∃ (c : Cfg) (s : St) (m : Msg), Plain c ∧ c.hasSyslog = true ∧ m.level ≤ c.syslogLevel ∧
    debug c s m = some (s, []) :=
  ⟨{ syslogLevel := 3, hasSyslog := true }, .init, exMsg 2 "a" 0, exPlain _ ⟨rfl, rfl, rfl⟩, rfl, by decide, by decide +kernel⟩

/-- The level which is shown is that of the first message of the place. -/
theorem C91_level_counterexample : ∃ (c : Cfg) (m1 m2 : Msg) (s1 s2 : St) (o1 : List (Chan × Text)) (t : Text), m1.isAt m2.line m2.file = true ∧
    debug c .init m1 = some (s1, o1) ∧ debug c s1 m2 = some (s2, [(.out, t)]) ∧ m2.level = 1 ∧ Fld.level (some 0) ∈ t.flds :=
  ⟨{ debugMask := { level := true, message := true } }, exMsg 0 "a" 0, exMsg 1 "b" 0, _, _, _, _, by decide, rfl, rfl, rfl, by decide⟩

/-- When the level of an output is lowered for a while, messages dropped before are counted nowhere. -/
theorem C91_lowered_counterexample : ∃ (cs : List (Cfg × Msg)) (s : St) (r : List (Msg × List (Chan × Text))),
    (∀ x ∈ cs, Plain x.1 ∧ x.1.limit = 1 ∧ x.2.isAt 7 "a.cxx" = true ∧ x.2.level ≤ x.1.level) ∧ run .init cs = some (s, r) ∧ r.length = 4 ∧
      (r.flatMap fun x => linesOf .console x.2) = [⟨[.pfx "", .tstamp, .msg "a"], none⟩, ⟨[.pfx "", .tstamp, .msg "d"], none⟩] := by
  refine ⟨[(exCfg, exMsg 1 "a" 1000000), (exCfg, exMsg 1 "b" 1100000), ({ exCfg with debugLevel := 0 }, exMsg 1 "c" 1600000),
    (exCfg, exMsg 1 "d" 2600000)], _, _, ?_, rfl, rfl, by decide +kernel⟩
  intro x hx
  simp only [List.mem_cons, List.not_mem_nil, or_false] at hx
  rcases hx with rfl | rfl | rfl | rfl <;> exact ⟨exPlain _ ⟨rfl, rfl, rfl⟩, rfl, by decide, by decide⟩

end Verif.Logging
