import Verif.Spec.ThrStart

/-!
# Calls one after the other
-/

namespace Verif.ThrStart

theorem run_append (s : S) (as : List Act) (a : Act) : run s (as ++ [a]) = (run s as).bind fun t => step t a := by
  induction as generalizing s with
  | nil => simp [run]
  | cons b bs ih =>
    simp only [List.cons_append, run]
    cases step s b with
    | none => rfl
    | some t => simpa using ih t

/-- Not ended and its handle not used up. -/
def N (s : S) : Prop := ∃ h, s.handle = some h ∧ h ∉ s.joins

/-- Changing, or the thread has just ended. -/
def Q (s : S) : Prop := s.st = .changing ∨ (s.st = .stopped ∧ Silent s)

structure Base (s : S) : Prop where
  one : ∀ (i : Nat) (o : Os), s.os[i]? = some o → o.phase ≠ .gone → s.handle = some i
  hb : ∀ h, s.handle = some h → h < s.os.length
  hj : ∀ h ∈ s.joins, h < s.os.length
  nd : s.joins.Nodup
  ub : s.ub = false
  real : s.st ≠ .created → s.real = true

structure IdleF (s : S) : Prop where
  ret : ∀ c ∈ s.calls, Returned c
  nch : s.st ≠ .changing
  off : s.st = .created ∨ s.st = .stopped → Silent s
  on : s.st = .running ∨ s.st = .error → N s

def PcF (s : S) : Pc → Prop
  | .make false => s.st = .changing ∧ Silent s
  | .make true => Q s ∧ N s
  | .create => Q s ∧ Silent s
  | .wait => s.st ≠ .created ∧ N s
  | .startEnd _ => s.st ≠ .created ∧ N s
  | .halt => False
  | .poll => Q s ∧ N s
  | .join => s.st = .stopped ∧ Silent s ∧ N s
  | .stopEnd true => s.st = .stopped ∧ Silent s
  | .stopEnd false => Q s ∧ N s
  | .done _ _ => False

structure BusyF (s : S) (ds : List Pc) (c : Pc) : Prop where
  eq : s.calls = ds ++ [c]
  ret : ∀ d ∈ ds, Returned d
  pc : PcF s c

/-- Holds after each sequential run of external calls. -/
def Inv (s : S) : Prop := s.killed = true ∨ (Base s ∧ (IdleF s ∨ ∃ ds c, BusyF s ds c))

theorem inv_init : Inv init := by
  refine .inr ⟨⟨?_, ?_, ?_, ?_, rfl, ?_⟩, .inl ⟨?_, ?_, ?_, ?_⟩⟩ <;> simp [init, Silent]

theorem PcF.notReturned {s : S} {c : Pc} (h : PcF s c) : ¬ Returned c := by
  rintro ⟨b, r, rfl⟩
  exact h

/-- An active call is the last one. -/
theorem BusyF.at {s : S} {ds : List Pc} {c x : Pc} {k : Nat} (h : BusyF s ds c) (hk : s.calls[k]? = some x)
    (hx : ¬ Returned x) : k = ds.length ∧ x = c := by
  rw [h.eq] at hk
  rw [List.getElem?_append] at hk
  split at hk
  · exact absurd (h.ret x (List.mem_of_getElem? hk)) hx
  · rename_i hlt
    by_cases he : k = ds.length
    · subst he
      simp at hk
      exact ⟨rfl, hk.symm⟩
    · rw [List.getElem?_eq_none (by simp; omega)] at hk
      cases hk

theorem BusyF.set {s : S} {ds : List Pc} {c x : Pc} (h : BusyF s ds c) : s.calls.set ds.length x = ds ++ [x] := by
  rw [h.eq]; simp

theorem not_returned_make (b : Bool) : ¬ Returned (.make b) := by rintro ⟨_, _, h⟩; cases h
theorem not_returned_create : ¬ Returned .create := by rintro ⟨_, _, h⟩; cases h
theorem not_returned_wait : ¬ Returned .wait := by rintro ⟨_, _, h⟩; cases h
theorem not_returned_startEnd (b : Bool) : ¬ Returned (.startEnd b) := by rintro ⟨_, _, h⟩; cases h
theorem not_returned_halt : ¬ Returned .halt := by rintro ⟨_, _, h⟩; cases h
theorem not_returned_poll : ¬ Returned .poll := by rintro ⟨_, _, h⟩; cases h
theorem not_returned_join : ¬ Returned .join := by rintro ⟨_, _, h⟩; cases h
theorem not_returned_stopEnd (b : Bool) : ¬ Returned (.stopEnd b) := by rintro ⟨_, _, h⟩; cases h

theorem ret_snoc {ds : List Pc} (h : ∀ d ∈ ds, Returned d) (b r : Bool) : ∀ d ∈ ds ++ [.done b r], Returned d := by
  intro d hd
  rcases List.mem_append.mp hd with h1 | h1
  · exact h d h1
  · simp at h1; exact ⟨b, r, h1⟩

/-- The active call, given one which has not returned. -/
theorem busy_of {s : S} {k : Nat} {x : Pc} (h : IdleF s ∨ ∃ ds c, BusyF s ds c) (hk : s.calls[k]? = some x)
    (hx : ¬ Returned x) : ∃ ds, BusyF s ds x ∧ k = ds.length := by
  rcases h with h | ⟨ds, c, h⟩
  · exact absurd (h.ret x (List.mem_of_getElem? hk)) hx
  · obtain ⟨h1, h2⟩ := h.at hk hx
    subst h2
    exact ⟨ds, h, h1⟩

theorem Silent.of_alive {s : S} (h : Silent s) {i : Nat} {o : Os} (ho : s.os[i]? = some o) : o.phase = .gone :=
  h o (List.mem_of_getElem? ho)

theorem alive_false {s : S} (hb : Base s) {h : Nat} (hh : s.handle = some h) (ha : alive s h = false) : Silent s := by
  intro o ho
  obtain ⟨i, hi⟩ := List.mem_iff_getElem?.mp ho
  cases hp : o.phase with
  | gone => rfl
  | loop =>
    have := hb.one i o hi (by simp [hp])
    rw [hh] at this
    cases this
    simp [alive, hi, hp] at ha
  | left =>
    have := hb.one i o hi (by simp [hp])
    rw [hh] at this
    cases this
    simp [alive, hi, hp] at ha

/-- A change of `os[i]` which leaves ended threads as they are. -/
theorem Base.setOs {s : S} (hb : Base s) {i : Nat} {o o' : Os} {t : S} (ho : s.os[i]? = some o) (hp : o.phase ≠ .gone)
    (hos : t.os = s.os.set i o') (hh : t.handle = s.handle) (hj : t.joins = s.joins) (hu : t.ub = s.ub)
    (hr : t.real = s.real) (hst : t.st = s.st ∨ t.st = .stopped ∧ s.st ≠ .created) : Base t := by
  refine ⟨?_, ?_, ?_, ?_, ?_, ?_⟩
  · intro j p hj' hp'
    rw [hos] at hj'
    rw [hh]
    by_cases hij : i = j
    · subst hij
      exact hb.one i o ho hp
    · rw [List.getElem?_set_ne hij] at hj'
      exact hb.one j p hj' hp'
  · intro h h1; rw [hos]; simp; exact hb.hb h (hh ▸ h1)
  · intro h h1; rw [hos]; simp; exact hb.hj h (hj ▸ h1)
  · rw [hj]; exact hb.nd
  · rw [hu]; exact hb.ub
  · intro h1
    rw [hr]
    rcases hst with h2 | ⟨h2, h3⟩
    · exact hb.real (h2 ▸ h1)
    · exact hb.real h3

theorem Base.sameOs {s t : S} (hb : Base s) (hos : t.os = s.os) (hh : t.handle = s.handle) (hj : t.joins = s.joins)
    (hu : t.ub = s.ub) (hr : t.st ≠ .created → t.real = true) : Base t := by
  refine ⟨?_, ?_, ?_, ?_, ?_, hr⟩
  · rw [hos, hh]; exact hb.one
  · rw [hos, hh]; exact hb.hb
  · rw [hos, hj]; exact hb.hj
  · rw [hj]; exact hb.nd
  · rw [hu]; exact hb.ub

theorem silent_congr {s t : S} (h : t.os = s.os) : Silent t ↔ Silent s := by simp [Silent, h]

theorem n_congr {s t : S} (h1 : t.handle = s.handle) (h2 : t.joins = s.joins) : N t ↔ N s := by simp [N, h1, h2]

theorem q_congr {s t : S} (h1 : t.os = s.os) (h2 : t.st = s.st) : Q t ↔ Q s := by simp [Q, silent_congr h1, h2]

theorem pcf_congr {s t : S} (h1 : t.os = s.os) (h2 : t.st = s.st) (h3 : t.handle = s.handle) (h4 : t.joins = s.joins)
    (c : Pc) : PcF t c ↔ PcF s c := by
  cases c with
  | make b => cases b <;> simp [PcF, silent_congr h1, n_congr h3 h4, q_congr h1 h2, h2]
  | stopEnd b => cases b <;> simp [PcF, silent_congr h1, n_congr h3 h4, q_congr h1 h2, h2]
  | _ => simp [PcF, silent_congr h1, n_congr h3 h4, q_congr h1 h2, h2]

/-- Steps which change neither threads nor calls nor the state. -/
theorem Inv.same {s t : S} (hb : Base s) (hi : IdleF s ∨ ∃ ds c, BusyF s ds c) (h1 : t.os = s.os) (h2 : t.st = s.st)
    (h3 : t.handle = s.handle) (h4 : t.joins = s.joins) (h5 : t.calls = s.calls) (h6 : t.ub = s.ub)
    (h7 : t.real = s.real) : Inv t := by
  refine .inr ⟨hb.sameOs h1 h3 h4 h6 (by rw [h2, h7]; exact hb.real), ?_⟩
  rcases hi with hi | ⟨ds, c, hi⟩
  · refine .inl ⟨by rw [h5]; exact hi.ret, by rw [h2]; exact hi.nch, ?_, ?_⟩
    · rw [h2, silent_congr h1]; exact hi.off
    · rw [h2, n_congr h3 h4]; exact hi.on
  · exact .inr ⟨ds, c, by rw [h5]; exact hi.eq, hi.ret, (pcf_congr h1 h2 h3 h4 c).mpr hi.pc⟩

/-- Threads of the operating system. -/
theorem PcF.leave {s t : S} {i : Nat} {o : Os} (ho : s.os[i]? = some o) (hp : o.phase ≠ .gone)
    (h2 : t.st = s.st) (h3 : t.handle = s.handle) (h4 : t.joins = s.joins) {c : Pc} (h : PcF s c) : PcF t c := by
  have hns : ¬ Silent s := fun hs => hp (hs.of_alive ho)
  have hn := n_congr h3 h4
  have hq : Q s → Q t := by
    rintro (h | ⟨_, h⟩)
    · exact .inl (h2 ▸ h)
    · exact absurd h hns
  cases c with
  | make b =>
    cases b
    · exact absurd h.2 hns
    · exact ⟨hq h.1, hn.mpr h.2⟩
  | create => exact absurd h.2 hns
  | wait => exact ⟨h2 ▸ h.1, hn.mpr h.2⟩
  | startEnd r => exact ⟨h2 ▸ h.1, hn.mpr h.2⟩
  | halt => exact h.elim
  | poll => exact ⟨hq h.1, hn.mpr h.2⟩
  | join => exact absurd h.2.1 hns
  | stopEnd b =>
    cases b
    · exact ⟨hq h.1, hn.mpr h.2⟩
    · exact absurd h.2 hns
  | done => exact h.elim

theorem Inv.leave {s t : S} {i : Nat} {o o' : Os} (hb : Base s) (hi : IdleF s ∨ ∃ ds c, BusyF s ds c)
    (ho : s.os[i]? = some o) (hp : o.phase ≠ .gone) (h1 : t.os = s.os.set i o') (h2 : t.st = s.st)
    (h3 : t.handle = s.handle) (h4 : t.joins = s.joins) (h5 : t.calls = s.calls) (h6 : t.ub = s.ub)
    (h7 : t.real = s.real) : Inv t := by
  have hns : ¬ Silent s := fun hs => hp (hs.of_alive ho)
  refine .inr ⟨hb.setOs ho hp h1 h3 h4 h6 h7 (.inl h2), ?_⟩
  rcases hi with hi | ⟨ds, c, hi⟩
  · refine .inl ⟨by rw [h5]; exact hi.ret, by rw [h2]; exact hi.nch, ?_, ?_⟩
    · rw [h2]; exact fun h => absurd (hi.off h) hns
    · rw [h2, n_congr h3 h4]; exact hi.on
  · exact .inr ⟨ds, c, by rw [h5]; exact hi.eq, hi.ret, hi.pc.leave ho hp h2 h3 h4⟩

theorem Inv.finish {s t : S} {i : Nat} {o : Os} (hb : Base s) (hi : IdleF s ∨ ∃ ds c, BusyF s ds c)
    (ho : s.os[i]? = some o) (hp : o.phase ≠ .gone) (h1 : t.os = s.os.set i { o with phase := .gone })
    (h2 : t.st = .stopped)
    (h3 : t.handle = s.handle) (h4 : t.joins = s.joins) (h5 : t.calls = s.calls) (h6 : t.ub = s.ub)
    (h7 : t.real = s.real) : Inv t := by
  have hns : ¬ Silent s := fun hs => hp (hs.of_alive ho)
  have hh := hb.one i o ho hp
  have hs : Silent t := by
    intro p hp'
    obtain ⟨j, hj⟩ := List.mem_iff_getElem?.mp hp'
    rw [h1] at hj
    by_cases hij : i = j
    · subst hij
      have hlt : i < s.os.length := (List.getElem?_eq_some_iff.mp ho).1
      rw [List.getElem?_set_self hlt] at hj
      cases hj; rfl
    · rw [List.getElem?_set_ne hij] at hj
      cases hg : p.phase with
      | gone => rfl
      | loop => have := hb.one j p hj (by simp [hg]); rw [hh] at this; cases this; exact absurd rfl hij
      | left => have := hb.one j p hj (by simp [hg]); rw [hh] at this; cases this; exact absurd rfl hij
  have hq : Q t := .inr ⟨h2, hs⟩
  have hn := n_congr h3 h4
  rcases hi with hi | ⟨ds, c, hi⟩
  · refine .inr ⟨hb.setOs ho hp h1 h3 h4 h6 h7 (.inr ⟨h2, fun hc => hns (hi.off (.inl hc))⟩), .inl ⟨?_, ?_, ?_, ?_⟩⟩
    · rw [h5]; exact hi.ret
    · rw [h2]; simp
    · exact fun _ => hs
    · rw [h2]; simp
  · have hst : s.st ≠ .created := by
      have := hi.pc
      intro hc
      cases c with
      | make b => cases b <;> simp [PcF, Q, hc] at this
      | stopEnd b => cases b <;> simp [PcF, Q, hc] at this
      | _ => simp [PcF, Q, hc] at this
    refine .inr ⟨hb.setOs ho hp h1 h3 h4 h6 h7 (.inr ⟨h2, hst⟩), .inr ⟨ds, c, by rw [h5]; exact hi.eq, hi.ret, ?_⟩⟩
    have h := hi.pc
    cases c with
    | make b =>
      cases b
      · exact absurd h.2 hns
      · exact ⟨hq, hn.mpr h.2⟩
    | create => exact absurd h.2 hns
    | wait => exact ⟨by simp [h2], hn.mpr h.2⟩
    | startEnd r => exact ⟨by simp [h2], hn.mpr h.2⟩
    | halt => exact h.elim
    | poll => exact ⟨hq, hn.mpr h.2⟩
    | join => exact absurd h.2.1 hns
    | stopEnd b =>
      cases b
      · exact ⟨hq, hn.mpr h.2⟩
      · exact absurd h.2 hns
    | done => exact h.elim

theorem Inv.stepOs {s t : S} {a : Act} (hb : Base s) (hi : IdleF s ∨ ∃ ds c, BusyF s ds c)
    (h : ThrStart.stepOs s a = some t) : Inv t := by
  cases a <;> simp only [ThrStart.stepOs] at h <;> try (cases h; done)
  case takeStop i =>
    split at h <;> cases h
    exact Inv.same hb hi rfl rfl rfl rfl rfl rfl rfl
  case takeConfirm i k =>
    split at h <;> cases h
    exact Inv.same hb hi rfl rfl rfl rfl rfl rfl rfl
  case quit i =>
    split at h <;> cases h
    exact Inv.same hb hi rfl rfl rfl rfl rfl rfl rfl
  case leave i =>
    split at h
    · rename_i o ho
      split at h <;> cases h
      rename_i hc
      exact Inv.leave hb hi ho (by simp [hc.1]) rfl rfl rfl rfl rfl rfl rfl
    · cases h
  case die i =>
    split at h
    · rename_i o ho
      split at h <;> cases h
      rename_i hc
      exact Inv.leave hb hi ho (by simp [hc.1]) rfl rfl rfl rfl rfl rfl rfl
    · cases h
  case finish i =>
    split at h
    · rename_i o ho
      split at h <;> cases h
      rename_i hc
      exact Inv.finish hb hi ho (by simp [hc]) rfl rfl rfl rfl rfl rfl rfl
    · cases h

theorem Inv.enterStart {s : S} (hb : Base s) (hi : IdleF s) : Inv (ThrStart.enterStart s true) := by
  have hc : s.st = .created ∨ s.st = .stopped ∨ s.st = .running ∨ s.st = .error ∨ s.st = .changing := by
    cases s.st <;> simp
  rcases hc with hst | hst | hst | hst | hst
  · rw [show ThrStart.enterStart s true =
      { s with real := true, st := .changing, calls := s.calls ++ [.make false] } by simp [ThrStart.enterStart, hst]]
    exact .inr ⟨hb.sameOs rfl rfl rfl rfl (fun _ => rfl), .inr ⟨_, _, rfl, hi.ret, rfl, hi.off (.inl hst)⟩⟩
  · rw [show ThrStart.enterStart s true =
      { s with real := true, st := .changing, calls := s.calls ++ [.make false] } by simp [ThrStart.enterStart, hst]]
    exact .inr ⟨hb.sameOs rfl rfl rfl rfl (fun _ => rfl), .inr ⟨_, _, rfl, hi.ret, rfl, hi.off (.inr hst)⟩⟩
  · rw [show ThrStart.enterStart s true = { s with calls := s.calls ++ [.done true true] } by
      simp [ThrStart.enterStart, hst]]
    exact .inr ⟨hb.sameOs rfl rfl rfl rfl (fun h => hb.real h), .inl ⟨ret_snoc hi.ret _ _, hi.nch, hi.off, hi.on⟩⟩
  · have hr : s.real = true := hb.real (by simp [hst])
    rw [show ThrStart.enterStart s true =
      { s with real := true, st := .changing, calls := s.calls ++ [.make true] } by
        simp [ThrStart.enterStart, hst, hr]]
    exact .inr ⟨hb.sameOs rfl rfl rfl rfl (fun _ => rfl), .inr ⟨_, _, rfl, hi.ret, .inl rfl, hi.on (.inr hst)⟩⟩
  · exact absurd hst hi.nch

theorem Inv.enterStop {s : S} (hb : Base s) (hi : IdleF s) : Inv (ThrStart.enterStop s none) := by
  have hc : (s.st = .created ∨ s.st = .stopped ∨ s.st = .error) ∨ s.st = .running ∨ s.st = .changing := by
    cases s.st <;> simp
  rcases hc with hst | hst | hst
  · rw [show ThrStart.enterStop s none = { s with calls := s.calls ++ [.done false true] } by
      rcases hst with hst | hst | hst <;> simp [ThrStart.enterStop, hst]]
    exact .inr ⟨hb.sameOs rfl rfl rfl rfl (fun h => hb.real h), .inl ⟨ret_snoc hi.ret _ _, hi.nch, hi.off, hi.on⟩⟩
  · have hr : s.real = true := hb.real (by simp [hst])
    rw [show ThrStart.enterStop s none =
      { s with st := .changing, stops := s.stops + 1, calls := s.calls ++ [.poll] } by
        simp [ThrStart.enterStop, needstop, hst, hr]]
    exact .inr ⟨hb.sameOs rfl rfl rfl rfl (fun _ => hr), .inr ⟨_, _, rfl, hi.ret, .inl rfl, hi.on (.inl hst)⟩⟩
  · exact absurd hst hi.nch

theorem Inv.stepCall {s t : S} {a : Act} (hb : Base s) (hi : IdleF s ∨ ∃ ds c, BusyF s ds c)
    (hseq : ((∃ r, a = .start r) ∨ ∃ b, a = .stop b) → ∀ c ∈ s.calls, Returned c)
    (hext : a ≠ .start false ∧ ∀ i, a ≠ .stop (some i))
    (h : ThrStart.stepCall s a = some t) : Inv t := by
  have idle (hc : ∀ c ∈ s.calls, Returned c) : IdleF s := by
    rcases hi with hi | ⟨ds, c, hi⟩
    · exact hi
    · exact absurd (hc c (by rw [hi.eq]; simp)) hi.pc.notReturned
  cases a <;> simp only [ThrStart.stepCall] at h <;> try (cases h; done)
  case start real =>
    cases h
    cases real with
    | false => exact absurd rfl hext.1
    | true => exact Inv.enterStart hb (idle (hseq (.inl ⟨_, rfl⟩)))
  case stop by_ =>
    cases by_ with
    | some i => exact absurd rfl (hext.2 i)
    | none =>
      cases h
      exact Inv.enterStop hb (idle (hseq (.inr ⟨_, rfl⟩)))
  case make k =>
    split at h <;> cases h
    rename_i kl hk
    obtain ⟨ds, hd, rfl⟩ := busy_of hi hk (not_returned_make _)
    cases kl with
    | false =>
      refine .inr ⟨hb.sameOs rfl rfl rfl rfl (fun h => hb.real h), .inr ⟨ds, .create, hd.set, hd.ret, ?_⟩⟩
      exact ⟨.inl hd.pc.1, hd.pc.2⟩
    | true =>
      obtain ⟨hq, g, hg, hgj⟩ := hd.pc
      simp only [ThrStart.make, if_true, ThrStart.kill, hg, if_neg hgj]
      split
      · exact .inl rfl
      · rename_i ha
        have hs := alive_false hb hg (by simpa using ha)
        refine .inr ⟨hb.sameOs rfl rfl rfl rfl (fun h => hb.real h), .inr ⟨ds, .create, ?_, hd.ret, ?_⟩⟩
        · exact hd.set
        · exact ⟨(q_congr (t := { s with working := true, calls := s.calls.set ds.length .create }) rfl rfl).mpr hq, hs⟩
  case create k =>
    split at h <;> cases h
    rename_i hk
    obtain ⟨ds, hd, rfl⟩ := busy_of hi hk not_returned_create
    obtain ⟨hq, hs⟩ := hd.pc
    have hr : s.real = true := by
      apply hb.real
      rcases hq with h | h
      · simp [h]
      · simp [h.1]
    have hj : s.os.length ∉ s.joins := fun h => Nat.lt_irrefl _ (hb.hj _ h)
    have hst : s.st ≠ .created := by
      rcases hq with h | h
      · simp [h]
      · simp [h.1]
    let t : S := { s with os := s.os ++ [⟨.loop, false⟩], handle := some s.os.length,
                          confirms := s.confirms ++ [ds.length], calls := s.calls.set ds.length .wait }
    have et : ThrStart.create s ds.length = t := by simp [ThrStart.create, hr, t]
    rw [et]
    have hbt : Base t := by
      refine ⟨?_, ?_, ?_, hb.nd, hb.ub, fun h => hb.real h⟩
      · intro i o ho hp
        change (s.os ++ [⟨.loop, false⟩])[i]? = some o at ho
        change some s.os.length = some i
        rw [List.getElem?_append] at ho
        split at ho
        · exact absurd (hs.of_alive ho) hp
        · rename_i hlt
          by_cases he : i = s.os.length
          · rw [he]
          · rw [List.getElem?_eq_none (by simp; omega)] at ho
            cases ho
      · intro h hh
        change some s.os.length = some h at hh
        cases hh
        simp [t]
      · intro h hh
        have := hb.hj h hh
        simp [t]; omega
    exact .inr ⟨hbt, .inr ⟨ds, .wait, hd.set, hd.ret, hst, s.os.length, rfl, hj⟩⟩
  case answered k =>
    split at h
    · rename_i hk
      split at h <;> cases h
      obtain ⟨ds, hd, rfl⟩ := busy_of hi hk not_returned_wait
      exact .inr ⟨hb.sameOs rfl rfl rfl rfl (fun h => hb.real h), .inr ⟨ds, .startEnd true, hd.set, hd.ret, hd.pc⟩⟩
    · cases h
  case unanswered k =>
    split at h <;> cases h
    rename_i hk
    obtain ⟨ds, hd, rfl⟩ := busy_of hi hk not_returned_wait
    exact .inr ⟨hb.sameOs rfl rfl rfl rfl (fun h => hb.real h), .inr ⟨ds, .startEnd false, hd.set, hd.ret, hd.pc⟩⟩
  case startEnd k =>
    split at h <;> cases h
    rename_i res hk
    obtain ⟨ds, hd, rfl⟩ := busy_of hi hk (not_returned_startEnd _)
    refine .inr ⟨hb.sameOs rfl rfl rfl rfl (fun _ => hb.real hd.pc.1), .inl ⟨?_, ?_, ?_, fun _ => hd.pc.2⟩⟩
    · change ∀ c ∈ s.calls.set ds.length _, _
      rw [hd.set]; exact ret_snoc hd.ret _ _
    · cases res <;> simp
    · cases res <;> simp
  case halt k =>
    split at h <;> cases h
    rename_i hk
    obtain ⟨ds, hd, rfl⟩ := busy_of hi hk not_returned_halt
    exact hd.pc.elim
  case see k =>
    split at h
    · rename_i hk
      split at h <;> cases h
      rename_i hst
      obtain ⟨ds, hd, rfl⟩ := busy_of hi hk not_returned_poll
      have hs : Silent s := by
        rcases hd.pc.1 with h | h
        · rw [h] at hst; cases hst
        · exact h.2
      exact .inr ⟨hb.sameOs rfl rfl rfl rfl (fun h => hb.real h),
        .inr ⟨ds, .join, hd.set, hd.ret, hst, hs, hd.pc.2⟩⟩
    · cases h
  case cancel k =>
    split at h <;> cases h
    rename_i hk
    obtain ⟨ds, hd, rfl⟩ := busy_of hi hk not_returned_poll
    obtain ⟨hq, g, hg, hgj⟩ := hd.pc
    simp only [ThrStart.cancel, hg, if_neg hgj]
    split
    · rename_i o ho
      by_cases hp : o.phase = .gone
      · have hbt : Base { s with os := s.os.set g { o with canceled := true } } := by
          refine ⟨?_, ?_, ?_, hb.nd, hb.ub, hb.real⟩
          · intro i p hi' hp'
            change (s.os.set g _)[i]? = some p at hi'
            by_cases hij : g = i
            · subst hij
              exact hg
            · rw [List.getElem?_set_ne hij] at hi'
              exact hb.one i p hi' hp'
          · intro h hh; simp; exact hb.hb h hh
          · intro h hh; simp; exact hb.hj h hh
        refine .inr ⟨by rw [hg] at hbt; exact hbt, .inr ⟨ds, .poll, hd.eq, hd.ret, ?_, g, rfl, hgj⟩⟩
        rcases hq with h | ⟨h, h'⟩
        · exact .inl h
        · refine .inr ⟨h, ?_⟩
          intro p hp'
          rcases List.mem_or_eq_of_mem_set hp' with h1 | h1
          · exact h' p h1
          · subst h1; exact hp
      · exact Inv.leave (o' := { o with canceled := true }) hb hi ho hp rfl rfl hg.symm rfl rfl rfl rfl
    · exact Inv.same hb hi rfl rfl rfl rfl rfl rfl rfl
  case timeout k =>
    split at h <;> cases h
    rename_i hk
    obtain ⟨ds, hd, rfl⟩ := busy_of hi hk not_returned_poll
    exact .inr ⟨hb.sameOs rfl rfl rfl rfl (fun h => hb.real h), .inr ⟨ds, .stopEnd false, hd.set, hd.ret, hd.pc⟩⟩
  case join k =>
    split at h
    · rename_i hk
      obtain ⟨ds, hd, rfl⟩ := busy_of hi hk not_returned_join
      obtain ⟨hst, hs, g, hg, hgj⟩ := hd.pc
      have hga : alive s g = false := by
        unfold alive
        split
        · rename_i o ho
          simp [hs.of_alive ho]
        · rfl
      simp only [ThrStart.join, hg, if_neg hgj, hga, Bool.false_eq_true, if_false] at h
      cases h
      let t : S := { s with joins := s.joins ++ [g], calls := s.calls.set ds.length (.stopEnd true) }
      have hbt : Base t := by
        refine ⟨hb.one, hb.hb, ?_, ?_, hb.ub, hb.real⟩
        · intro h hh
          rcases List.mem_append.mp hh with h1 | h1
          · exact hb.hj h h1
          · simp at h1; subst h1; exact hb.hb _ hg
        · refine List.nodup_append.mpr ⟨hb.nd, by simp, ?_⟩
          intro a ha b hb' heq
          simp at hb'
          subst hb' heq
          exact hgj ha
      have hres : Inv t := .inr ⟨hbt, .inr ⟨ds, .stopEnd true, hd.set, hd.ret, hst, hs⟩⟩
      simpa [t, hg] using hres
    · cases h
  case stopEnd k =>
    split at h <;> cases h
    rename_i res hk
    obtain ⟨ds, hd, rfl⟩ := busy_of hi hk (not_returned_stopEnd _)
    unfold ThrStart.stopEnd
    split
    · rename_i hst
      have hs : Silent s := by
        cases res
        · rcases hd.pc.1 with h | h
          · rw [h] at hst; cases hst
          · exact h.2
        · exact hd.pc.2
      refine .inr ⟨hb.sameOs rfl rfl rfl rfl (fun h => hb.real h), .inl ⟨?_, ?_, fun _ => hs, ?_⟩⟩
      · change ∀ c ∈ s.calls.set ds.length _, _
        rw [hd.set]; exact ret_snoc hd.ret _ _
      · rw [hst]; simp
      · rw [hst]; simp
    · rename_i hst
      cases res with
      | true => exact absurd hd.pc.1 hst
      | false =>
        have hr : s.real = true := by
          apply hb.real
          rcases hd.pc.1 with h | h
          · simp [h]
          · simp [h.1]
        refine .inr ⟨hb.sameOs rfl rfl rfl rfl (fun _ => hr), .inl ⟨?_, ?_, ?_, fun _ => hd.pc.2⟩⟩
        · change ∀ c ∈ s.calls.set ds.length _, _
          rw [hd.set]; exact ret_snoc hd.ret _ _
        · simp
        · simp

theorem Sequential.init {as : List Act} {a : Act} (h : Sequential (as ++ [a])) : Sequential as := by
  intro p b q s he hb hr
  exact h p b (q ++ [a]) s (by simp [he]) hb hr

theorem Inv.step {s t : S} {as : List Act} {a : Act} (hi : Inv s) (hr : ThrStart.run init as = some s)
    (hq : Sequential (as ++ [a])) (he : External (as ++ [a])) (h : ThrStart.step s a = some t) : Inv t := by
  unfold ThrStart.step at h
  split at h
  · cases h
  · rename_i hk
    rcases hi with hi | ⟨hb, hi⟩
    · exact absurd hi (by simpa using hk)
    · split at h
      · exact Inv.stepCall hb hi (fun ha => hq as a [] s rfl ha hr) (he a (by simp)) h
      · exact Inv.stepOs hb hi h

theorem inv_of_run {as : List Act} : ∀ {s : S}, Sequential as → External as → run init as = some s → Inv s := by
  induction h : as.length generalizing as with
  | zero =>
    intro s _ _ hr
    have : as = [] := List.length_eq_zero_iff.mp h
    subst this
    cases hr
    exact inv_init
  | succ n ih =>
    intro s hq he hr
    have hne : as ≠ [] := by intro h1; subst h1; simp at h
    have hsp : as = as.dropLast ++ [as.getLast hne] := (List.dropLast_concat_getLast hne).symm
    rw [hsp] at hq he hr
    rw [run_append] at hr
    cases hp : run init as.dropLast with
    | none => rw [hp] at hr; cases hr
    | some t =>
      rw [hp] at hr
      have ht : Inv t := ih (by simp [h]) hq.init (fun a ha => he a (List.mem_append_left _ ha)) hp
      exact ht.step hp hq he hr

end Verif.ThrStart
