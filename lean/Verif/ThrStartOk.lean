import Verif.ThrStartInv

/-!
# Calls one after the other, when nothing takes too long
-/

namespace Verif.ThrStart

/-- All threads but `h` are joined. -/
def J (s : S) (h : Nat) : Prop := ∀ i, i < s.os.length → i ∉ s.joins → i = h

/-- The thread works. -/
def T (s : S) (h : Nat) : Prop :=
  s.handle = some h ∧ s.os[h]? = some ⟨.loop, false⟩ ∧ s.working = true ∧ s.stops = 0 ∧ J s h

/-- There is no thread. -/
def Z (s : S) : Prop := Silent s ∧ s.stops = 0 ∧ ∀ i, i < s.os.length → i ∈ s.joins

/-- `Stop` waits. -/
def Polling (s : S) (h : Nat) : Prop :=
  s.handle = some h ∧ J s h ∧
    ((s.st = .changing ∧ s.os[h]? = some ⟨.loop, false⟩ ∧
        (s.working = true ∧ s.stops = 1 ∨ s.working = false ∧ s.stops = 0)) ∨
     (s.st = .changing ∧ s.os[h]? = some ⟨.left, false⟩ ∧ s.stops = 0) ∨
     (s.st = .stopped ∧ Silent s ∧ s.stops = 0))

structure KI (s : S) : Prop where
  nch : s.st ≠ .changing
  off : s.st = .created ∨ s.st = .stopped → Z s
  on : s.st = .running ∨ s.st = .error → ∃ h, T s h

def KP (s : S) : Pc → Prop
  | .make false => s.st = .changing ∧ Z s
  | .make true => s.st = .changing ∧ ∃ h, T s h
  | .create => s.st = .changing ∧ Z s ∧ s.working = true
  | .wait => s.st = .changing ∧ ∃ h, T s h
  | .startEnd _ => s.st = .changing ∧ ∃ h, T s h
  | .halt => False
  | .poll => ∃ h, Polling s h
  | .join => s.st = .stopped ∧ Silent s ∧ s.stops = 0 ∧ ∃ h, s.handle = some h ∧ J s h
  | .stopEnd _ => s.st = .stopped ∧ Z s
  | .done _ _ => False

structure K (s : S) : Prop where
  idle : (∀ c ∈ s.calls, Returned c) → KI s
  busy : ∀ ds c, s.calls = ds ++ [c] → ¬ Returned c → KP s c

theorem K.ofDone {t : S} {ds : List Pc} {b r : Bool} (h : t.calls = ds ++ [.done b r]) (hk : KI t) : K t := by
  refine ⟨fun _ => hk, ?_⟩
  intro ds' c he hc
  rw [h] at he
  have := List.append_inj_right' he rfl
  cases this
  exact absurd ⟨b, r, rfl⟩ hc

theorem K.ofBusy {t : S} {ds : List Pc} {x : Pc} (h : t.calls = ds ++ [x]) (hx : ¬ Returned x) (hk : KP t x) : K t := by
  refine ⟨fun hr => absurd (hr x (by rw [h]; simp)) hx, ?_⟩
  intro ds' c he hc
  rw [h] at he
  have := List.append_inj_right' he rfl
  cases this
  exact hk

theorem K.os {s t : S} (hk : K s) (h : t.calls = s.calls) (h1 : KI s → KI t) (h2 : ∀ c, KP s c → KP t c) : K t :=
  ⟨fun hr => h1 (hk.idle (h ▸ hr)), fun ds c he hc => h2 c (hk.busy ds c (h ▸ he) hc)⟩

theorem k_init : K init := by
  refine ⟨fun _ => ⟨by simp [init], fun _ => ?_, ?_⟩, ?_⟩
  · refine ⟨?_, rfl, ?_⟩ <;> simp [init, Silent]
  · simp [init]
  · intro ds c he; simp [init] at he

theorem T.one {s : S} (hb : Base s) {h i : Nat} (ht : T s h) {o : Os} (ho : s.os[i]? = some o) (hp : o.phase ≠ .gone) :
    i = h ∧ o = ⟨.loop, false⟩ := by
  have := hb.one i o ho hp
  rw [ht.1] at this
  cases this
  rw [ht.2.1] at ho
  cases ho
  exact ⟨rfl, rfl⟩

theorem inLoop_some {s : S} {i : Nat} (h : inLoop s i = true) : ∃ o, s.os[i]? = some o ∧ o.phase = .loop := by
  unfold inLoop at h
  split at h
  · rename_i o ho
    exact ⟨o, ho, by simpa using h⟩
  · cases h

theorem Silent.noLoop {s : S} (h : Silent s) {i : Nat} (hl : inLoop s i = true) : False := by
  obtain ⟨o, ho, hp⟩ := inLoop_some hl
  have := h.of_alive ho
  rw [hp] at this
  cases this

/-- Only a waiting `Stop` lets the thread end. -/
theorem K.notT {s t : S} (hb : Base s) (hk : K s) (h : t.calls = s.calls) {i : Nat} {o : Os} (ho : s.os[i]? = some o)
    (hp : o.phase ≠ .gone) (hT : ∀ h, ¬ T s h) (hP : ∀ h, Polling s h → Polling t h) : K t := by
  have hns : ¬ Silent s := fun hs => hp (hs.of_alive ho)
  refine hk.os h ?_ ?_
  · intro hi
    have h1 : ¬ (s.st = .created ∨ s.st = .stopped) := fun h => hns (hi.off h).1
    have h2 : ¬ (s.st = .running ∨ s.st = .error) := fun h => by
      obtain ⟨g, hg⟩ := hi.on h
      exact hT g hg
    have h3 := hi.nch
    exfalso
    cases hst : s.st <;> simp [hst] at h1 h2 h3
  · intro c hc
    cases c with
    | make b =>
      cases b
      · exact absurd hc.2.1 hns
      · obtain ⟨_, g, hg⟩ := hc; exact absurd hg (hT g)
    | create => exact absurd hc.2.1.1 hns
    | wait => obtain ⟨_, g, hg⟩ := hc; exact absurd hg (hT g)
    | startEnd r => obtain ⟨_, g, hg⟩ := hc; exact absurd hg (hT g)
    | halt => exact hc.elim
    | poll => obtain ⟨g, hg⟩ := hc; exact ⟨g, hP g hg⟩
    | join => exact absurd hc.2.1 hns
    | stopEnd r => exact absurd hc.2.1 hns
    | done => exact hc.elim

theorem K.stepOs {s t : S} {a : Act} (hb : Base s) (hk : K s) (hsm : ∀ i, a ≠ .quit i)
    (h : ThrStart.stepOs s a = some t) : K t := by
  cases a <;> simp only [ThrStart.stepOs] at h <;> try (cases h; done)
  case takeStop i =>
    split at h <;> cases h
    rename_i hc
    obtain ⟨o, ho, hp⟩ := inLoop_some hc.1
    refine hk.notT hb rfl ho (by simp [hp]) (fun g hg => ?_) (fun g hg => ?_)
    · have := hg.2.2.2.1; omega
    · obtain ⟨h1, h2, h3 | h3 | h3⟩ := hg
      · refine ⟨h1, h2, .inl ⟨h3.1, h3.2.1, .inr ⟨rfl, ?_⟩⟩⟩
        change s.stops - 1 = 0
        rcases h3.2.2 with h4 | h4 <;> omega
      · omega
      · omega
  case takeConfirm i k =>
    split at h <;> cases h
    refine hk.os rfl (fun h => ⟨h.nch, h.off, h.on⟩) ?_
    intro c hc
    cases c with
    | make b => cases b <;> exact hc
    | _ => exact hc
  case quit i => exact absurd rfl (hsm i)
  case leave i =>
    split at h
    · rename_i o ho
      split at h <;> cases h
      rename_i hc
      refine hk.notT hb rfl ho (by simp [hc.1]) (fun g hg => ?_) (fun g hg => ?_)
      · rw [hg.2.2.1] at hc; simp at hc
      · have hig : s.handle = some i := hb.one i o ho (by simp [hc.1])
        obtain ⟨h1, h2, h3⟩ := hg
        rw [h1] at hig
        cases hig
        have hlt : i < s.os.length := (List.getElem?_eq_some_iff.mp ho).1
        have hj : J { s with os := s.os.set i { o with phase := .left } } i := by
          intro j hj hj'
          exact h2 j (by simpa using hj) hj'
        rcases h3 with h3 | h3 | h3
        · have he := h3.2.1
          rw [ho] at he
          cases he
          refine ⟨h1, hj, .inr (.inl ⟨h3.1, ?_, ?_⟩)⟩
          · change (s.os.set i _)[i]? = _
            rw [List.getElem?_set_self hlt]
          · change s.stops = 0
            rcases h3.2.2 with h4 | h4
            · rw [h4.1] at hc; simp at hc
            · exact h4.2
        · have he := h3.2.1
          rw [ho] at he
          cases he
          simp at hc
        · have := h3.2.1.of_alive ho
          rw [hc.1] at this
          cases this
    · cases h
  case die i =>
    split at h
    · rename_i o ho
      split at h <;> cases h
      rename_i hc
      refine hk.notT hb rfl ho (by simp [hc.1]) (fun g hg => ?_) (fun g hg => ?_)
      · obtain ⟨_, he⟩ := T.one hb hg ho (by simp [hc.1])
        subst he
        simp at hc
      · exfalso
        have hig : s.handle = some i := hb.one i o ho (by simp [hc.1])
        obtain ⟨h1, h2, h3⟩ := hg
        rw [h1] at hig
        cases hig
        rcases h3 with h3 | h3 | h3
        · have he := h3.2.1
          rw [ho] at he
          cases he
          simp at hc
        · have he := h3.2.1
          rw [ho] at he
          cases he
          simp at hc
        · have := h3.2.1.of_alive ho
          rw [hc.1] at this
          cases this
    · cases h
  case finish i =>
    split at h
    · rename_i o ho
      split at h <;> cases h
      rename_i hc
      refine hk.notT hb rfl ho (by simp [hc]) (fun g hg => ?_) (fun g hg => ?_)
      · obtain ⟨_, he⟩ := T.one hb hg ho (by simp [hc])
        subst he
        simp at hc
      · have hig : s.handle = some i := hb.one i o ho (by simp [hc])
        obtain ⟨h1, h2, h3⟩ := hg
        rw [h1] at hig
        cases hig
        have hlt : i < s.os.length := (List.getElem?_eq_some_iff.mp ho).1
        rcases h3 with h3 | h3 | h3
        · have he := h3.2.1
          rw [ho] at he
          cases he
          simp at hc
        · refine ⟨h1, ?_, .inr (.inr ⟨rfl, ?_, h3.2.2⟩)⟩
          · intro j hj hj'
            exact h2 j (by simpa using hj) hj'
          · intro p hp
            obtain ⟨j, hj⟩ := List.mem_iff_getElem?.mp hp
            change (s.os.set i _)[j]? = some p at hj
            by_cases hij : i = j
            · subst hij
              rw [List.getElem?_set_self hlt] at hj
              cases hj; rfl
            · rw [List.getElem?_set_ne hij] at hj
              cases hg : p.phase with
              | gone => rfl
              | loop => have := hb.one j p hj (by simp [hg]); rw [h1] at this; cases this; exact absurd rfl hij
              | left => have := hb.one j p hj (by simp [hg]); rw [h1] at this; cases this; exact absurd rfl hij
        · have := h3.2.1.of_alive ho
          rw [hc] at this
          cases this
    · cases h

theorem K.enterStart {s : S} (hk : KI s) (hb : Base s) : K (ThrStart.enterStart s true) := by
  have hc : (s.st = .created ∨ s.st = .stopped) ∨ s.st = .running ∨ s.st = .error ∨ s.st = .changing := by
    cases s.st <;> simp
  rcases hc with hst | hst | hst | hst
  · rw [show ThrStart.enterStart s true =
      { s with real := true, st := .changing, calls := s.calls ++ [.make false] } by
        rcases hst with hst | hst <;> simp [ThrStart.enterStart, hst]]
    exact .ofBusy rfl (not_returned_make _) ⟨rfl, hk.off hst⟩
  · rw [show ThrStart.enterStart s true = { s with calls := s.calls ++ [.done true true] } by
      simp [ThrStart.enterStart, hst]]
    exact .ofDone rfl ⟨hk.nch, hk.off, hk.on⟩
  · have hr : s.real = true := hb.real (by simp [hst])
    rw [show ThrStart.enterStart s true =
      { s with real := true, st := .changing, calls := s.calls ++ [.make true] } by
        simp [ThrStart.enterStart, hst, hr]]
    exact .ofBusy rfl (not_returned_make _) ⟨rfl, hk.on (.inr hst)⟩
  · exact absurd hst hk.nch

theorem K.enterStop {s : S} (hk : KI s) (hb : Base s) : K (ThrStart.enterStop s none) := by
  have hc : (s.st = .created ∨ s.st = .stopped ∨ s.st = .error) ∨ s.st = .running ∨ s.st = .changing := by
    cases s.st <;> simp
  rcases hc with hst | hst | hst
  · rw [show ThrStart.enterStop s none = { s with calls := s.calls ++ [.done false true] } by
      rcases hst with hst | hst | hst <;> simp [ThrStart.enterStop, hst]]
    exact .ofDone rfl ⟨hk.nch, hk.off, hk.on⟩
  · have hr : s.real = true := hb.real (by simp [hst])
    rw [show ThrStart.enterStop s none =
      { s with st := .changing, stops := s.stops + 1, calls := s.calls ++ [.poll] } by
        simp [ThrStart.enterStop, needstop, hst, hr]]
    obtain ⟨h, ht⟩ := hk.on (.inl hst)
    refine .ofBusy rfl not_returned_poll ⟨h, ht.1, ht.2.2.2.2, .inl ⟨rfl, ht.2.1, .inl ⟨ht.2.2.1, ?_⟩⟩⟩
    change s.stops + 1 = 1
    have := ht.2.2.2.1
    omega
  · exact absurd hst hk.nch

theorem K.stepCall {s t : S} {a : Act} (hb : Base s) (hi : IdleF s ∨ ∃ ds c, BusyF s ds c) (hk : K s)
    (hseq : ((∃ r, a = .start r) ∨ ∃ b, a = .stop b) → ∀ c ∈ s.calls, Returned c)
    (hext : a ≠ .start false ∧ ∀ i, a ≠ .stop (some i))
    (hsm : (∀ k, a ≠ .cancel k) ∧ (∀ k, a ≠ .timeout k))
    (h : ThrStart.stepCall s a = some t) : t.killed = true ∨ K t := by
  cases a <;> simp only [ThrStart.stepCall] at h <;> try (cases h; done)
  case start real =>
    cases h
    cases real with
    | false => exact absurd rfl hext.1
    | true => exact .inr (K.enterStart (hk.idle (hseq (.inl ⟨_, rfl⟩))) hb)
  case stop by_ =>
    cases by_ with
    | some i => exact absurd rfl (hext.2 i)
    | none =>
      cases h
      exact .inr (K.enterStop (hk.idle (hseq (.inr ⟨_, rfl⟩))) hb)
  case make k =>
    split at h <;> cases h
    rename_i kl hk'
    obtain ⟨ds, hd, rfl⟩ := busy_of hi hk' (not_returned_make _)
    have hp := hk.busy ds _ hd.eq (not_returned_make _)
    cases kl with
    | false => exact .inr (.ofBusy (ds := ds) hd.set not_returned_create ⟨hp.1, hp.2, rfl⟩)
    | true =>
      left
      obtain ⟨_, g, hg, ho, _⟩ := hp
      obtain ⟨_, g', hg', hgj⟩ := hd.pc
      rw [hg] at hg'
      cases hg'
      have ha : alive s g = true := by simp [alive, ho]
      simp [ThrStart.make, ThrStart.kill, hg, hgj, ha]
  case create k =>
    split at h <;> cases h
    rename_i hk'
    obtain ⟨ds, hd, rfl⟩ := busy_of hi hk' not_returned_create
    obtain ⟨hst, ⟨hs, hz, hj⟩, hw⟩ := hk.busy ds _ hd.eq not_returned_create
    have hr : s.real = true := hb.real (by simp [hst])
    let t : S := { s with os := s.os ++ [⟨.loop, false⟩], handle := some s.os.length,
                          confirms := s.confirms ++ [ds.length], calls := s.calls.set ds.length .wait }
    have et : ThrStart.create s ds.length = t := by simp [ThrStart.create, hr, t]
    rw [et]
    refine .inr (.ofBusy (ds := ds) hd.set not_returned_wait ⟨hst, s.os.length, rfl, ?_, hw, hz, ?_⟩)
    · simp [t]
    · intro i hi' hij
      by_cases h1 : i < s.os.length
      · exact absurd (hj i h1) hij
      · simp [t] at hi'; omega
  case answered k =>
    split at h
    · rename_i hk'
      split at h <;> cases h
      obtain ⟨ds, hd, rfl⟩ := busy_of hi hk' not_returned_wait
      exact .inr (.ofBusy (ds := ds) hd.set (not_returned_startEnd _) (hk.busy ds _ hd.eq not_returned_wait))
    · cases h
  case unanswered k =>
    split at h <;> cases h
    rename_i hk'
    obtain ⟨ds, hd, rfl⟩ := busy_of hi hk' not_returned_wait
    exact .inr (.ofBusy (ds := ds) hd.set (not_returned_startEnd _) (hk.busy ds _ hd.eq not_returned_wait))
  case startEnd k =>
    split at h <;> cases h
    rename_i res hk'
    obtain ⟨ds, hd, rfl⟩ := busy_of hi hk' (not_returned_startEnd _)
    have hp := hk.busy ds _ hd.eq (not_returned_startEnd _)
    refine .inr (.ofDone (ds := ds) hd.set ⟨?_, ?_, fun _ => hp.2⟩)
    · cases res <;> simp
    · cases res <;> simp
  case halt k =>
    split at h <;> cases h
    rename_i hk'
    obtain ⟨ds, hd, rfl⟩ := busy_of hi hk' not_returned_halt
    exact hd.pc.elim
  case see k =>
    split at h
    · rename_i hk'
      split at h <;> cases h
      rename_i hst
      obtain ⟨ds, hd, rfl⟩ := busy_of hi hk' not_returned_poll
      obtain ⟨g, h1, h2, h3⟩ := hk.busy ds _ hd.eq not_returned_poll
      rcases h3 with h3 | h3 | h3
      · rw [h3.1] at hst; cases hst
      · rw [h3.1] at hst; cases hst
      · exact .inr (.ofBusy (ds := ds) hd.set not_returned_join ⟨hst, h3.2.1, h3.2.2, g, h1, h2⟩)
    · cases h
  case cancel k => exact absurd rfl (hsm.1 k)
  case timeout k => exact absurd rfl (hsm.2 k)
  case join k =>
    split at h
    · rename_i hk'
      obtain ⟨ds, hd, rfl⟩ := busy_of hi hk' not_returned_join
      obtain ⟨hst, hs, g, hg, hgj⟩ := hd.pc
      obtain ⟨_, _, hz, g', hg', hJ⟩ := hk.busy ds _ hd.eq not_returned_join
      rw [hg] at hg'
      cases hg'
      have hga : alive s g = false := by
        unfold alive
        split
        · rename_i o ho
          simp [hs.of_alive ho]
        · rfl
      simp only [ThrStart.join, hg, if_neg hgj, hga, Bool.false_eq_true, if_false] at h
      cases h
      refine .inr (.ofBusy (ds := ds) hd.set (not_returned_stopEnd _) ⟨hst, hs, hz, ?_⟩)
      intro i hi'
      by_cases h1 : i ∈ s.joins
      · exact List.mem_append_left _ h1
      · have := hJ i hi' h1
        simp [this]
    · cases h
  case stopEnd k =>
    split at h <;> cases h
    rename_i res hk'
    obtain ⟨ds, hd, rfl⟩ := busy_of hi hk' (not_returned_stopEnd _)
    obtain ⟨hst, hz⟩ := hk.busy ds _ hd.eq (not_returned_stopEnd _)
    unfold ThrStart.stopEnd
    rw [if_pos hst]
    refine .inr (.ofDone (ds := ds) hd.set ⟨?_, fun _ => hz, ?_⟩)
    · rw [hst]; simp
    · rw [hst]; simp

theorem k_of_run {as : List Act} :
    ∀ {s : S}, Sequential as → External as → Smooth as → run init as = some s → s.killed = true ∨ K s := by
  induction h : as.length generalizing as with
  | zero =>
    intro s _ _ _ hr
    have : as = [] := List.length_eq_zero_iff.mp h
    subst this
    cases hr
    exact .inr k_init
  | succ n ih =>
    intro s hq he hs hr
    have hne : as ≠ [] := by intro h1; subst h1; simp at h
    have hsp : as = as.dropLast ++ [as.getLast hne] := (List.dropLast_concat_getLast hne).symm
    rw [hsp] at hq he hs hr
    rw [run_append] at hr
    cases hp : run init as.dropLast with
    | none => rw [hp] at hr; cases hr
    | some t =>
      rw [hp] at hr
      have he' : External as.dropLast := fun a ha => he a (List.mem_append_left _ ha)
      have ht := ih (by simp [h]) hq.init he' (fun a ha => hs a (List.mem_append_left _ ha)) hp
      change step t (as.getLast hne) = some s at hr
      have ha := hs (as.getLast hne) (by simp)
      have hx := he (as.getLast hne) (by simp)
      unfold ThrStart.step at hr
      split at hr
      · cases hr
      · rename_i hkl
        rcases inv_of_run hq.init he' hp with h1 | ⟨hb, hi⟩
        · exact absurd h1 (by simpa using hkl)
        · rcases ht with ht | ht
          · exact absurd ht (by simpa using hkl)
          · split at hr
            · exact K.stepCall hb hi ht (fun h => hq _ _ [] t rfl h hp) hx ⟨ha.1, ha.2.1⟩ hr
            · exact .inr (K.stepOs hb ht ha.2.2 hr)

end Verif.ThrStart
