import Verif.Spec.WorkerHalt

/-!
# Invariants of halting workers
-/

namespace Verif.WorkerHalt

/-- Calls which are counted in `recursion` of the record with this id. -/
def isG (id : Nat) : Frame → Bool
  | .event i _ => i == id
  | .guard i _ => i == id
  | _ => false

def cnt (id : Nat) (l : List Frame) : Nat := l.countP (isG id)

def FrameOk (ws : Nat → WS) : Frame → Prop
  | .event id w => id ≠ 0 ∧ (ws w).wid = id
  | .guard id w => id = 0 ∨ (ws w).wid = id
  | _ => True

structure RecOk (s : S) (id : Nat) (r : Rec) : Prop where
  free : r.work = none → r = Rec.new none
  recursion : ∀ w, r.work = some w → r.recursion = cnt id s.stack
  inactive : ∀ w, r.work = some w → r.doing = true → (s.ws w).active = false
  idle : r.doing = false → r.cmds = []

def ChkOk (s : S) : Prop :=
  match s.chk with
  | .idle => True
  | .decided id _ => ∃ r w, s.recs[id]? = some r ∧ r.work = some w ∧ r.recursion = 0 ∧ r.doing = true
  | .removed w _ _ => (s.ws w).thrd = true ∧ (s.ws w).wid = 0 ∧ w ∉ s.adds ∧ (s.ws w).active = false

structure Inv (s : S) : Prop where
  zero : ∃ r, s.recs[0]? = some r ∧ r.work = none
  wid : ∀ w, (s.ws w).wid ≠ 0 → ∃ r, s.recs[(s.ws w).wid]? = some r ∧ r.work = some w
  live : ∀ id r w, s.recs[id]? = some r → r.work = some w → (s.ws w).wid = id ∧ (s.ws w).thrd = true
  active : ∀ w, (s.ws w).active = true → (s.ws w).wid ≠ 0
  frames : ∀ f ∈ s.stack, FrameOk s.ws f
  recs : ∀ id r, s.recs[id]? = some r → RecOk s id r
  chk : ChkOk s
  addsNd : s.adds.Nodup
  adds : ∀ w ∈ s.adds, (s.ws w).thrd = true ∧ (s.ws w).wid = 0

theorem live_some {s : S} {id : Nat} {r : Rec} {w : Nat} :
    s.live id = some (r, w) ↔ s.recs[id]? = some r ∧ r.work = some w := by
  unfold S.live
  cases h : s.recs[id]? with
  | none => simp
  | some r' =>
    dsimp only
    cases hw : r'.work with
    | none =>
      simp only [Option.some.injEq, reduceCtorEq, false_iff, not_and]
      intro h1
      subst h1
      rw [hw]
      simp
    | some v =>
      simp only [Option.some.injEq, Prod.mk.injEq]
      constructor
      · rintro ⟨h1, h2⟩
        subst h1; subst h2
        exact ⟨rfl, hw⟩
      · rintro ⟨h1, h2⟩
        subst h1
        rw [hw] at h2
        exact ⟨rfl, by simpa using h2⟩

theorem live_none {s : S} {id : Nat} : s.live id = none ↔ ∀ r w, s.recs[id]? = some r → r.work ≠ some w := by
  constructor
  · intro h r w h1 h2
    have := live_some.2 ⟨h1, h2⟩
    rw [h] at this
    simp at this
  · intro h
    cases hl : s.live id with
    | none => rfl
    | some p =>
      obtain ⟨h1, h2⟩ := live_some (r := p.1) (w := p.2) |>.1 hl
      exact absurd h2 (h _ _ h1)

theorem set_get {l : List Rec} {id j : Nat} {r r' q : Rec} (hr : l[id]? = some r) (h : (l.set id r')[j]? = some q) :
    (j = id ∧ q = r') ∨ (j ≠ id ∧ l[j]? = some q) := by
  rw [List.getElem?_set] at h
  by_cases hj : id = j
  · rw [if_pos hj] at h
    have hlt : id < l.length := by
      rcases Nat.lt_or_ge id l.length with h1 | h1
      · exact h1
      · rw [List.getElem?_eq_none h1] at hr; simp at hr
    rw [if_pos hlt] at h
    exact Or.inl ⟨hj.symm, (Option.some.inj h).symm⟩
  · rw [if_neg hj] at h
    exact Or.inr ⟨fun h' => hj h'.symm, h⟩

theorem set_self {l : List Rec} {id : Nat} {r r' : Rec} (hr : l[id]? = some r) : (l.set id r')[id]? = some r' := by
  have hlt : id < l.length := by
    rcases Nat.lt_or_ge id l.length with h1 | h1
    · exact h1
    · rw [List.getElem?_eq_none h1] at hr; simp at hr
  rw [List.getElem?_set, if_pos rfl, if_pos hlt]

theorem set_other {l : List Rec} {id j : Nat} {r' : Rec} (h : j ≠ id) : (l.set id r')[j]? = l[j]? := by
  rw [List.getElem?_set, if_neg (fun h' => h h'.symm)]

/-- Changes which keep the workers of the records and the ids and threads of the workers. -/
theorem inv_mod {s s' : S} (h : Inv s)
    (hfw : ∀ (j : Nat) (r : Rec), s.recs[j]? = some r → ∃ r', s'.recs[j]? = some r' ∧ r'.work = r.work)
    (hbw : ∀ (j : Nat) (r' : Rec), s'.recs[j]? = some r' → ∃ r, s.recs[j]? = some r ∧ r'.work = r.work ∧ RecOk s' j r')
    (hws : ∀ v, (s'.ws v).wid = (s.ws v).wid ∧ (s'.ws v).thrd = (s.ws v).thrd)
    (hact : ∀ v, (s'.ws v).active = true → (s.ws v).active = true)
    (hadds : s'.adds = s.adds) (hfr : ∀ f ∈ s'.stack, FrameOk s.ws f) (hchk : ChkOk s') : Inv s' := by
  refine ⟨?_, ?_, ?_, ?_, ?_, ?_, hchk, ?_, ?_⟩
  · obtain ⟨r, h1, h2⟩ := h.zero
    obtain ⟨r', h3, h4⟩ := hfw 0 r h1
    exact ⟨r', h3, h4.trans h2⟩
  · intro w hw
    rw [(hws w).1] at hw ⊢
    obtain ⟨r, h1, h2⟩ := h.wid w hw
    obtain ⟨r', h3, h4⟩ := hfw _ r h1
    exact ⟨r', h3, h4.trans h2⟩
  · intro id r w h1 h2
    obtain ⟨r0, h3, h4, _⟩ := hbw _ _ h1
    rw [(hws w).1, (hws w).2]
    exact h.live id r0 w h3 (h4 ▸ h2)
  · intro w hw
    rw [(hws w).1]
    exact h.active w (hact w hw)
  · intro f hf
    have := hfr f hf
    cases f with
    | event id w => exact ⟨this.1, (hws w).1.trans this.2⟩
    | guard i w => exact this.imp (fun h' => h') fun h' => (hws w).1.trans h'
    | raw => trivial
    | fin => trivial
  · intro id r h1
    exact (hbw id r h1).elim fun r0 h2 => h2.2.2
  · rw [hadds]; exact h.addsNd
  · intro w hw
    rw [hadds] at hw
    rw [(hws w).1, (hws w).2]
    exact h.adds w hw

/-- One record is changed. -/
theorem inv_set {s s' : S} (h : Inv s) {id : Nat} {r r' : Rec} {w : Nat} (hr : s.recs[id]? = some r)
    (hw : r.work = some w) (hw' : r'.work = some w) (hrecs : s'.recs = s.recs.set id r')
    (hws : ∀ v, (s'.ws v).wid = (s.ws v).wid ∧ (s'.ws v).thrd = (s.ws v).thrd)
    (hact : ∀ v, (s'.ws v).active = true → (s.ws v).active = true)
    (hadds : s'.adds = s.adds) (hfr : ∀ f ∈ s'.stack, FrameOk s.ws f)
    (hcnt : ∀ j, j ≠ id → j ≠ 0 → cnt j s'.stack = cnt j s.stack)
    (hok : RecOk s' id r') (hchk : ChkOk s') : Inv s' := by
  refine inv_mod h ?_ ?_ hws hact hadds hfr hchk
  · intro j q hq
    by_cases hj : j = id
    · subst hj
      rw [hr] at hq
      refine ⟨r', by rw [hrecs]; exact set_self hr, ?_⟩
      rw [hw', ← Option.some.inj hq, hw]
    · exact ⟨q, by rw [hrecs, set_other hj]; exact hq, rfl⟩
  · intro j q hq
    rw [hrecs] at hq
    rcases set_get hr hq with ⟨h1, h2⟩ | ⟨h1, h2⟩
    · subst h1; subst h2
      exact ⟨r, hr, hw'.trans hw.symm, hok⟩
    · refine ⟨q, h2, rfl, ?_⟩
      have hq := h.recs j q h2
      refine ⟨hq.free, ?_, ?_, hq.idle⟩
      · intro v hv
        have hj0 : j ≠ 0 := by
          intro h0
          obtain ⟨r0, h3, h4⟩ := h.zero
          rw [h0, h3] at h2
          rw [Option.some.inj h2, hv] at h4
          simp at h4
        rw [hcnt j h1 hj0]
        exact hq.recursion v hv
      · intro v hv hd
        have := hq.inactive v hv hd
        cases hb : (s'.ws v).active with
        | false => rfl
        | true => rw [hact v hb] at this; simp at this

/-- The records are not changed. -/
theorem inv_same {s s' : S} (h : Inv s) (hrecs : s'.recs = s.recs)
    (hws : ∀ v, (s'.ws v).wid = (s.ws v).wid ∧ (s'.ws v).thrd = (s.ws v).thrd)
    (hact : ∀ v, (s'.ws v).active = true → (s.ws v).active = true)
    (hadds : s'.adds = s.adds) (hfr : ∀ f ∈ s'.stack, FrameOk s.ws f)
    (hcnt : ∀ j, j ≠ 0 → cnt j s'.stack = cnt j s.stack) (hchk : ChkOk s') : Inv s' := by
  refine inv_mod h ?_ ?_ hws hact hadds hfr hchk
  · intro j q hq
    exact ⟨q, by rw [hrecs]; exact hq, rfl⟩
  · intro j q hq
    rw [hrecs] at hq
    refine ⟨q, hq, rfl, ?_⟩
    have hok := h.recs j q hq
    refine ⟨hok.free, ?_, ?_, hok.idle⟩
    · intro v hv
      have hj0 : j ≠ 0 := by
        intro h0
        obtain ⟨r0, h3, h4⟩ := h.zero
        rw [h0, h3] at hq
        rw [Option.some.inj hq, hv] at h4
        simp at h4
      rw [hcnt j hj0]
      exact hok.recursion v hv
    · intro v hv hd
      have := hok.inactive v hv hd
      cases hb : (s'.ws v).active with
      | false => rfl
      | true => rw [hact v hb] at this; simp at this

theorem inv_init : Inv init := by
  refine ⟨⟨_, rfl, rfl⟩, ?_, ?_, ?_, ?_, ?_, trivial, List.nodup_nil, ?_⟩
  · intro w hw
    simp only [init] at hw ⊢
    by_cases h0 : w = 0
    · subst h0
      exact ⟨_, rfl, rfl⟩
    · rw [if_neg h0] at hw
      exact absurd rfl hw
  · intro id r w h1 h2
    match id, h1 with
    | 0, h1 =>
      obtain rfl : Rec.new none = r := by simpa [init] using h1
      simp [Rec.new] at h2
    | 1, h1 =>
      obtain rfl : Rec.new (some 0) = r := by simpa [init] using h1
      obtain rfl : 0 = w := by simpa [Rec.new] using h2
      simp [init]
    | n + 2, h1 => simp [init] at h1
  · intro w hw
    simp only [init] at hw ⊢
    by_cases h0 : w = 0
    · rw [if_pos h0]; simp
    · rw [if_neg h0] at hw; simp at hw
  · intro f hf; simp [init] at hf
  · intro id r h1
    match id, h1 with
    | 0, h1 =>
      obtain rfl : Rec.new none = r := by simpa [init] using h1
      exact ⟨fun _ => rfl, fun _ _ => rfl, fun w hw => by simp [Rec.new] at hw, fun _ => rfl⟩
    | 1, h1 =>
      obtain rfl : Rec.new (some 0) = r := by simpa [init] using h1
      exact ⟨fun h => by simp [Rec.new] at h, fun _ _ => rfl, fun w _ hd => by simp [Rec.doing, Rec.new] at hd, fun _ => rfl⟩
    | n + 2, h1 => simp [init] at h1
  · intro w hw; simp [init] at hw

theorem ask_work (r : Rec) (a : Act) : (r.ask a).work = r.work := by cases a <;> rfl
theorem ask_recursion (r : Rec) (a : Act) : (r.ask a).recursion = r.recursion := by cases a <;> rfl
theorem ask_processed (r : Rec) (a : Act) : (r.ask a).processed = r.processed := by cases a <;> rfl
theorem ask_cmds (r : Rec) (a : Act) : (r.ask a).cmds = r.cmds := by cases a <;> rfl

theorem upd_wid_thrd (f : Nat → WS) (w : Nat) (x : WS) (h1 : x.wid = (f w).wid) (h2 : x.thrd = (f w).thrd) (v : Nat) :
    (upd f w x v).wid = (f v).wid ∧ (upd f w x v).thrd = (f v).thrd := by
  unfold upd
  by_cases h : v = w
  · rw [if_pos h, h]; exact ⟨h1, h2⟩
  · rw [if_neg h]; exact ⟨rfl, rfl⟩

theorem upd_active (f : Nat → WS) (w : Nat) (x : WS) (h1 : x.active = true → (f w).active = true) (v : Nat)
    (h2 : (upd f w x v).active = true) : (f v).active = true := by
  unfold upd at h2
  by_cases h : v = w
  · rw [if_pos h] at h2; rw [h]; exact h1 h2
  · rw [if_neg h] at h2; exact h2

theorem upd_self (f : Nat → WS) (w : Nat) (x : WS) : upd f w x w = x := if_pos rfl

theorem upd_other (f : Nat → WS) {w v : Nat} (x : WS) (h : v ≠ w) : upd f w x v = f v := if_neg h

theorem inv_answer {s : S} (h : Inv s) (cmd : Option Nat) (b : Bool) : Inv (s.answer cmd b) := by
  cases cmd with
  | none => exact h
  | some c =>
    exact inv_same h rfl (fun _ => ⟨rfl, rfl⟩) (fun _ h => h) rfl h.frames (fun _ _ => rfl) h.chk

/-- `CheckWorkerCanBeHalted` keeps the invariant, also if it is called for a record whose recursion was just changed. -/
theorem inv_check {s : S} (h : Inv s) (hi : s.chk = .idle) (id : Nat) (a : Act) (cmd : Option Nat) :
    Inv (s.check id a cmd) := by
  unfold S.check
  cases hl : s.live id with
  | none => exact inv_answer h cmd false
  | some p =>
    obtain ⟨r, w⟩ := p
    obtain ⟨hr, hw⟩ := live_some.1 hl
    dsimp only
    have hok := h.recs id r hr
    split
    · exact inv_answer h cmd false
    · rename_i hd
      have hd : (r.ask a).doing = true := by simpa using hd
      split
      · refine inv_set h hr hw (r' := { r.ask a with cmds := (r.ask a).cmds ++ cmd.toList }) (by
          show (r.ask a).work = _; rw [ask_work, hw]) rfl
          (upd_wid_thrd _ _ _ rfl rfl) (upd_active _ _ _ (by simp)) rfl h.frames (fun _ _ _ => rfl) ?_ ?_
        · refine ⟨?_, ?_, ?_, ?_⟩
          · intro hn
            have : r.work = none := by rw [← ask_work r a]; exact hn
            rw [hw] at this; simp at this
          · intro v hv
            show (r.ask a).recursion = _
            rw [ask_recursion]
            exact hok.recursion w hw
          · intro v hv _
            have : v = w := by
              have h1 : (r.ask a).work = some v := hv
              rw [ask_work, hw] at h1
              exact (Option.some.inj h1).symm
            subst this
            show (upd s.ws v _ v).active = false
            rw [upd_self]
          · intro hn
            have h1 : (r.ask a).doing = false := hn
            rw [hd] at h1; simp at h1
        · show ChkOk _
          unfold ChkOk
          dsimp only
          rw [hi]
          trivial
      · rename_i hq
        refine inv_set h hr hw (r' := r.ask a) (by rw [ask_work, hw]) rfl
          (upd_wid_thrd _ _ _ rfl rfl) (upd_active _ _ _ (by simp)) rfl h.frames (fun _ _ _ => rfl) ?_ ?_
        · refine ⟨?_, ?_, ?_, ?_⟩
          · intro hn
            rw [ask_work, hw] at hn; simp at hn
          · intro v hv
            rw [ask_recursion]
            exact hok.recursion w hw
          · intro v hv _
            have : v = w := by
              rw [ask_work, hw] at hv
              exact (Option.some.inj hv).symm
            subst this
            show (upd s.ws v _ v).active = false
            rw [upd_self]
          · intro hn
            rw [hd] at hn; simp at hn
        · refine ⟨r.ask a, w, set_self hr, by rw [ask_work, hw], ?_, hd⟩
          have h1 : ¬ (r.ask a).recursion > 0 := fun h' => hq (Or.inl h')
          rw [ask_recursion] at h1 ⊢
          have h2 := hok.recursion w hw
          omega

end Verif.WorkerHalt
