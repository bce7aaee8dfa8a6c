import Verif.WorkerHaltEvents

/-!
# Where events of halted workers go
-/

namespace Verif.WorkerHalt

open Spec

/-! ## No event reaches another worker -/

structure Own (s : S) : Prop where
  items : ∀ e ∈ s.queue, e.item = 0 ∨ (s.ws e.own).wid = e.item ∨ ∃ r, s.recs[e.item]? = some r ∧ r.work = none
  empty : s.empty = true → s.chk = .idle ∧ ∀ e ∈ s.queue, e.item = 0 ∨ (s.ws e.own).wid = e.item

theorem own_mod {s s' : S} (h : Own s) (hw : ∀ v, (s'.ws v).wid = (s.ws v).wid)
    (hfree : ∀ (j : Nat) (r : Rec), s.recs[j]? = some r → r.work = none → ∃ r', s'.recs[j]? = some r' ∧ r'.work = none)
    (hq : ∀ e ∈ s'.queue, e ∈ s.queue) (he : s'.empty = false) : Own s' := by
  refine ⟨?_, fun h1 => by rw [he] at h1; simp at h1⟩
  intro e hm
  rcases h.items e (hq e hm) with h1 | h1 | ⟨r, h1, h2⟩
  · exact Or.inl h1
  · exact Or.inr (Or.inl ((hw _).trans h1))
  · exact Or.inr (Or.inr (hfree _ r h1 h2))

theorem own_set {s s' : S} (h : Own s) {id : Nat} {r r' : Rec} {w : Nat} (hr : s.recs[id]? = some r)
    (hw : r.work = some w) (hrecs : s'.recs = s.recs.set id r') (hwid : ∀ v, (s'.ws v).wid = (s.ws v).wid)
    (hq : ∀ e ∈ s'.queue, e ∈ s.queue) (he : s'.empty = false) : Own s' := by
  refine own_mod h hwid ?_ hq he
  intro j q h1 h2
  have hj : j ≠ id := by
    intro h3
    rw [h3, hr] at h1
    rw [← Option.some.inj h1, hw] at h2
    simp at h2
  exact ⟨q, by rw [hrecs, set_other hj]; exact h1, h2⟩

theorem upd_wid (f : Nat → WS) (w : Nat) (x : WS) (h1 : x.wid = (f w).wid) (v : Nat) : (upd f w x v).wid = (f v).wid := by
  unfold upd
  by_cases h : v = w
  · rw [if_pos h, h]; exact h1
  · rw [if_neg h]

theorem answer_own {s : S} (h : Own s) (cmd : Option Nat) (b : Bool) : Own (s.answer cmd b) := by
  cases cmd with
  | none => exact h
  | some c => exact ⟨h.items, h.empty⟩

theorem own_check {s : S} (h : Own s) (he : s.empty = false) (id : Nat) (a : Act) (cmd : Option Nat) :
    Own (s.check id a cmd) := by
  unfold S.check
  cases hl : s.live id with
  | none => exact answer_own h cmd false
  | some p =>
    obtain ⟨r, w⟩ := p
    obtain ⟨hr, hw⟩ := live_some.1 hl
    dsimp only
    split
    · exact answer_own h cmd false
    · split
      · exact own_set h hr hw rfl (upd_wid _ _ _ rfl) (fun _ h => h) he
      · exact own_set h hr hw rfl (upd_wid _ _ _ rfl) (fun _ h => h) he

theorem wid_lt {s : S} (h : Inv s) (hf : s.recs.length ≤ 65536) (w : Nat) : (s.ws w).wid < 65536 := by
  by_cases h0 : (s.ws w).wid = 0
  · omega
  · obtain ⟨r, h1, _⟩ := h.wid w h0
    rcases Nat.lt_or_ge (s.ws w).wid s.recs.length with h2 | h2
    · omega
    · rw [List.getElem?_eq_none h2] at h1; simp at h1

theorem own_fire {s : S} (hinv : Inv s) (h : Own s) (hf : s.recs.length ≤ 65536) (w : Nat) : Own (s.fire w) := by
  have hlt := wid_lt hinv hf w
  have hwid : ∀ v, (upd s.ws w { s.ws w with fired := (s.ws w).fired + 1 } v).wid = (s.ws v).wid := upd_wid _ _ _ rfl
  unfold S.fire
  refine ⟨?_, ?_⟩
  · intro e hm
    dsimp only at hm ⊢
    rw [hwid]
    rcases List.mem_append.1 hm with h1 | h1
    · exact h.items e h1
    · rw [List.mem_singleton.1 h1]
      exact Or.inr (Or.inl (Nat.mod_eq_of_lt hlt).symm)
  · intro he
    obtain ⟨h1, h2⟩ := h.empty he
    refine ⟨h1, ?_⟩
    intro e hm
    dsimp only at hm ⊢
    rw [hwid]
    rcases List.mem_append.1 hm with h3 | h3
    · exact h2 e h3
    · rw [List.mem_singleton.1 h3]
      exact Or.inr (Nat.mod_eq_of_lt hlt).symm

theorem own_own {s : S} (hinv : Inv s) (h : Own s) (f : S → S)
    (hf : ∀ s, Inv s → Own s → s.chk = .idle → s.empty = false → Own (f s)) : Own (s.own f) := by
  rcases own_cases s f with ⟨h1, h2⟩ | ⟨h1, h2⟩
  · rw [h2]
    exact hf _ (inv_empty hinv false) ⟨h.items, fun h' => by simp at h'⟩ h1 rfl
  · rw [h2]; exact h

theorem own_step {s : S} (hinv : Inv s) (h : Own s) (hf : s.recs.length ≤ 65536) (o : Op) : Own (step s o) := by
  cases o with
  | fire w =>
    unfold step
    dsimp only
    split
    · exact own_fire hinv h hf w
    · exact h
  | magic w =>
    unfold step
    dsimp only
    split
    · exact own_fire hinv h hf w
    · exact h
  | assign w =>
    unfold step
    dsimp only
    split
    · exact h
    · rename_i ht
      have hwid : (s.ws w).wid = 0 := by
        cases hz : (s.ws w).wid with
        | zero => rfl
        | succ n =>
          obtain ⟨r, h1, h2⟩ := hinv.wid w (by rw [hz]; simp)
          exact absurd (hinv.live _ _ _ h1 h2).2 ht
      have hw : ∀ v, (upd s.ws w { fired := 0, active := false, wid := 0, thrd := true } v).wid = (s.ws v).wid :=
        upd_wid _ _ _ hwid.symm
      refine ⟨?_, ?_⟩
      · intro e hm
        dsimp only
        rw [hw]
        exact h.items e hm
      · intro he
        obtain ⟨h1, h2⟩ := h.empty he
        refine ⟨h1, fun e hm => ?_⟩
        dsimp only
        rw [hw]
        exact h2 e hm
  | ask w a cc =>
    unfold step
    dsimp only
    split
    · exact ⟨h.items, h.empty⟩
    · exact h
  | next =>
    unfold step
    dsimp only
    split
    · exact h
    · rename_i id cmd hc
      obtain ⟨r, w, hr, hw, _⟩ : ∃ r w, s.recs[id]? = some r ∧ r.work = some w ∧ r.recursion = 0 ∧ r.doing = true := by
        have := hinv.chk
        unfold ChkOk at this
        rw [hc] at this
        exact this
      unfold S.remove
      rw [live_some.2 ⟨hr, hw⟩]
      refine ⟨?_, ?_⟩
      · intro e hm
        dsimp only
        rcases h.items e hm with h1 | h1 | ⟨q, h1, h2⟩
        · exact Or.inl h1
        · by_cases he : e.own = w
          · refine Or.inr (Or.inr ⟨Rec.new none, ?_, rfl⟩)
            rw [he, (hinv.live id r w hr hw).1] at h1
            rw [← h1]
            exact set_self hr
          · refine Or.inr (Or.inl ?_)
            rw [upd_other _ _ he]
            exact h1
        · refine Or.inr (Or.inr ⟨q, ?_, h2⟩)
          rw [set_other]
          · exact h1
          · intro h3
            rw [h3, hr] at h1
            rw [← Option.some.inj h1, hw] at h2
            simp at h2
      · intro he
        have := (h.empty he).1
        rw [hc] at this
        simp at this
    · rename_i w d cs hc
      have h2 : (s.ws w).wid = 0 := by
        have := hinv.chk
        unfold ChkOk at this
        rw [hc] at this
        exact this.2.1
      have he : s.empty = false := by
        cases hb : s.empty with
        | false => rfl
        | true =>
          have := (h.empty hb).1
          rw [hc] at this
          simp at this
      unfold S.clear
      exact own_mod h (upd_wid _ _ _ h2.symm) (fun j r h1 h2 => ⟨r, h1, h2⟩) (fun _ h => h) he
  | add k =>
    unfold step
    refine own_own hinv h _ fun s hinv h hi he => ?_
    split
    · exact h
    · rename_i w hk
      have hz := (hinv.adds w (List.mem_of_getElem? hk)).2
      refine ⟨?_, fun h1 => ?_⟩
      · intro e hm
        dsimp only
        rcases h.items e hm with h1 | h1 | ⟨q, h1, h2⟩
        · exact Or.inl h1
        · by_cases he : e.own = w
          · rw [he, hz] at h1
            exact Or.inl h1.symm
          · rw [upd_other _ _ he]
            exact Or.inr (Or.inl h1)
        · refine Or.inr (Or.inr ⟨q, ?_, h2⟩)
          have h3 : e.item < s.recs.length := by
            rcases Nat.lt_or_ge e.item s.recs.length with h3 | h3
            · exact h3
            · rw [List.getElem?_eq_none h3] at h1; simp at h1
          rw [List.getElem?_append_left h3]
          exact h1
      · have h1 : s.empty = true := h1
        rw [he] at h1; simp at h1
  | exec k =>
    unfold step
    refine own_own hinv h _ fun s hinv h hi he => ?_
    split
    · exact h
    · rename_i q hq
      exact own_check (s := { s with reqs := s.reqs.eraseIdx k, done := s.done ++ q.cmd.toList })
        ⟨h.items, h.empty⟩ he _ _ _
  | event k =>
    unfold step
    refine own_own hinv h _ fun s hinv h hi he => ?_
    split
    · exact h
    · rename_i e hk
      have h' : Own { s with queue := s.queue.eraseIdx k } :=
        own_mod h (fun _ => rfl) (fun j r h1 h2 => ⟨r, h1, h2⟩) (fun e hm => (List.eraseIdx_sublist ..).subset hm) he
      unfold S.begin
      split
      · exact h'
      · split
        · exact h'
        · rename_i r w hl
          obtain ⟨hr, hw⟩ := live_some.1 hl
          exact own_set h' hr hw rfl (fun _ => rfl) (fun _ h => h) he
  | guard w =>
    unfold step
    refine own_own hinv h _ fun s hinv h hi he => ?_
    have h' : Own { s with stack := .guard (s.ws w).wid w :: s.stack } := ⟨h.items, h.empty⟩
    unfold S.enter
    split
    · exact h'
    · rename_i r v hl
      obtain ⟨hr, hw⟩ := live_some.1 hl
      exact own_set h' hr hw rfl (fun _ => rfl) (fun _ h => h) he
  | raw id =>
    unfold step
    refine own_own hinv h _ fun s hinv h hi he => ?_
    split
    · exact h
    · exact ⟨h.items, h.empty⟩
  | pop =>
    unfold step
    refine own_own hinv h _ fun s hinv h hi he => ?_
    unfold S.pop
    split
    · exact h
    · rename_i id w t hs
      obtain ⟨h0, hwid⟩ : FrameOk s.ws (.event id w) := hinv.frames _ (by rw [hs]; exact List.mem_cons_self)
      obtain ⟨r, hr, hw⟩ := hinv.wid w (by rw [hwid]; exact h0)
      rw [hwid] at hr
      have h' : Own { s with stack := t, recs := s.recs.set id { r with recursion := r.recursion - 1 } } :=
        own_set h hr hw rfl (fun _ => rfl) (fun _ h => h) he
      unfold S.endEvent
      dsimp only
      rw [hr]
      dsimp only
      split
      · exact own_check h' he _ _ _
      · exact h'
    · rename_i id w t hs
      unfold S.leave
      split
      · exact ⟨h.items, h.empty⟩
      · rename_i r v hl
        obtain ⟨hr, hw⟩ := live_some.1 hl
        have h' : Own { s with stack := t, recs := s.recs.set id { r with recursion := r.recursion - 1 } } :=
          own_set h hr hw rfl (fun _ => rfl) (fun _ h => h) he
        dsimp only
        split
        · exact own_check h' he _ _ _
        · exact h'
    · exact ⟨h.items, h.empty⟩
    · exact ⟨h.items, h.empty⟩
  | wait =>
    unfold step
    refine own_own hinv h _ fun s hinv h hi he => ?_
    refine ⟨h.items, fun h1 => ⟨hi, fun e hm => ?_⟩⟩
    have h1 : s.queue.isEmpty = true := h1
    have hm : e ∈ s.queue := hm
    rw [List.isEmpty_iff.1 h1] at hm
    simp at hm
  | none =>
    unfold step
    dsimp only
    split
    · rename_i he
      obtain ⟨hi, hs⟩ := h.empty he
      unfold S.own
      rw [hi]
      dsimp only
      have h0 : ∀ (s' : S), s'.ws = s.ws → s'.queue = s.queue → s'.empty = false → Own s' := by
        intro s' h1 h2 h3
        refine ⟨fun e hm => ?_, fun h4 => by rw [h3] at h4; simp at h4⟩
        rw [h2] at hm
        rw [h1]
        rcases hs e hm with h5 | h5
        · exact Or.inl h5
        · exact Or.inr (Or.inl h5)
      unfold S.none
      split
      · exact h0 _ rfl rfl rfl
      · exact h0 _ rfl rfl rfl
    · exact h

theorem own_init : Own init := ⟨fun e hm => by simp [init] at hm, fun h => by simp [init] at h⟩

theorem own_run (l : List Op) (hf : FitsRun init l) : Own (run init l) := by
  have : ∀ (l : List Op) (s : S), Inv s → Own s → FitsRun s l → Own (run s l) := by
    intro l
    induction l with
    | nil => exact fun s _ h _ => h
    | cons o t ih => exact fun s hi h hf => ih _ (inv_step hi o) (own_step hi h hf.1.1 o) hf.2
  exact this l _ inv_init own_init hf

/-! ## Every event is processed before the halt -/

def evs (w : Nat) (s : S) : Nat := s.queue.countP (fun e => e.own == w)

/-- `x`: a record where `CheckWorkerCanBeHalted` still has to be called. -/
structure Q (s : S) (x : Nat) : Prop where
  items : ∀ e ∈ s.queue, e.item ≠ 0 ∧ (s.ws e.own).wid = e.item
  count : ∀ (id : Nat) (r : Rec) (w : Nat), s.recs[id]? = some r → r.work = some w → (s.ws w).fired = r.processed + evs w s
  decided : ∀ (id : Nat) (cmd : Option Nat) (r : Rec) (w : Nat), s.chk = .decided id cmd → s.recs[id]? = some r →
    r.work = some w → evs w s = 0
  adds : ∀ w ∈ s.adds, (s.ws w).fired = 0
  prompt : ∀ (id : Nat) (r : Rec) (w : Nat), s.recs[id]? = some r → r.work = some w → r.doing = true → id ≠ x →
    r.recursion > 0 ∨ evs w s ≠ 0 ∨ ∃ cmd, s.chk = .decided id cmd

theorem q_init : Q init 0 := by
  refine ⟨fun e hm => by simp [init] at hm, ?_, ?_, fun w hm => by simp [init] at hm, ?_⟩
  · intro id r w h1 h2
    match id, h1 with
    | 0, h1 =>
      obtain rfl : Rec.new none = r := by simpa [init] using h1
      simp [Rec.new] at h2
    | 1, h1 =>
      obtain rfl : Rec.new (some 0) = r := by simpa [init] using h1
      obtain rfl : 0 = w := by simpa [Rec.new] using h2
      rfl
    | n + 2, h1 => simp [init] at h1
  · intro id cmd r w h1
    simp [init] at h1
  · intro id r w h1 h2 h3
    match id, h1 with
    | 0, h1 =>
      obtain rfl : Rec.new none = r := by simpa [init] using h1
      simp [Rec.new] at h2
    | 1, h1 =>
      obtain rfl : Rec.new (some 0) = r := by simpa [init] using h1
      simp [Rec.new, Rec.doing] at h3
    | n + 2, h1 => simp [init] at h1

theorem upd_fired (f : Nat → WS) (w : Nat) (x : WS) (h1 : x.fired = (f w).fired) (v : Nat) :
    (upd f w x v).fired = (f v).fired := by
  unfold upd
  by_cases h : v = w
  · rw [if_pos h, h]; exact h1
  · rw [if_neg h]

/-- One record is changed, the events are not. -/
theorem q_set {s s' : S} {x : Nat} (h : Q s x) (hi : s.chk = .idle) {id : Nat} {r r' : Rec} {w : Nat}
    (hr : s.recs[id]? = some r) (hw : r.work = some w) (hw' : r'.work = some w)
    (hrecs : s'.recs = s.recs.set id r') (hwid : ∀ v, (s'.ws v).wid = (s.ws v).wid)
    (hfired : ∀ v, (s'.ws v).fired = (s.ws v).fired) (hq : s'.queue = s.queue) (hp : r'.processed = r.processed)
    (hadds : s'.adds = s.adds) (x' : Nat) (hx : x = 0 ∨ x = id ∨ x = x') (hinv : Inv s)
    (hd : s'.chk = .idle ∨ (evs w s = 0 ∧ ∃ cmd, s'.chk = .decided id cmd))
    (hpr : r'.doing = true → id ≠ x' → r'.recursion > 0 ∨ evs w s ≠ 0 ∨ ∃ cmd, s'.chk = .decided id cmd) : Q s' x' := by
  have hev : ∀ v, evs v s' = evs v s := by
    intro v
    unfold evs
    rw [hq]
  refine ⟨?_, ?_, ?_, ?_, ?_⟩
  · intro e hm
    rw [hq] at hm
    rw [hwid]
    exact h.items e hm
  · intro j q v h1 h2
    rw [hfired, hev]
    rw [hrecs] at h1
    rcases set_get hr h1 with ⟨h3, h4⟩ | ⟨h3, h4⟩
    · subst h4
      rw [hw'] at h2
      rw [← Option.some.inj h2, hp]
      exact h.count id r w hr hw
    · exact h.count j q v h4 h2
  · intro j cmd q v h1 h2 h3
    rw [hev]
    rcases hd with hd | ⟨hd1, cmd', hd2⟩
    · rw [hd] at h1; simp at h1
    · rw [hd2] at h1
      obtain ⟨rfl, _⟩ : id = j ∧ cmd' = cmd := by simpa using h1
      rw [hrecs, set_self hr] at h2
      rw [← Option.some.inj h2, hw'] at h3
      rw [← Option.some.inj h3]
      exact hd1
  · intro v hv
    rw [hadds] at hv
    rw [hfired]
    exact h.adds v hv
  · intro j q v h1 h2 h3 h4
    rw [hev]
    rw [hrecs] at h1
    rcases set_get hr h1 with ⟨h5, h6⟩ | ⟨h5, h6⟩
    · subst h5; subst h6
      rw [hw'] at h2
      rw [← Option.some.inj h2]
      exact hpr h3 h4
    · have hj : j ≠ x := by
        rcases hx with hx | hx | hx
        · rw [hx]; exact id_ne_zero hinv h6 h2
        · rw [hx]; exact h5
        · rw [hx]; exact h4
      rcases h.prompt j q v h6 h2 h3 hj with h7 | h7 | ⟨cmd, h7⟩
      · exact Or.inl h7
      · exact Or.inr (Or.inl h7)
      · rw [hi] at h7; simp at h7

theorem ask_doing {r : Rec} {a : Act} (h : (r.ask a).doing = false) : r.doing = false := by
  cases a with
  | none => exact h
  | halt => simp [Rec.ask, Rec.doing] at h
  | destroy => simp [Rec.ask, Rec.doing] at h

/-- All events of `s`, answers and requests do not matter. -/
theorem q_same {s s' : S} {x : Nat} (h : Q s x) (hrecs : s'.recs = s.recs) (hws : s'.ws = s.ws) (hq : s'.queue = s.queue)
    (hadds : s'.adds = s.adds) (hchk : s'.chk = s.chk) : Q s' x := by
  refine ⟨?_, ?_, ?_, ?_, ?_⟩
  · rw [hq, hws]; exact h.items
  · intro j q v h1 h2
    rw [hrecs] at h1
    unfold evs
    rw [hws, hq]
    exact h.count j q v h1 h2
  · intro j c q v h1 h2 h3
    rw [hrecs] at h2
    rw [hchk] at h1
    unfold evs
    rw [hq]
    exact h.decided j c q v h1 h2 h3
  · rw [hadds, hws]; exact h.adds
  · intro j q v h1 h2 h3 h4
    rw [hrecs] at h1
    unfold evs
    rw [hq, hchk]
    exact h.prompt j q v h1 h2 h3 h4

theorem balance_zero {n m : Nat} (h : n < 4294967296) : balance (m + n) m = 0 ↔ n = 0 := by
  unfold balance
  have : ((m + n : Nat) : Int) - (m : Int) = (n : Int) := by push_cast; omega
  rw [this]
  omega

theorem q_check {s : S} {x : Nat} (h : Q s x) (hinv : Inv s) (hi : s.chk = .idle) (hf : s.queue.length < 4294967296)
    (id : Nat) (hx : x = 0 ∨ x = id) (a : Act) (cmd : Option Nat) : Q (s.check id a cmd) 0 := by
  have hans : (∀ r w, s.recs[id]? = some r → r.work = some w → r.doing = false) → Q (s.answer cmd false) 0 := by
    intro hno
    have h0 : Q s 0 := by
      refine ⟨h.items, h.count, h.decided, h.adds, ?_⟩
      intro j q v h1 h2 h3 h4
      by_cases hj : j = x
      · rcases hx with hx | hx
        · exact absurd (hj.trans hx) h4
        · rw [hj, hx] at h1
          rw [hno q v h1 h2] at h3
          simp at h3
      · exact h.prompt j q v h1 h2 h3 hj
    cases cmd with
    | none => exact h0
    | some c => exact q_same h0 rfl rfl rfl rfl rfl
  unfold S.check
  cases hl : s.live id with
  | none => exact hans fun r w h1 h2 => absurd h2 (live_none.1 hl r w h1)
  | some p =>
    obtain ⟨r, w⟩ := p
    obtain ⟨hr, hw⟩ := live_some.1 hl
    have hle : evs w s ≤ s.queue.length := List.countP_le_length
    have hbal := balance_zero (m := r.processed) (Nat.lt_of_le_of_lt hle hf)
    rw [← h.count id r w hr hw] at hbal
    dsimp only
    split
    · rename_i hd
      refine hans fun r' w' h1 h2 => ?_
      rw [hr] at h1
      rw [← Option.some.inj h1]
      exact ask_doing (a := a) (by simpa using hd)
    · split
      · rename_i hb
        refine q_set h hi hr hw (r' := { r.ask a with cmds := (r.ask a).cmds ++ cmd.toList }) (by
          show (r.ask a).work = _; rw [ask_work, hw]) rfl (by exact upd_wid _ _ _ rfl) (by exact upd_fired _ _ _ rfl) (by rfl)
          (ask_processed r a) (by rfl) 0 (hx.imp (fun h => h) Or.inl) hinv (by exact Or.inl hi) ?_
        intro _ _
        rcases hb with hb | hb
        · exact Or.inl hb
        · exact Or.inr (Or.inl fun h1 => hb (hbal.2 h1))
      · rename_i hb
        have hb0 : evs w s = 0 := by
          refine hbal.1 ?_
          rcases Classical.em (balance (s.ws w).fired r.processed = 0) with h1 | h1
          · exact h1
          · exact absurd (Or.inr h1) hb
        exact q_set h hi hr hw (r' := r.ask a) (by rw [ask_work, hw]) rfl (by exact upd_wid _ _ _ rfl) (by exact upd_fired _ _ _ rfl) (by rfl)
          (ask_processed r a) (by rfl) 0 (hx.imp (fun h => h) Or.inl) hinv (by exact Or.inr ⟨hb0, cmd, rfl⟩)
          (by exact fun _ _ => Or.inr (Or.inr ⟨cmd, rfl⟩))

theorem q_fire {s : S} (hinv : Inv s) (h : Q s 0) (hf : s.recs.length ≤ 65536) (w : Nat) (hm : (s.ws w).wid ≠ 0)
    (hc : ∀ id cmd, s.chk = .decided id cmd → (s.ws w).wid ≠ id) : Q (s.fire w) 0 := by
  have hlt := wid_lt hinv hf w
  have hwid : ∀ v, (upd s.ws w { s.ws w with fired := (s.ws w).fired + 1 } v).wid = (s.ws v).wid := upd_wid _ _ _ rfl
  have hev : ∀ v, evs v (s.fire w) = evs v s + if w = v then 1 else 0 := by
    intro v
    unfold evs S.fire
    dsimp only
    rw [List.countP_append]
    simp only [List.countP_cons, List.countP_nil, beq_iff_eq]
    omega
  have key : ∀ (j : Nat) (r : Rec) (v : Nat), s.recs[j]? = some r → r.work = some v → w = v → (s.ws w).wid = j := by
    intro j r v h1 h2 h3
    rw [h3]
    exact (hinv.live j r v h1 h2).1
  refine ⟨?_, ?_, ?_, ?_, ?_⟩
  · intro e he
    show e.item ≠ 0 ∧ (upd s.ws w _ _).wid = _
    rw [hwid]
    rcases List.mem_append.1 he with h1 | h1
    · exact h.items e h1
    · rw [List.mem_singleton.1 h1]
      dsimp only
      rw [Nat.mod_eq_of_lt hlt]
      exact ⟨hm, rfl⟩
  · intro j r v h1 h2
    rw [hev]
    have := h.count j r v h1 h2
    show (upd s.ws w _ v).fired = _
    by_cases hv : v = w
    · subst hv
      rw [upd_self]
      simp only [if_true]
      omega
    · rw [upd_other _ _ hv, if_neg (fun h => hv h.symm)]
      omega
  · intro j cmd r v h1 h2 h3
    rw [hev, if_neg]
    · exact h.decided j cmd r v h1 h2 h3
    · intro hv
      exact hc j cmd h1 (key j r v h2 h3 hv)
  · intro v hv
    have hv : v ∈ s.adds := hv
    have hvw : v ≠ w := by
      intro h1
      rw [h1] at hv
      exact hm (hinv.adds w hv).2
    show (upd s.ws w _ v).fired = 0
    rw [upd_other _ _ hvw]
    exact h.adds v hv
  · intro j r v h1 h2 h3 h4
    rw [hev]
    rcases h.prompt j r v h1 h2 h3 h4 with h5 | h5 | h5
    · exact Or.inl h5
    · exact Or.inr (Or.inl (by omega))
    · exact Or.inr (Or.inr h5)

theorem evs_zero {s : S} {x : Nat} (h : Q s x) {w : Nat} (hw : (s.ws w).wid = 0) : evs w s = 0 := by
  unfold evs
  refine List.countP_eq_zero.2 fun e he => ?_
  intro h1
  have h1 : e.own = w := by simpa using h1
  have := h.items e he
  rw [h1, hw] at this
  exact this.1 this.2.symm

theorem q_own {s : S} (hinv : Inv s) (h : Q s 0) (f : S → S)
    (hf : ∀ s', Inv s' → Q s' 0 → s'.chk = .idle → s'.queue = s.queue → s'.recs = s.recs → Q (f s') 0) : Q (s.own f) 0 := by
  rcases own_cases s f with ⟨h1, h2⟩ | ⟨h1, h2⟩
  · rw [h2]
    exact hf _ (inv_empty hinv false) (q_same h rfl rfl rfl rfl rfl) h1 rfl rfl
  · rw [h2]; exact h

theorem countP_eraseIdx {p : Ev → Bool} {l : List Ev} {k : Nat} {e : Ev} (h : l[k]? = some e) :
    l.countP p = (l.eraseIdx k).countP p + if p e then 1 else 0 := by
  induction l generalizing k with
  | nil => simp at h
  | cons a t ih =>
    cases k with
    | zero =>
      obtain rfl : a = e := by simpa using h
      rw [List.eraseIdx_cons_zero, List.countP_cons]
    | succ n =>
      rw [List.eraseIdx_cons_succ, List.countP_cons, List.countP_cons, ih (k := n) (by simpa using h)]
      omega

theorem q_step {s : S} (hinv : Inv s) (h : Q s 0) (hf : Fits s) (o : Op) (hc : Calm s o) : Q (step s o) 0 := by
  obtain ⟨hf1, hf2⟩ := hf
  cases o with
  | fire w =>
    unfold step
    dsimp only
    split
    · rename_i ha
      have ha : (s.ws w).active = true := (by simpa using ha : _ ∧ _).2
      have hm := hinv.active w ha
      refine q_fire hinv h hf1 w hm ?_
      intro id cmd hd heq
      obtain ⟨r, v, hr, hv, _, hdo⟩ : ∃ r w, s.recs[id]? = some r ∧ r.work = some w ∧ r.recursion = 0 ∧ r.doing = true := by
        have := hinv.chk
        unfold ChkOk at this
        rw [hd] at this
        exact this
      obtain ⟨r', hr', hv'⟩ := hinv.wid w hm
      rw [heq, hr] at hr'
      rw [← Option.some.inj hr', hv] at hv'
      have := (hinv.recs id r hr).inactive v hv hdo
      rw [Option.some.inj hv', ha] at this
      simp at this
    · exact h
  | magic w =>
    unfold step
    dsimp only
    split
    · rename_i ht
      obtain ⟨⟨r, hr, hw⟩, hi⟩ := hc ht
      obtain ⟨j, hj⟩ := List.getElem?_of_mem hr
      refine q_fire hinv h hf1 w ?_ ?_
      · rw [(hinv.live j r w hj hw).1]
        exact id_ne_zero hinv hj hw
      · intro id cmd hd
        rw [hi] at hd
        simp at hd
    · exact h
  | assign w =>
    unfold step
    dsimp only
    split
    · exact h
    · rename_i ht
      have hwid : (s.ws w).wid = 0 := by
        cases hz : (s.ws w).wid with
        | zero => rfl
        | succ n =>
          obtain ⟨r, h1, h2⟩ := hinv.wid w (by rw [hz]; simp)
          exact absurd (hinv.live _ _ _ h1 h2).2 ht
      refine ⟨?_, ?_, h.decided, ?_, h.prompt⟩
      · intro e he
        dsimp only
        rw [upd_wid _ _ _ hwid.symm]
        exact h.items e he
      · intro j r v h1 h2
        dsimp only
        have hvw : v ≠ w := by
          intro h3
          rw [h3] at h2
          exact ht (hinv.live j r w h1 h2).2
        rw [upd_other _ _ hvw]
        exact h.count j r v h1 h2
      · intro v hv
        dsimp only
        by_cases hvw : v = w
        · rw [hvw, upd_self]
        · rw [upd_other _ _ hvw]
          rcases List.mem_append.1 hv with h1 | h1
          · exact h.adds v h1
          · exact absurd (List.mem_singleton.1 h1) hvw
  | ask w a cc =>
    unfold step
    dsimp only
    split
    · exact q_same h rfl rfl rfl rfl rfl
    · exact h
  | next =>
    unfold step
    dsimp only
    split
    · exact h
    · rename_i id cmd hd
      obtain ⟨r, w, hr, hw, _⟩ : ∃ r w, s.recs[id]? = some r ∧ r.work = some w ∧ r.recursion = 0 ∧ r.doing = true := by
        have := hinv.chk
        unfold ChkOk at this
        rw [hd] at this
        exact this
      have h0 := h.decided id cmd r w hd hr hw
      unfold S.remove
      rw [live_some.2 ⟨hr, hw⟩]
      dsimp only
      refine ⟨?_, ?_, ?_, ?_, ?_⟩
      · intro e he
        dsimp only at he ⊢
        have hne : e.own ≠ w := by
          intro h1
          unfold evs at h0
          have := List.countP_eq_zero.1 h0 e he
          rw [h1] at this
          simp at this
        rw [upd_other _ _ hne]
        exact h.items e he
      · intro j q v h1 h2
        dsimp only at h1 ⊢
        rw [upd_fired _ _ _ (by rfl)]
        rcases set_get hr h1 with ⟨h3, h4⟩ | ⟨h3, h4⟩
        · rw [h4] at h2
          simp [Rec.new] at h2
        · exact h.count j q v h4 h2
      · intro j c q v h1
        simp at h1
      · intro v hv
        dsimp only at hv ⊢
        rw [upd_fired _ _ _ (by rfl)]
        exact h.adds v hv
      · intro j q v h1 h2 h3 h4
        rcases set_get hr h1 with ⟨h5, h6⟩ | ⟨h5, h6⟩
        · rw [h6] at h2
          simp [Rec.new] at h2
        · rcases h.prompt j q v h6 h2 h3 h4 with h7 | h7 | ⟨c, h7⟩
          · exact Or.inl h7
          · exact Or.inr (Or.inl h7)
          · rw [hd] at h7
            exact absurd (by simpa using h7 : id = j ∧ _).1.symm h5
    · rename_i w d cs hd
      obtain ⟨h1, h2, h3, h4⟩ : (s.ws w).thrd = true ∧ (s.ws w).wid = 0 ∧ w ∉ s.adds ∧ (s.ws w).active = false := by
        have := hinv.chk
        unfold ChkOk at this
        rw [hd] at this
        exact this
      unfold S.clear
      refine ⟨?_, ?_, fun j c q v h1 => by simp at h1, ?_, ?_⟩
      · intro e he
        dsimp only
        rw [upd_wid _ _ _ h2.symm]
        exact h.items e he
      · intro j q v h5 h6
        dsimp only
        rw [upd_fired _ _ _ (by rfl)]
        exact h.count j q v h5 h6
      · intro v hv
        dsimp only
        rw [upd_fired _ _ _ (by rfl)]
        exact h.adds v hv
      · intro j q v h5 h6 h7 h8
        rcases h.prompt j q v h5 h6 h7 h8 with h9 | h9 | ⟨c, h9⟩
        · exact Or.inl h9
        · exact Or.inr (Or.inl h9)
        · rw [hd] at h9; simp at h9
  | add k =>
    unfold step
    refine q_own hinv h _ fun s hinv h hi _ _ => ?_
    split
    · exact h
    · rename_i w hk
      have hm : w ∈ s.adds := List.mem_of_getElem? hk
      have hz := (hinv.adds w hm).2
      have hfz := h.adds w hm
      have hez := evs_zero h hz
      have get_new : ∀ (j : Nat) (r : Rec), (s.recs ++ [Rec.new (some w)])[j]? = some r →
          s.recs[j]? = some r ∨ r = Rec.new (some w) := by
        intro j r h1
        rcases Nat.lt_or_ge j s.recs.length with h2 | h2
        · rw [List.getElem?_append_left h2] at h1
          exact Or.inl h1
        · rw [List.getElem?_append_right h2] at h1
          have := List.mem_of_getElem? h1
          exact Or.inr (List.mem_singleton.1 this)
      refine ⟨?_, ?_, ?_, ?_, ?_⟩
      · intro e he
        dsimp only at he ⊢
        have hne : e.own ≠ w := by
          intro h1
          have := h.items e he
          rw [h1, hz] at this
          exact this.1 this.2.symm
        rw [upd_other _ _ hne]
        exact h.items e he
      · intro j q v h1 h2
        dsimp only at h1 ⊢
        rw [upd_fired _ _ _ (by rfl)]
        rcases get_new j q h1 with h3 | h3
        · exact h.count j q v h3 h2
        · subst h3
          obtain rfl : w = v := by simpa [Rec.new] using h2
          rw [hfz]
          show 0 = 0 + evs w s
          rw [hez]
      · intro j c q v h1
        dsimp only at h1
        rw [hi] at h1
        simp at h1
      · intro v hv
        dsimp only at hv ⊢
        rw [upd_fired _ _ _ (by rfl)]
        exact h.adds v ((List.eraseIdx_sublist ..).subset hv)
      · intro j q v h1 h2 h3 h4
        rcases get_new j q h1 with h5 | h5
        · rcases h.prompt j q v h5 h2 h3 h4 with h7 | h7 | ⟨c, h7⟩
          · exact Or.inl h7
          · exact Or.inr (Or.inl h7)
          · rw [hi] at h7; simp at h7
        · rw [h5] at h3
          simp [Rec.new, Rec.doing] at h3
  | exec k =>
    unfold step
    refine q_own hinv h _ fun s' hinv h hi hq _ => ?_
    split
    · exact h
    · rename_i q hk
      refine q_check (s := { s' with reqs := s'.reqs.eraseIdx k, done := s'.done ++ q.cmd.toList })
        (q_same h rfl rfl rfl rfl rfl) ?_ hi (by dsimp only; rw [hq]; exact hf2) _ (Or.inl rfl) _ _
      exact inv_same hinv rfl (fun _ => ⟨rfl, rfl⟩) (fun _ h => h) rfl hinv.frames (fun _ _ => rfl) hinv.chk
  | event k =>
    unfold step
    refine q_own hinv h _ fun s hinv h hi _ _ => ?_
    split
    · exact h
    · rename_i e hk
      have hm : e ∈ s.queue := List.mem_of_getElem? hk
      obtain ⟨hne, hwid⟩ := h.items e hm
      obtain ⟨r, hr, hw⟩ := hinv.wid e.own (by rw [hwid]; exact hne)
      rw [hwid] at hr
      have hl : S.live { s with queue := s.queue.eraseIdx k } e.item = some (r, e.own) := live_some.2 ⟨hr, hw⟩
      unfold S.begin
      rw [if_neg hne, hl]
      dsimp only
      have hev : ∀ v, evs v s = (s.queue.eraseIdx k).countP (fun e => e.own == v) + if e.own = v then 1 else 0 := by
        intro v
        unfold evs
        rw [countP_eraseIdx hk]
        simp only [beq_iff_eq]
      refine ⟨?_, ?_, ?_, h.adds, ?_⟩
      · intro e' he'
        exact h.items e' ((List.eraseIdx_sublist ..).subset he')
      · intro j q v h1 h2
        unfold evs
        dsimp only at h1 ⊢
        have hv := hev v
        rcases set_get hr h1 with ⟨h3, h4⟩ | ⟨h3, h4⟩
        · subst h4
          have h2 : r.work = some v := h2
          have h5 := h.count e.item r v hr h2
          rw [hw] at h2
          rw [if_pos (Option.some.inj h2)] at hv
          dsimp only
          omega
        · have h5 := h.count j q v h4 h2
          rw [if_neg] at hv
          · omega
          · intro h6
            have := (hinv.live j q v h4 h2).1
            rw [← h6, hwid] at this
            exact h3 this.symm
      · intro j c q v h1
        dsimp only at h1
        rw [hi] at h1
        simp at h1
      · intro j q v h1 h2 h3 h4
        unfold evs
        dsimp only at h1 ⊢
        have hv := hev v
        rcases set_get hr h1 with ⟨h5, h6⟩ | ⟨h5, h6⟩
        · subst h6
          have := (hinv.recs e.item r hr).recursion e.own hw
          exact Or.inl (by dsimp only; omega)
        · rw [if_neg] at hv
          · rcases h.prompt j q v h6 h2 h3 h4 with h7 | h7 | ⟨c, h7⟩
            · exact Or.inl h7
            · exact Or.inr (Or.inl (by omega))
            · rw [hi] at h7; simp at h7
          · intro h7
            have := (hinv.live j q v h6 h2).1
            rw [← h7, hwid] at this
            exact h5 this.symm
  | guard w =>
    unfold step
    refine q_own hinv h _ fun s hinv h hi _ _ => ?_
    unfold S.enter
    split
    · exact q_same h rfl rfl rfl rfl rfl
    · rename_i r v hl
      obtain ⟨hr, hw⟩ := live_some.1 hl
      refine q_set h hi hr hw (r' := { r with recursion := r.recursion + 1 }) hw (by rfl) (by exact fun _ => rfl) (by exact fun _ => rfl) (by rfl) rfl (by rfl)
        0 (Or.inl rfl) hinv (by exact Or.inl hi) ?_
      intro _ _
      have := (hinv.recs _ r hr).recursion v hw
      exact Or.inl (by dsimp only; omega)
  | raw id =>
    unfold step
    refine q_own hinv h _ fun s hinv h hi _ _ => ?_
    split
    · exact h
    · exact q_same h rfl rfl rfl rfl rfl
  | pop =>
    unfold step
    refine q_own hinv h _ fun s' hinv h hi hq _ => ?_
    rw [← hq] at hf2
    unfold S.pop
    split
    · exact h
    · rename_i id w t hs
      obtain ⟨h0, hwid⟩ : FrameOk s'.ws (.event id w) := hinv.frames _ (by rw [hs]; exact List.mem_cons_self)
      obtain ⟨r, hr, hw⟩ := hinv.wid w (by rw [hwid]; exact h0)
      rw [hwid] at hr
      have hinv' := inv_drop hinv hi hr hw (.event id w) t hs (by rw [isG_event]; simp)
        (fun j hj => by rw [isG_event]; simpa using fun h' => hj h'.symm)
      have h' : ∀ x', (r.doing = true → x' = id) →
          Q { s' with recs := s'.recs.set id { r with recursion := r.recursion - 1 }, stack := t } x' := by
        intro x' hx'
        exact q_set h hi hr hw (r' := { r with recursion := r.recursion - 1 }) hw (by rfl) (by exact fun _ => rfl) (by exact fun _ => rfl) (by rfl) rfl (by rfl)
          x' (Or.inl rfl) hinv (by exact Or.inl hi) (fun hd hne => absurd (hx' hd).symm hne)
      unfold S.endEvent
      dsimp only
      rw [hr]
      dsimp only
      split
      · exact q_check (h' id fun _ => rfl) hinv' hi hf2 id (Or.inr rfl) _ _
      · rename_i hd
        exact h' 0 fun h1 => absurd h1 hd
    · rename_i id w t hs
      have hfo : FrameOk s'.ws (.guard id w) := hinv.frames _ (by rw [hs]; exact List.mem_cons_self)
      unfold S.leave
      split
      · exact q_same h rfl rfl rfl rfl rfl
      · rename_i r v hl
        obtain ⟨hr, hw⟩ := live_some.1 hl
        have hr : s'.recs[id]? = some r := hr
        have hinv' := inv_drop hinv hi hr hw (.guard id w) t hs (by rw [isG_guard]; simp)
          (fun j hj => by rw [isG_guard]; simpa using fun h' => hj h'.symm)
        have h' : ∀ x', (r.doing = true → id ≠ x' → r.recursion - 1 > 0) →
            Q { s' with recs := s'.recs.set id { r with recursion := r.recursion - 1 }, stack := t } x' := by
          intro x' hx'
          exact q_set h hi hr hw (r' := { r with recursion := r.recursion - 1 }) hw (by rfl) (by exact fun _ => rfl) (by exact fun _ => rfl) (by rfl) rfl (by rfl)
            x' (Or.inl rfl) hinv (by exact Or.inl hi) (fun hd hne => Or.inl (hx' hd hne))
        dsimp only
        split
        · exact q_check (h' id fun _ hne => absurd rfl hne) hinv' hi hf2 id (Or.inr rfl) _ _
        · rename_i hd
          refine h' 0 fun h1 _ => ?_
          have h2 : ¬ (r.recursion - 1 = 0) := fun h3 => hd ⟨h3, h1⟩
          have h3 := (hinv'.recs id { r with recursion := r.recursion - 1 } (set_self hr)).recursion v hw
          dsimp only at h3
          omega
    · exact q_same h rfl rfl rfl rfl rfl
    · exact q_same h rfl rfl rfl rfl rfl
  | wait =>
    unfold step
    exact q_own hinv h _ fun s hinv h hi _ _ => q_same h rfl rfl rfl rfl rfl
  | none =>
    unfold step
    dsimp only
    split
    · refine q_own hinv h _ fun s hinv h hi _ _ => ?_
      unfold S.none
      split
      · cases hrs : s.recs with
        | nil =>
          obtain ⟨r, h1, _⟩ := hinv.zero
          rw [hrs] at h1
          simp at h1
        | cons a t =>
          dsimp only
          have back : ∀ (j : Nat) (r : Rec), (a :: shrink t)[j]? = some r → s.recs[j]? = some r := by
            intro j r h1
            rw [hrs]
            cases j with
            | zero => exact h1
            | succ n =>
              simp only [List.getElem?_cons_succ] at h1 ⊢
              exact shrink_get t n r h1
          exact ⟨h.items, fun j r w h1 h2 => h.count j r w (back _ _ h1) h2,
            fun j c r w h1 h2 h3 => h.decided j c r w h1 (back _ _ h2) h3, h.adds,
            fun j r w h1 h2 h3 h4 => h.prompt j r w (back _ _ h1) h2 h3 h4⟩
      · exact h
    · exact h

theorem q_run (l : List Op) (hf : FitsRun init l) (hc : CalmRun init l) : Q (run init l) 0 := by
  have : ∀ (l : List Op) (s : S), Inv s → Q s 0 → FitsRun s l → CalmRun s l → Q (run s l) 0 := by
    intro l
    induction l with
    | nil => exact fun s _ h _ _ => h
    | cons o t ih => exact fun s hi h hf hc => ih _ (inv_step hi o) (q_step hi h hf.1 o hc.1) hf.2 hc.2
  exact this l _ inv_init q_init hf hc

end Verif.WorkerHalt
