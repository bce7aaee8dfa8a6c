import Verif.Spec.InpTransport
import Mathlib.Data.List.Induction

namespace Verif.InpTransport

open Spec

theorem run_snoc (l : List Ev) (e : Ev) : run (l ++ [e]) = (run l).bind fun p => next p e := by
  simp only [run, List.foldl_append, List.foldl_cons, List.foldl_nil]

/-! ## Frame facts -/

section frame
variable (s : S) (st : St)

@[simp] theorem change_st : (change s st).st = st := by
  unfold change halt; split
  · split <;> rfl
  · rfl
@[simp] theorem change_inp : (change s st).inp = s.inp := by
  unfold change halt; split
  · split <;> rfl
  · rfl
@[simp] theorem change_cur : (change s st).cur = s.cur := by
  unfold change halt; split
  · split <;> rfl
  · rfl
@[simp] theorem change_next : (change s st).next = s.next := by
  unfold change halt; split
  · split <;> rfl
  · rfl
@[simp] theorem change_log : (change s st).log = s.log := by
  unfold change halt; split
  · split <;> rfl
  · rfl
@[simp] theorem change_dead : (change s st).dead = s.dead := by
  unfold change halt; split
  · split <;> rfl
  · rfl
@[simp] theorem change_opened : (change s st).opened = s.opened := by
  unfold change halt; split
  · split <;> rfl
  · rfl
@[simp] theorem change_nbuf : (change s st).nbuf = s.nbuf := by
  unfold change halt; split
  · split <;> rfl
  · rfl
@[simp] theorem change_tst : (change s st).tst = s.tst := by
  unfold change halt; split
  · split <;> rfl
  · rfl
@[simp] theorem change_full : (change s st).full = s.full := by
  unfold change halt; split
  · split <;> rfl
  · rfl
@[simp] theorem change_pend : (change s st).pend = s.pend := by
  unfold change halt; split
  · split <;> rfl
  · rfl
end frame

/-- What the transport remembers fits to the point where the conversation
stands. -/
def Rel (s : S) (p : P) : Prop :=
  match s.st with
  | .init => s.inp = true ∧ p = .idle
  | .initTimeout => s.inp = true ∧ p = .timed
  | .sizeCallBack => s.inp = true ∧ p = .sizing
  | .checkSize => s.inp = true ∧ p = announced s.next
  | .needBuffer => s.inp = true ∧ p = .sized s.next
  | .waitBuffer => s.inp = true ∧ p = .sized s.next
  | .checkBuffer => s.inp = true ∧ ∃ b sz, s.cur = some (b, sz) ∧
      p = if sz < s.next then .finished else .got b (if s.next = 0 then sz else s.next)
  | .hasBuffer => s.inp = true ∧ ∃ b sz, s.cur = some (b, sz) ∧ p = .got b sz
  | .callBack => s.inp = true ∧ ∃ b sz, s.cur = some (b, sz) ∧ p = .waiting b
  | .completing => s.inp = true ∧ ∃ b sz, s.cur = some (b, sz) ∧ p = .filling b
  | .complitTimeout => s.inp = true ∧ ∃ b sz, s.cur = some (b, sz) ∧ p = .ftimed b
  | .ready => s.inp = true ∧ ∃ b sz, s.cur = some (b, sz) ∧ p = .full b
  | .error => s.inp = true ∧ p = .finished
  | .fin => s.inp = true ∧ p = .finished
  | .reconnect => s.inp = false ∧ p = .gone
  | .closed => s.inp = false ∧ (p = .gone ∨ p = .over)

/-- The invariant while the process is alive. -/
def Good (s : S) : Prop := s.dead = false ∧ ∃ p, run s.log = some p ∧ Rel s p

theorem Good.chg {s : S} {st : St} {p : P} (hd : s.dead = false) (hr : run s.log = some p)
    (h : Rel { s with st := st } p) : Good (change s st) := by
  refine ⟨by rw [change_dead]; exact hd, p, by rw [change_log]; exact hr, ?_⟩
  unfold Rel at *
  rw [change_st, change_inp, change_cur, change_next]
  exact h

/-- Only these parts matter for the invariant. -/
theorem Good.congr {s s' : S} (h : Good s) (h1 : s'.st = s.st) (h2 : s'.inp = s.inp)
    (h3 : s'.cur = s.cur) (h4 : s'.next = s.next) (h5 : s'.log = s.log) (h6 : s'.dead = s.dead) :
    Good s' := by
  unfold Good Rel at *
  rw [h1, h2, h3, h4, h5, h6]; exact h

theorem run_note {s : S} {p q : P} {e : Ev} (h : run s.log = some p) (hq : next p e = some q) :
    run (s.log ++ [e]) = some q := by
  rw [run_snoc, h]; exact hq

/-- Giving up the input on a wish from outside. -/
theorem quit_good {s : S} (h : Good s) (hc : s.st ≠ .closed) (hn : s.st ≠ .ready) :
    (quitInput s).dead = false ∧ (quitInput s).inp = false ∧ run (quitInput s).log = some .gone := by
  obtain ⟨hd, p, hr, hrel⟩ := h
  unfold quitInput
  cases hi : s.inp with
  | false =>
    rw [if_neg (by simp)]
    refine ⟨hd, hi, ?_⟩
    unfold Rel at hrel
    split at hrel <;> simp_all
  | true =>
    rw [if_pos rfl]
    unfold closeInput
    rw [if_pos (by exact hi)]
    refine ⟨hd, rfl, ?_⟩
    show run ((s.log ++ [Ev.quit]) ++ [Ev.delete]) = some .gone
    have h1 : run (s.log ++ [Ev.quit]) = some .leaving := by
      refine run_note hr ?_
      show quitNext p = some .leaving
      unfold Rel at hrel
      split at hrel
      case h_7 =>
        obtain ⟨-, b, sz, -, hp⟩ := hrel
        rw [hp]; split <;> rfl
      case h_4 =>
        obtain ⟨-, hp⟩ := hrel
        rw [hp]; unfold announced
        split
        · rfl
        · split <;> rfl
      all_goals first
        | contradiction
        | (obtain ⟨-, hp⟩ := hrel; subst hp; rfl)
        | (obtain ⟨-, b, sz, -, hp⟩ := hrel; subst hp; rfl)
        | (exfalso; rw [hi] at hrel; exact absurd hrel.1 (by simp))
    rw [run_snoc, h1]; rfl

/-- What follows from a part of `ProcessSend`. -/
def Post (r : R) : Prop := Good r.1

theorem andThen_good {r : R} {f : S → R} (h : Good r.1) (hf : ∀ s, r = (s, none) → Good (f s).1) :
    Good (andThen r f).1 := by
  unfold andThen
  match r, h, hf with
  | (s, some b), h, _ => exact h
  | (s, none), _, hf => exact hf s rfl

theorem good_closed {s : S} (h : s.dead = false) (hi : s.inp = false) (hr : run s.log = some .gone) :
    Good (change s .closed) :=
  Good.chg h hr ⟨hi, Or.inl rfl⟩

theorem before_good {c : Cfg} {a : Ans} {s : S} (h : Good s) (hn : s.st ≠ .ready) : Good (before c a s).1 := by
  unfold before
  split
  · exact h
  split
  · exact h.congr rfl rfl rfl rfl rfl rfl
  split
  · rename_i hc _ _
    obtain ⟨h1, h2, h3⟩ := quit_good h hc hn
    exact (good_closed h1 h2 h3).congr rfl rfl rfl rfl rfl rfl
  split
  · rename_i hst
    split
    · exact h.congr rfl rfl rfl rfl rfl rfl
    split
    · exact h.congr rfl rfl rfl rfl rfl rfl
    split
    · exact h.congr rfl rfl rfl rfl rfl rfl
    · obtain ⟨hd, p, hr, hrel⟩ := h
      unfold Rel at hrel
      rw [hst] at hrel
      obtain ⟨_, rfl⟩ := hrel
      exact Good.chg (p := .idle) hd (run_note hr rfl) ⟨rfl, rfl⟩
  · exact h

theorem idle_good {s : S} (h : Good s) : Good (idle s).1 := by
  unfold idle
  split
  · exact h.congr rfl rfl rfl rfl rfl rfl
  split
  · exact h
  · exact h

theorem announced_callBack : announced cCallBack = .finished := by decide

theorem sizeNext_of_ne {r : Nat} (h1 : r ≠ cRepeat) (h2 : r ≠ cRepeatTimeOut) (h3 : r ≠ cCallBack) :
    sizeNext r = announced r := by
  unfold sizeNext
  rw [if_neg h1, if_neg h2, if_neg h3]

theorem sizeRes_none {r : Nat} {s : S} (hd : s.dead = false) (hi : s.inp = true)
    (hst : s.st = .sizeCallBack) (hr : run s.log = some (sizeNext r)) : Good (sizeRes r s).1 := by
  unfold sizeRes
  by_cases hcb : r = cCallBack
  · subst hcb
    rw [if_pos rfl, if_neg (by decide), if_neg (by decide), if_pos rfl]
    refine ⟨hd, _, hr, ?_⟩
    unfold Rel; rw [hst]
    exact ⟨hi, by decide⟩
  · rw [if_neg hcb]
    dsimp only
    split
    · rename_i h
      subst h
      exact ⟨hd, _, hr, ⟨hi, by decide⟩⟩
    split
    · rename_i h
      subst h
      refine Good.congr (s := change { s with st := .init } .initTimeout) ?_ rfl rfl rfl rfl rfl rfl
      exact Good.chg (s := { s with st := .init }) hd hr ⟨hi, by decide⟩
    · rename_i h1 h2
      exact Good.chg (s := { s with st := .init, next := r }) hd hr ⟨hi, sizeNext_of_ne h1 h2 hcb⟩

theorem sizeRes_back {s : S} (hd : s.dead = false) (hi : s.inp = true)
    (hst : s.st = .checkSize) (hr : run s.log = some (announced s.next)) :
    Good (sizeRes cCallBack s).1 := by
  unfold sizeRes
  rw [if_pos rfl, if_neg (by decide), if_neg (by decide), if_pos rfl]
  refine ⟨hd, _, hr, ?_⟩
  unfold Rel; rw [hst]
  exact ⟨hi, rfl⟩

theorem activate_frame (room : Bool) (s : S) :
    (activate room s).st = s.st ∧ (activate room s).inp = s.inp ∧ (activate room s).cur = s.cur ∧
    (activate room s).next = s.next ∧ (activate room s).log = s.log ∧
    (activate room s).dead = s.dead := by
  unfold activate
  split
  · split <;> exact ⟨rfl, rfl, rfl, rfl, rfl, rfl⟩
  · exact ⟨rfl, rfl, rfl, rfl, rfl, rfl⟩

theorem sizeStage_good {a : Ans} {s : S} (h : Good s) (ha : Fits a) (hroom : a.room ≠ 0) :
    Good (sizeStage a s).1 := by
  unfold sizeStage
  split
  · rename_i hst
    split
    · exact h
    obtain ⟨hd, p, hr, hrel⟩ := h
    unfold Rel at hrel
    rw [hst] at hrel
    obtain ⟨hi, rfl⟩ := hrel
    have hr1 : run (s.log ++ [Ev.size a.size]) = some (sizeNext a.size) := run_note hr rfl
    cases hb : a.sizeBack with
    | none => exact sizeRes_none hd hi rfl hr1
    | some v =>
      have hcb := ha.size (by rw [hb]; simp)
      rw [hcb] at hr1 ⊢
      unfold inner
      obtain ⟨k1, k2, k3, k4, k5, k6⟩ := activate_frame true
        (backState v (note { s with st := .sizeCallBack, next := 0 } (.size cCallBack)))
      apply sizeRes_back
      · exact k6.trans hd
      · exact k2.trans hi
      · exact k1
      · dsimp only at *
        rw [k5, k4]
        show run ((s.log ++ [Ev.size cCallBack]) ++ [Ev.back v]) = some (announced v)
        exact run_note (s := { s with log := s.log ++ [Ev.size cCallBack] }) hr1 rfl
  · exact h

theorem sizeCheck_good {s : S} (h : Good s) : Good (sizeCheck s).1 := by
  unfold sizeCheck
  split
  · rename_i hst
    obtain ⟨hd, p, hr, hrel⟩ := h
    unfold Rel at hrel
    rw [hst] at hrel
    obtain ⟨hi, rfl⟩ := hrel
    split
    · rename_i h1
      exact Good.chg hd hr ⟨hi, by rw [h1]; decide⟩
    split
    · rename_i h1
      exact Good.chg hd hr ⟨hi, by rw [h1]; decide⟩
    split
    · rename_i h1
      refine ⟨by rw [show ({ change s St.needBuffer with next := 0 } : S).dead = (change s St.needBuffer).dead from rfl, change_dead]; exact hd, _, by dsimp only; rw [change_log]; exact hr, ?_⟩
      unfold Rel
      dsimp only
      rw [change_st, change_inp]
      exact ⟨hi, by rw [h1]; decide⟩
    split
    · rename_i h1
      refine Good.chg hd hr ⟨hi, ?_⟩
      unfold announced; rw [if_pos h1]
    · rename_i h3 h4
      refine Good.chg hd hr ⟨hi, ?_⟩
      unfold announced; rw [if_neg h4, if_neg h3]
  · exact h

theorem take_good {s : S} {sz : Nat} (hd : s.dead = false) (hi : s.inp = true)
    (hr : run s.log = some (.sized s.next)) : Good (change (take sz s) .checkBuffer) := by
  refine Good.chg hd (run_note hr rfl) ⟨hi, s.nbuf, sz, rfl, rfl⟩

theorem bufferStage_good {c : Cfg} {a : Ans} {s : S} (h : Good s) : Good (bufferStage c a s).1 := by
  unfold bufferStage
  split
  · rename_i hst
    obtain ⟨hd, p, hr, hrel⟩ := id h
    unfold Rel at hrel
    rw [hst] at hrel
    obtain ⟨hi, rfl⟩ := hrel
    split
    · exact take_good hd hi hr
    · split
      · exact Good.chg (s := { s with cur := none }) hd hr ⟨hi, rfl⟩
      · refine ⟨hd, _, hr, ?_⟩
        unfold Rel
        dsimp only
        rw [hst]
        exact ⟨hi, rfl⟩
  · exact h

theorem bufferCheck_good {s : S} (h : Good s) : Good (bufferCheck s).1 := by
  unfold bufferCheck
  split
  · rename_i hst
    obtain ⟨hd, p, hr, hrel⟩ := h
    unfold Rel at hrel
    rw [hst] at hrel
    obtain ⟨hi, b, sz, hcur, rfl⟩ := hrel
    have hsz : curSize s = sz := by unfold curSize; rw [hcur]
    rw [hsz]
    split
    · rename_i h1
      exact Good.chg hd hr ⟨hi, if_pos h1⟩
    rename_i h1
    rw [if_neg h1] at hr
    split
    · rename_i h2
      refine Good.chg (s := cut s.next s) hd hr ⟨hi, b, s.next, ?_, ?_⟩
      · show s.cur.map _ = _
        rw [hcur]; rfl
      · rw [if_neg (by omega)]
    · rename_i h2
      refine Good.chg hd hr ⟨hi, b, sz, hcur, ?_⟩
      rw [if_pos (by omega)]
  · exact h

theorem startStage_good {a : Ans} {s : S} (h : Good s) (ha : Fits a) : Good (startStage a s).1 := by
  unfold startStage
  split
  · rename_i hst
    obtain ⟨hd, p, hr, hrel⟩ := h
    unfold Rel at hrel
    rw [hst] at hrel
    obtain ⟨hi, b, sz, hcur, rfl⟩ := hrel
    have hsz : curSize s = sz := by unfold curSize; rw [hcur]
    have hid : curId s = b := by unfold curId; rw [hcur]
    rw [hsz, hid]
    have hr1 : run (s.log ++ [Ev.start b sz a.start]) = some (startNext b a.start) :=
      run_note hr (by show (if _ then _ else _) = _; rw [if_pos rfl])
    cases hb : a.startBack with
    | none =>
      unfold inner startRes
      dsimp only
      split
      · rename_i h1
        refine Good.chg (s := note { s with st := .callBack } (.start b sz a.start)) hd hr1 ⟨hi, b, sz, hcur, ?_⟩
        rw [h1]; rfl
      split
      · rename_i h2
        rcases h2 with h2 | h2
        · exact absurd h2 ha.need
        · exact absurd h2 ha.enough
      split
      · rename_i h3
        refine ⟨hd, _, hr1, ⟨hi, b, sz, hcur, ?_⟩⟩
        rw [h3]; rfl
      · rename_i h1 _ h3
        refine Good.chg (s := note { s with st := .callBack } (.start b sz a.start)) hd hr1 ⟨hi, ?_⟩
        unfold startNext; rw [if_neg h1, if_neg h3]
    | some v =>
      have hcb := ha.start (by rw [hb]; simp)
      rw [hcb] at hr1 ⊢
      unfold inner
      obtain ⟨k1, k2, k3, k4, k5, k6⟩ := activate_frame true
        (backState v (note { s with st := .callBack } (.start b sz cCallBack)))
      dsimp only
      unfold startRes
      rw [if_neg (by decide), if_neg (by decide), if_pos rfl]
      refine ⟨k6.trans hd, .filling b, ?_, ?_⟩
      · rw [k5]
        show run ((s.log ++ [Ev.start b sz cCallBack]) ++ [Ev.back v]) = some (.filling b)
        exact run_note (s := { s with log := s.log ++ [Ev.start b sz cCallBack] }) hr1 rfl
      · unfold Rel
        rw [k1]
        exact ⟨k2.trans hi, b, sz, k3.trans hcur, rfl⟩
  · exact h

theorem waitStage_good {s : S} (h : Good s) : Good (waitStage s).1 := by
  unfold waitStage; split <;> exact h

theorem complStage_good {a : Ans} {s : S} (h : Good s) (ha : Fits a) : Good (complStage a s).1 := by
  unfold complStage
  split
  · rename_i hst
    obtain ⟨hd, p, hr, hrel⟩ := h
    unfold Rel at hrel
    rw [hst] at hrel
    obtain ⟨hi, b, sz, hcur, rfl⟩ := hrel
    rw [hcur]
    dsimp only
    have hr1 : run (s.log ++ [Ev.complete b a.compl]) = some (complNext b a.compl) :=
      run_note hr (by show (if _ then _ else _) = _; rw [if_pos rfl])
    unfold complRes
    split
    · rename_i h1
      refine Good.chg (s := note s (.complete b a.compl)) hd hr1 ⟨hi, b, sz, hcur, ?_⟩
      rw [h1]; rfl
    split
    · rename_i h2; exact absurd h2 ha.more
    split
    · rename_i h3
      refine Good.chg (s := { note s (.complete b a.compl) with cur := none }) hd hr1 ⟨hi, ?_⟩
      rw [h3]; rfl
    split
    · rename_i h3
      refine Good.chg (s := { note s (.complete b a.compl) with cur := none }) hd hr1 ⟨hi, ?_⟩
      rw [h3]; rfl
    split
    · rename_i h3
      refine ⟨hd, _, hr1, ?_⟩
      unfold Rel
      dsimp only [note]
      rw [hst]
      refine ⟨hi, b, sz, hcur, ?_⟩
      rw [h3]; rfl
    split
    · rename_i h3
      refine Good.congr (s := change (note s (.complete b a.compl)) .complitTimeout) ?_ rfl rfl rfl rfl rfl rfl
      refine Good.chg (s := note s (.complete b a.compl)) hd hr1 ⟨hi, b, sz, hcur, ?_⟩
      rw [h3]; rfl
    · rename_i h1 h2 h3 h4 h5 h6
      refine Good.chg (s := note s (.complete b a.compl)) hd hr1 ⟨hi, ?_⟩
      unfold complNext
      rw [if_neg h1, if_neg h3, if_neg h5, if_neg h6]
  · exact h

theorem readyStage_good {a : Ans} {s : S} (h : Good s) (hroom : a.room ≠ 0) :
    Good (readyStage a s).1 := by
  unfold readyStage
  split
  · rename_i hst
    obtain ⟨hd, p, hr, hrel⟩ := h
    unfold Rel at hrel
    rw [hst] at hrel
    obtain ⟨hi, b, sz, hcur, rfl⟩ := hrel
    unfold sendCur
    rw [hcur]
    refine Good.chg (p := .idle) hd (run_note hr ?_) ⟨hi, rfl⟩
    show (if _ then _ else _) = _
    rw [if_pos rfl]
  · exact h

theorem endStage_good {a : Ans} {s : S} (h : Good s) (hroom : a.room ≠ 0) :
    Good (endStage a s).1 := by
  unfold endStage
  split
  · rename_i hst
    obtain ⟨hd, p, hr, hrel⟩ := h
    dsimp only
    have hp : s.inp = true ∧ p = .finished := by
      unfold Rel at hrel
      rcases hst with hst | hst <;> (rw [hst] at hrel; exact hrel)
    obtain ⟨hi, rfl⟩ := hp
    unfold closeInput
    rw [if_pos hi]
    refine Good.chg (p := .over) hd ?_ ⟨rfl, Or.inr rfl⟩
    show run ((s.log ++ [Ev.delete]) ++ [Ev.eof]) = _
    rw [run_snoc, run_snoc, hr]; rfl
  · exact h

theorem lastStage_good {s : S} (h : Good s) : Good (lastStage s).1 := by
  unfold lastStage; split
  · exact h.congr rfl rfl rfl rfl rfl rfl
  · exact h

/-! ## Who wakes the transport up -/

def Timed (st : St) : Prop := st = .initTimeout ∨ st = .complitTimeout

/-- Flags which belong together. -/
structure Aux (s : S) : Prop where
  running : s.run = true → s.tst = .running ∨ s.stopReq = true
  stopping : s.stopReq = true → s.st ≠ .init ∧ s.tst = .stopped
  timer : s.run = true → Timed s.st → s.timer = true
  halted : s.run = false → s.tst ≠ .running ∧ (suitable s.st = true ∨ s.st = .reconnect)

theorem Aux.run_of {s : S} (h : Aux s) (h1 : suitable s.st = false) (h2 : s.st ≠ .reconnect) : s.run = true := by
  cases hr : s.run with
  | true => rfl
  | false =>
    rcases (h.halted hr).2 with hx | hx
    · rw [h1] at hx; exact absurd hx (by simp)
    · exact absurd hx h2

/-- States which exist only inside of `ProcessSend`. -/
def Transient (st : St) : Prop := st = .ready ∨ st = .hasBuffer ∨ st = .fin ∨ st = .closed

/-- States in which something else is awaited. -/
def Quiet (s : S) : Prop :=
  s.st = .sizeCallBack ∨ s.st = .callBack ∨ s.st = .waitBuffer ∨ (Timed s.st ∧ s.timer = true) ∨
  ((s.st = .needBuffer ∨ s.st = .reconnect) ∧ s.timer = true)

theorem Aux.congr {s s' : S} (h : Aux s) (h1 : s'.st = s.st) (h2 : s'.run = s.run)
    (h3 : s'.tst = s.tst) (h4 : s'.stopReq = s.stopReq) (h5 : s'.timer = s.timer) : Aux s' := by
  obtain ⟨a, b, c, d⟩ := h
  constructor
  · rw [h2, h3, h4]; exact a
  · rw [h1, h3, h4]; exact b
  · rw [h1, h2, h5]; exact c
  · rw [h1, h2, h3]; exact d

theorem Aux.chg {s : S} {st : St} (h : Aux s) (hst : ¬ Timed st) (hx : suitable st = true ∨ s.run = true) :
    Aux (change s st) := by
  obtain ⟨a, b, c, d⟩ := h
  unfold change
  split
  · rename_i hs
    rw [Bool.and_eq_true] at hs
    have htst : s.tst ≠ .running := by rw [(b hs.1).2]; simp
    unfold halt
    split
    · exact ⟨fun h => by simp at h, fun h => by simp at h, fun h => by simp at h, fun _ => ⟨htst, Or.inl hs.2⟩⟩
    · rename_i hr
      exact ⟨fun h => absurd h hr, fun h => by simp at h, fun h => absurd h hr, fun _ => ⟨htst, Or.inl hs.2⟩⟩
  · rename_i hs
    refine ⟨a, fun h => ⟨?_, (b h).2⟩, fun _ h => absurd h hst, fun hr => ⟨(d hr).1, Or.inl ?_⟩⟩
    · rintro rfl
      apply hs
      rw [show s.stopReq = true from h]; rfl
    · rcases hx with hx | hx
      · exact hx
      · rw [show s.run = false from hr] at hx; exact absurd hx (by simp)

theorem Aux.timed {s : S} {st : St} (h : Aux s) (hst : suitable st = false) (hr : s.run = true) :
    Aux { change s st with timer := true } := by
  obtain ⟨a, b, c, d⟩ := h
  unfold change
  rw [if_neg (by rw [hst]; simp)]
  refine ⟨a, fun h => ⟨?_, (b h).2⟩, fun _ _ => rfl, fun hx => ?_⟩
  · rintro rfl
    exact absurd hst (by decide)
  · rw [show s.run = false from hx] at hr; exact absurd hr (by simp)

/-- After `ProcessSend`. -/
structure Done (s : S) (r : Option Bool) : Prop where
  sent : s.st ≠ .ready
  aux : Aux s
  rest : s.opened = true → ¬ Transient s.st
  quiet : r ≠ some true → s.opened = true → s.run = true → Quiet s

/-- Between the parts of `ProcessSend`. -/
structure Mid (s : S) : Prop where
  good : Good s
  aux : Aux s
  opened : s.opened = true

theorem Done.shut {s : S} {r : Option Bool} (h : Aux s) (ho : s.opened = false) (hn : s.st ≠ .ready) : Done s r :=
  ⟨hn, h, fun h => by rw [ho] at h; exact absurd h (by simp), fun _ h => by rw [ho] at h; exact absurd h (by simp)⟩

theorem Done.wait {s : S} {r : Option Bool} (h : Aux s) (hq : Quiet s) : Done s r := by
  have hT : ¬ Transient s.st := ?_
  · exact ⟨fun hx => hT (Or.inl hx), h, fun _ => hT, fun _ _ _ => hq⟩
  intro ht
  unfold Quiet Timed at hq
  unfold Transient at ht
  rcases ht with ht | ht | ht | ht <;> rw [ht] at hq <;> simp at hq

theorem Done.again {s : S} (h : Aux s) (hq : ¬ Transient s.st) : Done s (some true) :=
  ⟨fun hx => hq (Or.inl hx), h, fun _ => hq, fun h => absurd rfl h⟩

theorem andThen_done {r : R} {f : S → R} (h : ∀ b, r.2 = some b → Done r.1 (some b))
    (hf : ∀ s, r = (s, none) → Done (f s).1 (f s).2) : Done (andThen r f).1 (andThen r f).2 := by
  unfold andThen
  match r, h, hf with
  | (s, some b), h, _ => exact h b rfl
  | (s, none), _, hf => exact hf s rfl

/-- Result of a part of `ProcessSend`: the part may return with `Done`, or go on
with `Mid` and a fact about the state. -/
def Part (r : R) (Q : S → Prop) : Prop :=
  match r with
  | (s, some b) => Good s ∧ Done s (some b)
  | (s, none) => Mid s ∧ Q s

theorem part_then {r : R} {Q : S → Prop} {f : S → R} (h : Part r Q)
    (hf : ∀ s, Mid s → Q s → Good (f s).1 ∧ Done (f s).1 (f s).2) :
    Good (andThen r f).1 ∧ Done (andThen r f).1 (andThen r f).2 := by
  match r, h with
  | (s, some b), h => exact h
  | (s, none), h => exact hf s h.1 h.2

theorem Mid.of {s : S} (h : Mid s) {s' : S} (hg : Good s') (ha : Aux s') (ho : s'.opened = s.opened) : Mid s' :=
  ⟨hg, ha, by rw [ho]; exact h.opened⟩

theorem halted_aux {s : S} (h : Aux s) : Aux (change (quitInput s) .closed) := by
  refine Aux.chg ?_ (by unfold Timed; simp) (Or.inl rfl)
  unfold quitInput closeInput
  split
  · split
    · exact h.congr rfl rfl rfl rfl rfl
    · exact h.congr rfl rfl rfl rfl rfl
  · exact h

theorem before_part {c : Cfg} {a : Ans} {s : S} (h : Mid s) (hc : s.st ≠ .closed) (hn : s.st ≠ .ready) (hr : s.run = true) :
    Part (before c a s) (fun s' => s'.st ≠ .closed ∧ s'.st ≠ .reconnect ∧ (s'.run = true ∨ s'.st = .init) ∧ s'.st ≠ .ready) := by
  have hg := before_good (c := c) (a := a) h.good hn
  unfold before at hg ⊢
  rw [if_neg hc] at hg ⊢
  split
  · exact ⟨h.good.congr rfl rfl rfl rfl rfl rfl, Done.shut (h.aux.congr rfl rfl rfl rfl rfl) rfl hn⟩
  rename_i hp
  rw [if_neg hp] at hg
  split
  · rename_i hgone
    rw [if_pos hgone] at hg
    exact ⟨hg, Done.shut ((halted_aux h.aux).congr rfl rfl rfl rfl rfl) rfl (by show (change _ _).st ≠ _; rw [change_st]; simp)⟩
  rename_i hgone
  rw [if_neg hgone] at hg
  split
  · rename_i hst
    rw [if_pos hst] at hg
    split
    · exact ⟨h.good.congr rfl rfl rfl rfl rfl rfl, Done.shut (h.aux.congr rfl rfl rfl rfl rfl) rfl hn⟩
    rename_i hi
    rw [if_neg hi] at hg
    split
    · exact ⟨h.good.congr rfl rfl rfl rfl rfl rfl, Done.shut (h.aux.congr rfl rfl rfl rfl rfl) rfl hn⟩
    rename_i hcr
    rw [if_neg hcr] at hg
    split
    · refine ⟨h.good.congr rfl rfl rfl rfl rfl rfl, Done.wait ?_ ?_⟩
      · exact ⟨h.aux.running, h.aux.stopping, fun _ _ => rfl, h.aux.halted⟩
      · exact Or.inr (Or.inr (Or.inr (Or.inr ⟨Or.inr hst, rfl⟩)))
    · rename_i hm
      rw [if_neg hm] at hg
      refine ⟨h.of hg ?_ (by rw [change_opened]; rfl), ?_, ?_, ?_, ?_⟩
      · exact Aux.chg (h.aux.congr rfl rfl rfl rfl rfl) (by unfold Timed; simp) (Or.inl rfl)
      · rw [change_st]; simp
      · rw [change_st]; simp
      · rw [change_st]; simp
      · rw [change_st]; simp
  · rename_i hst
    exact ⟨h, hc, hst, Or.inl hr, hn⟩

theorem idle_part {s : S} (h : Mid s) (hc : s.st ≠ .closed ∧ s.st ≠ .reconnect ∧ (s.run = true ∨ s.st = .init) ∧ s.st ≠ .ready) :
    Part (idle s) (fun s' => s' = s ∧ s.inp = true ∧ s.st ≠ .closed ∧ s.st ≠ .reconnect ∧
      s.st ≠ .sizeCallBack ∧ s.st ≠ .initTimeout ∧ s.st ≠ .complitTimeout) := by
  unfold idle
  split
  · exact ⟨h.good.congr rfl rfl rfl rfl rfl rfl, Done.shut (h.aux.congr rfl rfl rfl rfl rfl) rfl hc.2.2.2⟩
  rename_i hi
  split
  · rename_i hst
    refine ⟨h.good, Done.wait h.aux ?_⟩
    have hrun : s.run = true := by
      rcases hc.2.2.1 with hr | hr
      · exact hr
      · rw [hr] at hst; simp at hst
    rcases hst with hst | hst | hst
    · exact Or.inl hst
    · exact Or.inr (Or.inr (Or.inr (Or.inl ⟨Or.inl hst, h.aux.timer hrun (Or.inl hst)⟩)))
    · exact Or.inr (Or.inr (Or.inr (Or.inl ⟨Or.inr hst, h.aux.timer hrun (Or.inr hst)⟩)))
  · rename_i hst
    refine ⟨h, rfl, by simpa using hi, hc.1, hc.2.1, ?_, ?_, ?_⟩
    · intro hx; exact hst (Or.inl hx)
    · intro hx; exact hst (Or.inr (Or.inl hx))
    · intro hx; exact hst (Or.inr (Or.inr hx))

theorem activate_aux {room : Bool} {s : S} (h : Aux s) : Aux (activate room s) := by
  unfold activate
  split
  · split <;> exact h.congr rfl rfl rfl rfl rfl
  · exact h

theorem activate_more (room : Bool) (s : S) :
    (activate room s).opened = s.opened ∧ (activate room s).run = s.run ∧
    (activate room s).tst = s.tst ∧ (activate room s).stopReq = s.stopReq ∧
    (activate room s).timer = s.timer := by
  unfold activate
  split
  · split <;> exact ⟨rfl, rfl, rfl, rfl, rfl⟩
  · exact ⟨rfl, rfl, rfl, rfl, rfl⟩

/-- States which may be seen after the size part. -/
def Later (st : St) : Prop :=
  st ≠ .closed ∧ st ≠ .reconnect ∧ st ≠ .sizeCallBack ∧ st ≠ .initTimeout ∧ st ≠ .complitTimeout ∧ st ≠ .init

theorem sizeStage_part {a : Ans} {s : S} (h : Mid s) (ha : Fits a) (hroom : a.room ≠ 0)
    (hc : s.st ≠ .closed ∧ s.st ≠ .reconnect ∧
      s.st ≠ .sizeCallBack ∧ s.st ≠ .initTimeout ∧ s.st ≠ .complitTimeout) :
    Part (sizeStage a s) (fun s' => Later s'.st) := by
  have hg := sizeStage_good h.good ha hroom
  unfold sizeStage at hg ⊢
  by_cases hst : s.st = .init
  · rw [if_pos hst] at hg ⊢
    by_cases ht : s.tst = .running
    · rw [if_neg (fun h => h ht), if_neg hroom] at hg ⊢
      have hstop : s.stopReq = false := by
        cases hs : s.stopReq with
        | false => rfl
        | true => exact absurd hst (h.aux.stopping hs).1
      have hrun : s.run = true := by
        cases hr : s.run with
        | true => rfl
        | false => exact absurd ht (h.aux.halted hr).1
      have haux : ∀ st', ∀ l n, ¬ Timed st' → Aux { s with st := st', log := l, next := n } := by
        intro st' l n hst'
        exact ⟨h.aux.running, fun hx => absurd hx (by rw [show ({ s with st := st', log := l, next := n } : S).stopReq = s.stopReq from rfl, hstop]; simp), fun _ hx => absurd hx hst', fun hx => absurd hrun (by rw [show s.run = false from hx]; simp)⟩
      cases hb : a.sizeBack with
      | none =>
        rw [hb] at hg
        unfold inner at hg ⊢
        unfold sizeRes at hg ⊢
        by_cases hcb : a.size = cCallBack
        · rw [if_pos hcb] at hg ⊢
          dsimp only at hg ⊢
          rw [if_neg (by rw [hcb]; decide), if_neg (by rw [hcb]; decide), if_pos hcb] at hg ⊢
          refine ⟨hg, Done.wait (haux _ _ _ (by unfold Timed; simp)) (Or.inl rfl)⟩
        · rw [if_neg hcb] at hg ⊢
          dsimp only at hg ⊢
          by_cases h1 : a.size = cRepeat
          · rw [if_pos h1] at hg ⊢
            refine ⟨hg, Done.again (haux _ _ _ (by unfold Timed; simp)) (by unfold Transient; simp [note])⟩
          rw [if_neg h1] at hg ⊢
          by_cases h2 : a.size = cRepeatTimeOut
          · rw [if_pos h2] at hg ⊢
            refine ⟨hg, Done.wait (Aux.timed (haux _ _ _ (by unfold Timed; simp)) rfl hrun) ?_⟩
            refine Or.inr (Or.inr (Or.inr (Or.inl ⟨Or.inl ?_, rfl⟩)))
            show (change _ _).st = _
            rw [change_st]
          rw [if_neg h2, if_neg hcb] at hg ⊢
          refine ⟨h.of hg (Aux.chg (haux _ _ _ (by unfold Timed; simp)) (by unfold Timed; simp) (by first | exact Or.inl rfl | exact Or.inr hrun)) (by rw [change_opened]; rfl), ?_⟩
          dsimp only; rw [change_st]; unfold Later; simp
      | some v =>
        have hcb := ha.size (by rw [hb]; simp)
        rw [hcb, hb] at hg
        rw [hcb]
        unfold inner at hg ⊢
        obtain ⟨k1, _, _, _, _, _⟩ := activate_frame true
          (backState v (note { s with st := .sizeCallBack, next := 0 } (.size cCallBack)))
        dsimp only at hg ⊢
        unfold sizeRes at hg ⊢
        rw [if_pos rfl] at hg ⊢
        dsimp only at hg ⊢
        rw [if_neg (by decide), if_neg (by decide), if_pos rfl] at hg ⊢
        have hst' : (activate true (backState v (note { s with st := .sizeCallBack, next := 0 } (.size cCallBack)))).st = .checkSize := k1
        rw [hst'] at hg ⊢
        refine ⟨hg, Done.again (activate_aux (haux _ _ _ (by unfold Timed; simp))) ?_⟩
        rw [hst']; unfold Transient; simp
    · rw [if_pos ht] at hg ⊢
      refine ⟨h.good, by rw [hst]; simp, h.aux, fun _ hx => ?_, fun _ _ hr => ?_⟩
      · unfold Transient at hx; rw [hst] at hx; simp at hx
      · rcases h.aux.running hr with hx | hx
        · exact absurd hx ht
        · exact absurd hst (h.aux.stopping hx).1
  · rw [if_neg hst] at hg ⊢
    exact ⟨h, hc.1, hc.2.1, hc.2.2.1, hc.2.2.2.1, hc.2.2.2.2, hst⟩

theorem Mid.chg {s : S} (h : Mid s) {st : St} (hg : Good (change s st)) (ht : ¬ Timed st)
    (hx : suitable st = true ∨ s.run = true) : Mid (change s st) :=
  h.of hg (h.aux.chg ht hx) (by rw [change_opened])

theorem sizeCheck_part {s : S} (h : Mid s) (hl : Later s.st) :
    Part (sizeCheck s) (fun s' => Later s'.st ∧ s'.st ≠ .checkSize) := by
  have hg := sizeCheck_good h.good
  unfold sizeCheck at hg ⊢
  by_cases hst : s.st = .checkSize
  · rw [if_pos hst] at hg ⊢
    have hrun : s.run = true := h.aux.run_of (by rw [hst]; rfl) (by rw [hst]; simp)
    split
    · rename_i h1
      rw [if_pos h1] at hg
      exact ⟨h.chg hg (by unfold Timed; simp) (by first | exact Or.inl rfl | exact Or.inr hrun), by dsimp only; rw [change_st]; unfold Later; simp⟩
    rename_i h1
    rw [if_neg h1] at hg
    split
    · rename_i h2
      rw [if_pos h2] at hg
      exact ⟨h.chg hg (by unfold Timed; simp) (by first | exact Or.inl rfl | exact Or.inr hrun), by dsimp only; rw [change_st]; unfold Later; simp⟩
    rename_i h2
    rw [if_neg h2] at hg
    split
    · rename_i h3
      rw [if_pos h3] at hg
      refine ⟨h.of hg ((h.aux.chg (st := .needBuffer) (by unfold Timed; simp) (Or.inr hrun)).congr rfl rfl rfl rfl rfl) (by show (change _ _).opened = _; rw [change_opened]), ?_⟩
      show Later (change _ _).st ∧ (change _ _).st ≠ _
      rw [change_st]; unfold Later; simp
    rename_i h3
    rw [if_neg h3] at hg
    split
    · rename_i h4
      rw [if_pos h4] at hg
      exact ⟨h.chg hg (by unfold Timed; simp) (by first | exact Or.inl rfl | exact Or.inr hrun), by dsimp only; rw [change_st]; unfold Later; simp⟩
    · rename_i h4
      rw [if_neg h4] at hg
      exact ⟨h.chg hg (by unfold Timed; simp) (by first | exact Or.inl rfl | exact Or.inr hrun), by dsimp only; rw [change_st]; unfold Later; simp⟩
  · rw [if_neg hst] at hg ⊢
    exact ⟨h, hl, hst⟩

theorem bufferStage_part {c : Cfg} {a : Ans} {s : S} (h : Mid s) (hl : Later s.st ∧ s.st ≠ .checkSize) :
    Part (bufferStage c a s) (fun s' => (Later s'.st ∧ s'.st ≠ .checkSize) ∧ s'.st ≠ .needBuffer) := by
  have hg := bufferStage_good (c := c) (a := a) h.good
  unfold bufferStage at hg ⊢
  by_cases hst : s.st = .needBuffer
  · rw [if_pos hst] at hg ⊢
    have hrun : s.run = true := h.aux.run_of (by rw [hst]; rfl) (by rw [hst]; simp)
    cases hb : a.buf with
    | some sz =>
      rw [hb] at hg
      dsimp only at hg ⊢
      refine ⟨h.of hg (Aux.chg (h.aux.congr rfl rfl rfl rfl rfl) (by unfold Timed; simp) (by first | exact Or.inl rfl | exact Or.inr hrun)) (by rw [change_opened]; rfl), ?_⟩
      dsimp only; rw [change_st]; unfold Later; simp
    | none =>
      rw [hb] at hg
      dsimp only at hg ⊢
      split
      · rename_i h1
        rw [if_pos h1] at hg
        refine ⟨hg, Done.wait (Aux.chg (h.aux.congr rfl rfl rfl rfl rfl) (by unfold Timed; simp) (Or.inr hrun)) ?_⟩
        exact Or.inr (Or.inr (Or.inl (change_st _ _)))
      · rename_i h1
        rw [if_neg h1] at hg
        refine ⟨hg, Done.wait ⟨h.aux.running, h.aux.stopping, fun _ _ => rfl, h.aux.halted⟩ ?_⟩
        exact Or.inr (Or.inr (Or.inr (Or.inr ⟨Or.inl hst, rfl⟩)))
  · rw [if_neg hst] at hg ⊢
    exact ⟨h, hl, hst⟩

theorem bufferCheck_part {s : S} (h : Mid s) (hl : (Later s.st ∧ s.st ≠ .checkSize) ∧ s.st ≠ .needBuffer) :
    Part (bufferCheck s) (fun s' => ((Later s'.st ∧ s'.st ≠ .checkSize) ∧ s'.st ≠ .needBuffer) ∧ s'.st ≠ .checkBuffer) := by
  have hg := bufferCheck_good h.good
  unfold bufferCheck at hg ⊢
  by_cases hst : s.st = .checkBuffer
  · rw [if_pos hst] at hg ⊢
    have hrun : s.run = true := h.aux.run_of (by rw [hst]; rfl) (by rw [hst]; simp)
    split
    · rename_i h1
      rw [if_pos h1] at hg
      exact ⟨h.chg hg (by unfold Timed; simp) (by first | exact Or.inl rfl | exact Or.inr hrun), by dsimp only; rw [change_st]; unfold Later; simp⟩
    rename_i h1
    rw [if_neg h1] at hg
    split
    · rename_i h2
      rw [if_pos h2] at hg
      refine ⟨h.of hg (Aux.chg (h.aux.congr rfl rfl rfl rfl rfl) (by unfold Timed; simp) (by first | exact Or.inl rfl | exact Or.inr hrun)) (by rw [change_opened]; rfl), ?_⟩
      dsimp only; rw [change_st]; unfold Later; simp
    · rename_i h2
      rw [if_neg h2] at hg
      exact ⟨h.chg hg (by unfold Timed; simp) (by first | exact Or.inl rfl | exact Or.inr hrun), by dsimp only; rw [change_st]; unfold Later; simp⟩
  · rw [if_neg hst] at hg ⊢
    exact ⟨h, hl, hst⟩

/-- States which may be seen after `Read_Start`. -/
def Late (st : St) : Prop := st = .waitBuffer ∨ st = .callBack ∨ st = .completing ∨ st = .error ∨ st = .ready ∨ st = .fin

theorem startStage_part {a : Ans} {s : S} (h : Mid s) (ha : Fits a)
    (hl : ((Later s.st ∧ s.st ≠ .checkSize) ∧ s.st ≠ .needBuffer) ∧ s.st ≠ .checkBuffer) :
    Part (startStage a s) (fun s' => Late s'.st) := by
  have hg := startStage_good h.good ha
  unfold startStage at hg ⊢
  by_cases hst : s.st = .hasBuffer
  · rw [if_pos hst] at hg ⊢
    have hrun : s.run = true := h.aux.run_of (by rw [hst]; rfl) (by rw [hst]; simp)
    have haux : ∀ st', ∀ l, ¬ Timed st' → st' ≠ .init → Aux { s with st := st', log := l } :=
      fun st' l h1 h2 => ⟨h.aux.running, fun hx => ⟨h2, (h.aux.stopping hx).2⟩, fun _ hx => absurd hx h1,
        fun hx => absurd hrun (by rw [show s.run = false from hx]; simp)⟩
    cases hb : a.startBack with
    | none =>
      rw [hb] at hg
      unfold inner at hg ⊢
      unfold startRes at hg ⊢
      dsimp only at hg ⊢
      split
      · rename_i h1
        rw [if_pos h1] at hg
        refine ⟨h.of hg (Aux.chg (haux _ _ (by unfold Timed; simp) (by simp)) (by unfold Timed; simp) (by first | exact Or.inl rfl | exact Or.inr hrun)) (by rw [change_opened]; rfl), ?_⟩
        dsimp only; rw [change_st]; unfold Late; simp
      rename_i h1
      rw [if_neg h1] at hg
      split
      · rename_i h2
        rcases h2 with h2 | h2
        · exact absurd h2 ha.need
        · exact absurd h2 ha.enough
      rename_i h2
      rw [if_neg h2] at hg
      split
      · rename_i h3
        rw [if_pos h3] at hg
        exact ⟨hg, Done.wait (haux _ _ (by unfold Timed; simp) (by simp)) (Or.inr (Or.inl rfl))⟩
      · rename_i h3
        rw [if_neg h3] at hg
        refine ⟨h.of hg (Aux.chg (haux _ _ (by unfold Timed; simp) (by simp)) (by unfold Timed; simp) (by first | exact Or.inl rfl | exact Or.inr hrun)) (by rw [change_opened]; rfl), ?_⟩
        dsimp only; rw [change_st]; unfold Late; simp
    | some v =>
      have hcb := ha.start (by rw [hb]; simp)
      rw [hcb, hb] at hg
      rw [hcb]
      unfold inner at hg ⊢
      obtain ⟨k1, _⟩ := activate_frame true
        (backState v (note { s with st := .callBack } (.start (curId s) (curSize s) cCallBack)))
      dsimp only at hg ⊢
      unfold startRes at hg ⊢
      rw [if_neg (by decide), if_neg (by decide), if_pos rfl] at hg ⊢
      have hst' : (activate true (backState v (note { s with st := .callBack } (.start (curId s) (curSize s) cCallBack)))).st = .completing := k1
      rw [hst'] at hg ⊢
      refine ⟨hg, Done.again (activate_aux (haux _ _ (by unfold Timed; simp) (by simp))) ?_⟩
      rw [hst']; unfold Transient; simp
  · rw [if_neg hst] at hg ⊢
    refine ⟨h, ?_⟩
    obtain ⟨⟨⟨⟨l1, l2, l3, l4, l5, l6⟩, l7⟩, l8⟩, l9⟩ := hl
    unfold Late
    revert l1 l2 l3 l4 l5 l6 l7 l8 l9 hst
    cases s.st <;> simp

theorem waitStage_part {s : S} (h : Mid s) (hl : Late s.st) :
    Part (waitStage s) (fun s' => Late s'.st ∧ s'.st ≠ .callBack) := by
  unfold waitStage
  by_cases hst : s.st = .callBack
  · rw [if_pos hst]
    exact ⟨h.good, Done.wait h.aux (Or.inr (Or.inl hst))⟩
  · rw [if_neg hst]
    exact ⟨h, hl, hst⟩

/-- States which may be seen after `Read_Complete`. -/
def Last (st : St) : Prop := st = .waitBuffer ∨ st = .init ∨ st = .error ∨ st = .ready ∨ st = .fin

theorem complStage_part {a : Ans} {s : S} (h : Mid s) (ha : Fits a) (hl : Late s.st ∧ s.st ≠ .callBack) :
    Part (complStage a s) (fun s' => Last s'.st) := by
  have hg := complStage_good h.good ha
  unfold complStage at hg ⊢
  by_cases hst : s.st = .completing
  · rw [if_pos hst] at hg ⊢
    have hrun : s.run = true := h.aux.run_of (by rw [hst]; rfl) (by rw [hst]; simp)
    obtain ⟨b, sz, hcur⟩ : ∃ b sz, s.cur = some (b, sz) := by
      obtain ⟨_, p, _, hrel⟩ := h.good
      unfold Rel at hrel
      rw [hst] at hrel
      obtain ⟨_, b, sz, hcur, _⟩ := hrel
      exact ⟨b, sz, hcur⟩
    rw [hcur] at hg ⊢
    dsimp only at hg ⊢
    have haux : ∀ l cu, Aux { s with log := l, cur := cu } := fun l cu => h.aux.congr rfl rfl rfl rfl rfl
    unfold complRes at hg ⊢
    split
    · rename_i h1
      rw [if_pos h1] at hg
      refine ⟨h.of hg (Aux.chg (haux _ _) (by unfold Timed; simp) (by first | exact Or.inl rfl | exact Or.inr hrun)) (by rw [change_opened]; rfl), ?_⟩
      dsimp only; rw [change_st]; unfold Last; simp
    rename_i h1
    rw [if_neg h1] at hg
    split
    · rename_i h2; exact absurd h2 ha.more
    rename_i h2
    rw [if_neg h2] at hg
    split
    · rename_i h3
      rw [if_pos h3] at hg
      refine ⟨h.of hg (Aux.chg (haux _ _) (by unfold Timed; simp) (by first | exact Or.inl rfl | exact Or.inr hrun)) (by rw [change_opened]; rfl), ?_⟩
      dsimp only; rw [change_st]; unfold Last; simp
    rename_i h3
    rw [if_neg h3] at hg
    split
    · rename_i h4
      rw [if_pos h4] at hg
      refine ⟨h.of hg (Aux.chg (haux _ _) (by unfold Timed; simp) (by first | exact Or.inl rfl | exact Or.inr hrun)) (by rw [change_opened]; rfl), ?_⟩
      dsimp only; rw [change_st]; unfold Last; simp
    rename_i h4
    rw [if_neg h4] at hg
    split
    · rename_i h5
      rw [if_pos h5] at hg
      refine ⟨hg, Done.again (haux _ _) ?_⟩
      show ¬ Transient s.st
      rw [hst]; unfold Transient; simp
    rename_i h5
    rw [if_neg h5] at hg
    split
    · rename_i h6
      rw [if_pos h6] at hg
      refine ⟨hg, Done.wait (Aux.timed (haux _ _) rfl hrun) ?_⟩
      refine Or.inr (Or.inr (Or.inr (Or.inl ⟨Or.inr ?_, rfl⟩)))
      show (change _ _).st = _
      rw [change_st]
    · rename_i h6
      rw [if_neg h6] at hg
      refine ⟨h.of hg (Aux.chg (haux _ _) (by unfold Timed; simp) (by first | exact Or.inl rfl | exact Or.inr hrun)) (by rw [change_opened]; rfl), ?_⟩
      dsimp only; rw [change_st]; unfold Last; simp
  · rw [if_neg hst] at hg ⊢
    refine ⟨h, ?_⟩
    obtain ⟨l1, l2⟩ := hl
    unfold Late at l1
    unfold Last
    revert l1 l2 hst
    cases s.st <;> simp

theorem sendCur_frame (s : S) : (sendCur s).st = s.st ∧ (sendCur s).run = s.run ∧ (sendCur s).tst = s.tst ∧
    (sendCur s).stopReq = s.stopReq ∧ (sendCur s).timer = s.timer ∧ (sendCur s).opened = s.opened := by
  unfold sendCur
  split <;> exact ⟨rfl, rfl, rfl, rfl, rfl, rfl⟩

theorem readyStage_part {a : Ans} {s : S} (h : Mid s) (hroom : a.room ≠ 0) (hl : Last s.st) :
    Part (readyStage a s) (fun s' => Last s'.st ∧ s'.st ≠ .ready) := by
  have hg := readyStage_good h.good hroom
  unfold readyStage at hg ⊢
  by_cases hst : s.st = .ready
  · rw [if_pos hst, if_neg hroom] at hg ⊢
    obtain ⟨k1, k2, k3, k4, k5, k6⟩ := sendCur_frame s
    refine ⟨h.of hg (Aux.chg (h.aux.congr k1 k2 k3 k4 k5) (by unfold Timed; simp) (by first | exact Or.inl rfl | exact Or.inr hrun)) (by rw [change_opened]; exact k6), ?_⟩
    dsimp only; rw [change_st]; unfold Last; simp
  · rw [if_neg hst] at hg ⊢
    exact ⟨h, hl, hst⟩

theorem closeInput_frame (s : S) : (closeInput s).st = s.st ∧ (closeInput s).run = s.run ∧ (closeInput s).tst = s.tst ∧
    (closeInput s).stopReq = s.stopReq ∧ (closeInput s).timer = s.timer ∧ (closeInput s).opened = s.opened := by
  unfold closeInput
  split <;> exact ⟨rfl, rfl, rfl, rfl, rfl, rfl⟩

theorem endStage_part {a : Ans} {s : S} (h : Mid s) (hroom : a.room ≠ 0) (hl : Last s.st ∧ s.st ≠ .ready) :
    Part (endStage a s) (fun s' => s'.st = .closed ∨ s'.st = .waitBuffer ∨ s'.st = .init) := by
  have hg := endStage_good h.good hroom
  unfold endStage at hg ⊢
  by_cases hst : s.st = .error ∨ s.st = .fin
  · rw [if_pos hst] at hg ⊢
    dsimp only at hg ⊢
    rw [if_neg hroom] at hg ⊢
    obtain ⟨k1, k2, k3, k4, k5, k6⟩ := closeInput_frame s
    refine ⟨h.of hg (Aux.chg (h.aux.congr k1 k2 k3 k4 k5) (by unfold Timed; simp) (by first | exact Or.inl rfl | exact Or.inr hrun)) (by rw [change_opened]; exact k6), ?_⟩
    dsimp only; rw [change_st]; exact Or.inl rfl
  · rw [if_neg hst] at hg ⊢
    refine ⟨h, ?_⟩
    obtain ⟨l1, l2⟩ := hl
    unfold Last at l1
    revert l1 l2 hst
    cases s.st <;> simp

theorem lastStage_done {s : S} (h : Mid s) (hl : s.st = .closed ∨ s.st = .waitBuffer ∨ s.st = .init) :
    Good (lastStage s).1 ∧ Done (lastStage s).1 (lastStage s).2 := by
  refine ⟨lastStage_good h.good, ?_⟩
  unfold lastStage
  by_cases hst : s.st = .closed
  · rw [if_pos hst]
    exact Done.shut (h.aux.congr rfl rfl rfl rfl rfl) rfl (by show s.st ≠ _; rw [hst]; simp)
  · rw [if_neg hst]
    refine Done.again h.aux ?_
    unfold Transient
    rcases hl with hl | hl | hl
    · exact absurd hl hst
    · rw [hl]; simp
    · rw [hl]; simp

theorem processSend_done {c : Cfg} {a : Ans} {s : S} (h : Mid s) (hc : s.st ≠ .closed) (hn : s.st ≠ .ready) (hr : s.run = true)
    (ha : Fits a) (hroom : a.room ≠ 0) :
    Good (processSend c a s).1 ∧ Done (processSend c a s).1 (processSend c a s).2 := by
  unfold processSend
  refine part_then (before_part h hc hn hr) fun s h hq => ?_
  refine part_then (idle_part h hq) fun s' h hq => ?_
  obtain ⟨rfl, _, hq⟩ := hq
  refine part_then (sizeStage_part h ha hroom hq) fun s h hq => ?_
  refine part_then (sizeCheck_part h hq) fun s h hq => ?_
  refine part_then (bufferStage_part h hq) fun s h hq => ?_
  refine part_then (bufferCheck_part h hq) fun s h hq => ?_
  refine part_then (startStage_part h ha hq) fun s h hq => ?_
  refine part_then (waitStage_part h hq) fun s h hq => ?_
  refine part_then (complStage_part h ha hq) fun s h hq => ?_
  refine part_then (readyStage_part h hroom hq) fun s h hq => ?_
  refine part_then (endStage_part h hroom hq) fun s h hq => ?_
  exact lastStage_done h hq

/-! ## Operations -/

/-- What holds between operations while the process lives. -/
structure Base (s : S) : Prop where
  good : Good s
  sent : s.st ≠ .ready
  aux : s.opened = true → Aux s
  rest : s.opened = true → ¬ Transient s.st
  wake : s.opened = true → s.run = true → Quiet s ∨ s.pend = true ∨ s.full = true

theorem Base.closed {s : S} (h : Good s) (ho : s.opened = false) (hn : s.st ≠ .ready) : Base s :=
  ⟨h, hn, fun h => by rw [ho] at h; exact absurd h (by simp), fun h => by rw [ho] at h; exact absurd h (by simp),
    fun h => by rw [ho] at h; exact absurd h (by simp)⟩

theorem output_base {c : Cfg} : ∀ {as : List Ans} {cnt : Nat} {s : S}, Good s → s.st ≠ .ready → Aux s →
    (s.opened = true → ¬ Transient s.st) → (∀ a ∈ as, Fits a) → Base (output c cnt as s) := by
  intro as
  induction as with
  | nil =>
    intro cnt s hg hn haux hr _
    unfold output
    split
    · exact ⟨hg.congr rfl rfl rfl rfl rfl rfl, hn, fun _ => haux.congr rfl rfl rfl rfl rfl, hr, fun _ _ => Or.inr (Or.inr rfl)⟩
    · rename_i hrun
      exact ⟨hg, hn, fun _ => haux, hr, fun _ h => absurd h hrun⟩
  | cons a as ih =>
    intro cnt s hg hn haux hr ha
    unfold output
    rw [if_neg (by rw [hg.1]; simp)]
    split
    · rename_i hro
      rw [Bool.and_eq_true] at hro
      obtain ⟨hrun, hop⟩ := hro
      split
      · exact ⟨hg.congr rfl rfl rfl rfl rfl rfl, hn, fun _ => haux.congr rfl rfl rfl rfl rfl, hr, fun _ _ => Or.inr (Or.inr rfl)⟩
      · rename_i hroom
        have hc : s.st ≠ .closed := fun h => hr hop (Or.inr (Or.inr (Or.inr h)))
        have h1 := processSend_done (c := c) ⟨hg, haux, hop⟩ hc hn hrun (ha a (by simp)) hroom
        obtain ⟨⟨s', r⟩, heq⟩ : ∃ k, processSend c a s = k := ⟨_, rfl⟩
        rw [heq] at h1 ⊢
        obtain ⟨h1, h0, h2, h3, h4⟩ := h1
        match r, cnt with
        | some true, 0 =>
          exact ⟨h1.congr rfl rfl rfl rfl rfl rfl, h0, fun _ => h2.congr rfl rfl rfl rfl rfl, h3, fun _ _ => Or.inr (Or.inl rfl)⟩
        | some true, n + 1 => exact ih h1 h0 h2 h3 fun x hx => ha x (by simp [hx])
        | some false, _ => exact ⟨h1, h0, fun _ => h2, h3, fun ho hrun => Or.inl (h4 (by simp) ho hrun)⟩
        | none, _ => exact ⟨h1, h0, fun _ => h2, h3, fun ho hrun => Or.inl (h4 (by simp) ho hrun)⟩
    · rename_i hro
      refine ⟨hg, hn, fun _ => haux, hr, fun ho hrun => ?_⟩
      rw [ho, hrun] at hro
      simp at hro

theorem back_cases {s : S} {v : Nat} (h : Good s) (hi : s.inp = true) (hr : ¬ Transient s.st) :
    ((backState v s).dead = true ∧ run (backState v s).log = some .exit ∧
      ∃ l w, (backState v s).log = l ++ [.back w] ∧ run l = some .idle) ∨
    (Good (backState v s) ∧ ((backState v s).st = .checkSize ∨ (backState v s).st = .completing ∨
      (backState v s).st = .error)) := by
  obtain ⟨hd, p, hrun, hrel⟩ := h
  unfold Rel at hrel
  have key : ∀ q : P, backNext p v = some q → run (s.log ++ [Ev.back v]) = some q :=
    fun q hq => run_note hrun hq
  unfold backState
  dsimp only [note]
  split
  · rename_i hst
    rw [hst] at hrel
    obtain ⟨_, rfl⟩ := hrel
    exact Or.inl ⟨rfl, key _ rfl, s.log, v, rfl, hrun⟩
  · rename_i hst
    rw [hst] at hrel
    obtain ⟨_, rfl⟩ := hrel
    exact Or.inr ⟨⟨hd, _, key _ rfl, ⟨hi, rfl⟩⟩, Or.inl rfl⟩
  · rename_i hst
    rw [hst] at hrel
    obtain ⟨_, b, sz, hc, rfl⟩ := hrel
    exact Or.inr ⟨⟨hd, _, key _ rfl, ⟨hi, b, sz, hc, rfl⟩⟩, Or.inr (Or.inl rfl)⟩
  · rename_i h1 h2 h3
    refine Or.inr ⟨⟨hd, .finished, key _ ?_, ⟨hi, rfl⟩⟩, Or.inr (Or.inr rfl)⟩
    split at hrel
    case h_4 =>
      rw [hrel.2]; unfold announced
      split
      · rfl
      · split <;> rfl
    case h_7 =>
      obtain ⟨_, b, sz, _, hp⟩ := hrel
      rw [hp]; split <;> rfl
    case h_12 hx => exact absurd (Or.inl hx) hr
    all_goals first
      | contradiction
      | (obtain ⟨_, rfl⟩ := hrel; rfl)
      | (obtain ⟨_, b, sz, _, rfl⟩ := hrel; rfl)
      | (exfalso; rw [hi] at hrel; exact absurd hrel.1 (by simp))

/-- The invariant: as above, or the process was ended by a call-back out of
turn. -/
def Inv (s : S) : Prop :=
  (s.dead = false ∧ Base s) ∨
  (s.dead = true ∧ run s.log = some .exit ∧ ∃ l v, s.log = l ++ [.back v] ∧ run l = some .idle)

theorem backState_frame (v : Nat) (s : S) : (backState v s).run = s.run ∧ (backState v s).tst = s.tst ∧
    (backState v s).stopReq = s.stopReq ∧ (backState v s).timer = s.timer ∧ (backState v s).opened = s.opened := by
  unfold backState
  dsimp only [note]
  split <;> exact ⟨rfl, rfl, rfl, rfl, rfl⟩

theorem back_aux {s : S} {v : Nat} (h : Aux s)
    (hst : (backState v s).st = .checkSize ∨ (backState v s).st = .completing ∨ (backState v s).st = .error) :
    Aux (backState v s) ∧ ¬ Transient (backState v s).st := by
  obtain ⟨k1, k2, k3, k4, k5⟩ := backState_frame v s
  refine ⟨⟨?_, ?_, ?_, ?_⟩, ?_⟩
  · rw [k1, k2, k3]; exact h.running
  · intro hs
    refine ⟨fun hx => by rw [hx] at hst; simp at hst, ?_⟩
    rw [k2]; rw [k3] at hs; exact (h.stopping hs).2
  · intro _ hx; unfold Timed at hx
    rcases hst with hst | hst | hst <;> (rw [hst] at hx; simp at hx)
  · rw [k1, k2]
    intro hr
    refine ⟨(h.halted hr).1, Or.inl ?_⟩
    have h2 := (h.halted hr).2
    unfold backState at hst ⊢
    dsimp only [note] at hst ⊢
    split
    · rename_i hx; simp [hx] at hst
    · rename_i hx; rw [hx] at h2; simp [suitable] at h2
    · rename_i hx; rw [hx] at h2; simp [suitable] at h2
    · rfl
  · unfold Transient
    rcases hst with hst | hst | hst <;> (rw [hst]; simp)

theorem timer_good {s : S} (hg : Good s) (haux : Aux s) (hr : ¬ Transient s.st) (hrun' : s.run = true) :
    Good (wake (note { s with timer := false } .timer)) ∧
    Aux (wake (note { s with timer := false } .timer)) ∧
    ¬ Transient (wake (note { s with timer := false } .timer)).st := by
  obtain ⟨hd, p, hrun, hrel⟩ := hg
  have key : ∀ q : P, timerNext p = some q → run (s.log ++ [Ev.timer]) = some q :=
    fun q hq => run_note hrun hq
  by_cases h1 : s.st = .initTimeout
  · unfold Rel at hrel
    rw [h1] at hrel
    obtain ⟨hi, rfl⟩ := hrel
    have hw : wake (note { s with timer := false } .timer) = change (note { s with timer := false } .timer) .init := by
      unfold wake
      rw [if_pos (show (note { s with timer := false } .timer).st = .initTimeout from h1)]
      dsimp only
      rw [if_neg (by rw [change_st]; simp)]
    rw [hw]
    refine ⟨Good.chg hd (key _ rfl) ⟨hi, rfl⟩, ?_, ?_⟩
    · unfold change halt
      split
      · rename_i hs
        rw [Bool.and_eq_true] at hs
        have htst : s.tst ≠ .running := by rw [(haux.stopping hs.1).2]; simp
        rw [if_pos (by exact hrun')]
        exact ⟨fun h => by simp at h, fun h => by simp at h, fun h => by simp at h, fun _ => ⟨htst, Or.inl rfl⟩⟩
      · rename_i hx
        refine ⟨haux.running, fun hs => ?_, fun _ hx => by unfold Timed at hx; simp at hx, fun hx => absurd hrun' (by rw [show s.run = false from hx]; simp)⟩
        exfalso; apply hx
        rw [show (note { s with timer := false } .timer).stopReq = true from hs]; rfl
    · rw [change_st]; unfold Transient; simp
  by_cases h2 : s.st = .complitTimeout
  · unfold Rel at hrel
    rw [h2] at hrel
    obtain ⟨hi, b, sz, hcur, rfl⟩ := hrel
    have hw : wake (note { s with timer := false } .timer) = change (note { s with timer := false } .timer) .completing := by
      unfold wake
      rw [if_neg (show (note { s with timer := false } .timer).st ≠ .initTimeout from h1)]
      rw [if_pos (show (note { s with timer := false } .timer).st = .complitTimeout from h2)]
    rw [hw]
    refine ⟨Good.chg hd (key _ rfl) ⟨hi, b, sz, hcur, rfl⟩, ?_, ?_⟩
    · have : change (note { s with timer := false } .timer) .completing = { s with timer := false, log := s.log ++ [.timer], st := .completing } := by
        unfold change
        rw [if_neg (by simp [suitable])]
        rfl
      rw [this]
      exact ⟨haux.running, fun hs => ⟨by simp, (haux.stopping hs).2⟩, fun _ hx => by unfold Timed at hx; simp at hx, fun hx => absurd hrun' (by rw [show s.run = false from hx]; simp)⟩
    · rw [change_st]; unfold Transient; simp
  · have hw : wake (note { s with timer := false } .timer) = note { s with timer := false } .timer := by
      unfold wake
      rw [if_neg (show (note { s with timer := false } .timer).st ≠ .initTimeout from h1)]
      rw [if_neg (show (note { s with timer := false } .timer).st ≠ .complitTimeout from h2)]
    rw [hw]
    refine ⟨⟨hd, p, key p ?_, hrel⟩, ?_, hr⟩
    · unfold Rel at hrel
      split at hrel
      case h_4 =>
        rw [hrel.2]; unfold announced
        split
        · rfl
        · split <;> rfl
      case h_7 =>
        obtain ⟨_, b, sz, _, hp⟩ := hrel
        rw [hp]; split <;> rfl
      case h_16 hx => exact absurd (Or.inr (Or.inr (Or.inr hx))) hr
      all_goals first
        | contradiction
        | (obtain ⟨_, rfl⟩ := hrel; rfl)
        | (obtain ⟨_, b, sz, _, rfl⟩ := hrel; rfl)
    · refine ⟨haux.running, haux.stopping, fun _ hx => ?_, haux.halted⟩
      rcases hx with hx | hx
      · exact absurd hx h1
      · exact absurd hx h2

theorem quit_frame (s : S) : (quitInput s).st = s.st ∧ (quitInput s).run = s.run ∧ (quitInput s).tst = s.tst ∧
    (quitInput s).stopReq = s.stopReq ∧ (quitInput s).timer = s.timer ∧ (quitInput s).opened = s.opened := by
  unfold quitInput
  split
  · obtain ⟨k1, k2, k3, k4, k5, k6⟩ := closeInput_frame (note s .quit)
    exact ⟨k1, k2, k3, k4, k5, k6⟩
  · exact ⟨rfl, rfl, rfl, rfl, rfl, rfl⟩

theorem close_base {c : Cfg} {s : S} (h : Base s) (ho : s.opened = true) : Base (closeCmd c s) := by
  have hc : s.st ≠ .closed := fun hx => h.rest ho (Or.inr (Or.inr (Or.inr hx)))
  obtain ⟨k1, k2, k3⟩ := quit_good h.good hc h.sent
  unfold closeCmd
  rw [if_pos hc]
  dsimp only
  have hg := good_closed k1 k2 k3
  have ha := halted_aux (h.aux ho)
  split
  · exact Base.closed (hg.congr rfl rfl rfl rfl rfl rfl) rfl (by show (change _ _).st ≠ _; rw [change_st]; simp)
  · have hsuit : change (change (quitInput s) .closed) .reconnect = { change (quitInput s) .closed with st := .reconnect } := by
      conv => lhs; unfold change
      rw [if_neg (by simp [suitable])]
      rfl
    rw [hsuit]
    refine ⟨⟨?_, .gone, ?_, ?_⟩, by simp, fun _ => ⟨ha.running, fun hs => ⟨by simp, (ha.stopping hs).2⟩, fun _ _ => rfl, fun hx => ⟨(ha.halted hx).1, Or.inr rfl⟩⟩, fun _ => by unfold Transient; simp, fun _ _ => ?_⟩
    · show (change _ _).dead = _
      rw [change_dead]; exact k1
    · show run (change _ _).log = _
      rw [change_log]; exact k3
    · exact ⟨by show (change _ _).inp = _; rw [change_inp]; exact k2, rfl⟩
    · exact Or.inl (Or.inr (Or.inr (Or.inr (Or.inr ⟨Or.inr rfl, rfl⟩))))

theorem start_base {s : S} (h : Base s) (ho : s.opened = true) : Base (startOp s) := by
  unfold startOp
  split
  · split
    · exact Base.closed (h.good.congr rfl rfl rfl rfl rfl rfl) rfl h.sent
    · refine ⟨h.good.congr rfl rfl rfl rfl rfl rfl, h.sent, fun _ => ⟨fun _ => Or.inl rfl, fun hx => by simp at hx, fun _ hx => ?_, fun hx => by simp at hx⟩, fun _ => h.rest ho, fun _ _ => Or.inr (Or.inl rfl)⟩
      refine (h.aux ho).timer ((h.aux ho).run_of ?_ ?_) hx
      · rcases hx with hx | hx <;> (rw [show s.st = _ from hx]; rfl)
      · rcases hx with hx | hx <;> (rw [show s.st = _ from hx]; simp)
  · exact h

theorem stop_base {s : S} (h : Base s) (ho : s.opened = true) : Base (stopOp s) := by
  unfold stopOp
  split
  · split
    · rename_i hsu
      unfold halt
      split
      · refine ⟨h.good.congr rfl rfl rfl rfl rfl rfl, h.sent, fun _ => ⟨fun hx => by simp at hx, fun hx => by simp at hx, fun hx => by simp at hx, fun _ => ⟨by simp, Or.inl hsu⟩⟩, fun _ => h.rest ho, fun _ hx => by simp at hx⟩
      · rename_i hx
        refine ⟨h.good.congr rfl rfl rfl rfl rfl rfl, h.sent, fun _ => ⟨fun hy => absurd hy hx, fun hx => by simp at hx, fun hy => absurd hy hx, fun _ => ⟨by simp, Or.inl hsu⟩⟩, fun _ => h.rest ho, fun _ hy => absurd hy hx⟩
    · rename_i hs
      refine ⟨h.good.congr rfl rfl rfl rfl rfl rfl, h.sent, fun _ => ⟨fun _ => Or.inr rfl, fun _ => ⟨fun hx => ?_, rfl⟩, (h.aux ho).timer, fun hx => ⟨by simp, ((h.aux ho).halted hx).2⟩⟩, fun _ => h.rest ho, fun _ hy => ?_⟩
      · rw [show s.st = .init from hx] at hs; exact hs rfl
      · exact h.wake ho hy
  · exact h

theorem cleanup_inv {s : S} (h : Base s) : Base (cleanupOp s) := by
  unfold cleanupOp
  split
  · rename_i hc
    obtain ⟨k1, k2, k3⟩ := quit_good h.good hc h.sent
    exact Base.closed ⟨k1, .gone, k3, ⟨k2, Or.inl rfl⟩⟩ rfl (by simp)
  · rename_i hc
    refine Base.closed ⟨h.good.1, ?_⟩ rfl h.sent
    obtain ⟨_, p, hr, hrel⟩ := h.good
    have hst : s.st = .closed := by simpa using hc
    refine ⟨p, hr, ?_⟩
    unfold Rel at hrel ⊢
    dsimp only
    rw [hst] at hrel ⊢
    exact hrel

theorem step_inv {c : Cfg} {s : S} {o : Op} (h : Inv s) (ha : ∀ a ∈ answers o, Fits a) : Inv (step c s o) := by
  rcases h with ⟨hd, h⟩ | ⟨hd, h⟩
  rotate_left
  · unfold step; rw [if_pos hd]; exact Or.inr ⟨hd, h⟩
  have key : ∀ s', Base s' → Inv s' := fun s' hb => Or.inl ⟨hb.good.1, hb⟩
  unfold step
  rw [if_neg (by rw [hd]; simp)]
  cases o with
  | cleanup => exact key _ (cleanup_inv h)
  | output as =>
    dsimp only
    split
    · exact key _ h
    rename_i ho
    have ho : s.opened = true := by simpa using ho
    exact key _ (output_base (h.good.congr rfl rfl rfl rfl rfl rfl) h.sent ((h.aux ho).congr rfl rfl rfl rfl rfl) h.rest ha)
  | space =>
    dsimp only
    split
    · exact key _ h
    · exact key _ ⟨h.good.congr rfl rfl rfl rfl rfl rfl, h.sent, fun hx => (h.aux hx).congr rfl rfl rfl rfl rfl, h.rest, fun _ _ => Or.inr (Or.inl rfl)⟩
  | pool sz as =>
    dsimp only
    split
    · exact key _ h
    rename_i ho
    have ho : s.opened = true := by simpa using ho
    split
    · rename_i hx
      rw [Bool.and_eq_true, decide_eq_true_eq] at hx
      obtain ⟨_, p, hr, hrel⟩ := h.good
      unfold Rel at hrel
      rw [hx.2] at hrel
      obtain ⟨hi, rfl⟩ := hrel
      refine key _ (output_base (take_good hd hi hr) (by rw [change_st]; simp) (Aux.chg ((h.aux ho).congr rfl rfl rfl rfl rfl) (by unfold Timed; simp) (Or.inr hx.1)) (fun _ => ?_) ha)
      rw [change_st]; unfold Transient; simp
    · exact key _ h
  | timer as =>
    dsimp only
    split
    · exact key _ h
    rename_i ho
    have ho : s.opened = true := by simpa using ho
    split
    · split
      · rename_i hx
        obtain ⟨h1, h2, h3⟩ := timer_good h.good (h.aux ho) (h.rest ho) hx
        exact key _ (output_base h1 (fun hx => h3 (Or.inl hx)) h2 (fun _ => h3) ha)
      · rename_i hx
        have hx : s.run = false := by simpa using hx
        obtain ⟨a1, a2, a3, a4⟩ := h.aux ho
        refine key _ ⟨h.good.congr rfl rfl rfl rfl rfl rfl, h.sent, fun _ => ⟨a1, a2, ?_, a4⟩, h.rest, fun _ hrun => ?_⟩
        · intro hrun; exact absurd (hx.symm.trans hrun) (by simp)
        · exact absurd (hx.symm.trans hrun) (by simp)
    · exact key _ h
  | back v room as =>
    dsimp only
    split
    · exact key _ h
    rename_i ho
    have ho : s.opened = true := by simpa using ho
    split
    · exact key _ h
    rename_i hi
    have hi : s.inp = true := by simpa using hi
    rcases back_cases (v := v) h.good hi (h.rest ho) with hb | ⟨hb, hst⟩
    · rw [if_pos hb.1, if_pos hb.1]
      split <;> exact Or.inr hb
    · obtain ⟨h1, h2⟩ := back_aux (h.aux ho) hst
      have hdd : ¬ (backState v s).dead = true := by rw [hb.1]; simp
      split
      · exact key _ (output_base hb (fun hx => h2 (Or.inl hx)) h1 (fun _ => h2) ha)
      · obtain ⟨k1, k2, k3, k4, k5, k6⟩ := activate_frame room (backState v s)
        refine key _ ⟨hb.congr k1 k2 k3 k4 k5 k6, by rw [k1]; exact fun hx => h2 (Or.inl hx), fun _ => activate_aux h1, fun _ => by rw [k1]; exact h2, fun _ hrun => ?_⟩
        rw [(activate_more room (backState v s)).2.1] at hrun
        unfold activate
        rw [if_pos hrun]
        split
        · exact Or.inr (Or.inl rfl)
        · exact Or.inr (Or.inr rfl)
  | close =>
    dsimp only
    split
    · exact key _ h
    · rename_i ho
      exact key _ (close_base h (by simpa using ho))
  | start =>
    dsimp only
    split
    · exact key _ h
    · rename_i ho
      exact key _ (start_base h (by simpa using ho))
  | stop =>
    dsimp only
    split
    · exact key _ h
    · rename_i ho
      exact key _ (stop_base h (by simpa using ho))

theorem new_inv : Inv new := by
  refine Or.inl ⟨rfl, ⟨rfl, .idle, rfl, ⟨rfl, rfl⟩⟩, by decide, fun _ => ⟨fun h => ?_, fun h => ?_, fun h => ?_, fun _ => ⟨?_, Or.inl rfl⟩⟩, fun _ => ?_, fun _ h => ?_⟩
  · exact absurd h (by decide)
  · exact absurd h (by decide)
  · exact absurd h (by decide)
  · decide
  · unfold Transient; decide
  · exact absurd h (by decide)

theorem steps_inv {c : Cfg} : ∀ {os : List Op} {s : S}, Inv s → AllFit os → Inv (steps c s os) := by
  intro os
  induction os with
  | nil => intro s h _; exact h
  | cons o os ih =>
    intro s h ha
    exact ih (step_inv h (ha o (by simp))) fun x hx => ha x (by simp [hx])

/-! ## What the automaton says about buffers -/

theorem filled_snoc (l : List Ev) (e : Ev) : filled (l ++ [e]) = filled l ++ filled [e] := by
  unfold filled; rw [List.filterMap_append]
theorem sent_snoc (l : List Ev) (e : Ev) : sent (l ++ [e]) = sent l ++ sent [e] := by
  unfold sent; rw [List.filterMap_append]
theorem taken_snoc (l : List Ev) (e : Ev) : taken (l ++ [e]) = taken l ++ taken [e] := by
  unfold taken; rw [List.filterMap_append]

/-- Buffers which are filled but not yet sent. -/
def due : P → List Nat
  | .full b => [b]
  | _ => []

/-- The buffer which is being filled. -/
def busy : P → List Nat
  | .got b _ | .waiting b | .filling b | .ftimed b | .full b => [b]
  | _ => []

theorem due_announced (v : Nat) : due (announced v) = [] := by
  unfold announced; split
  · rfl
  · split <;> rfl

theorem busy_announced (v : Nat) : busy (announced v) = [] := by
  unfold announced; split
  · rfl
  · split <;> rfl

theorem next_filled {p q : P} {e : Ev} (h : next p e = some q) :
    due p ++ filled [e] = sent [e] ++ due q := by
  cases e with
  | size r =>
    simp only [next] at h
    split at h
    · rename_i hp
      injection h with h; subst h; subst hp
      unfold sizeNext
      split
      · rfl
      split
      · rfl
      split
      · rfl
      · rw [due_announced]; rfl
    · exact absurd h (by simp)
  | back v =>
    simp only [next] at h
    cases p <;> simp only [backNext] at h <;> first
      | (injection h with h; subst h; first | rfl | (rw [due_announced]; rfl))
      | exact absurd h (by simp)
  | take b sz =>
    cases p <;> simp only [next] at h <;> first
      | (injection h with h; subst h; split <;> rfl)
      | exact absurd h (by simp)
  | start b sz r =>
    simp only [next] at h
    split at h
    · rename_i hp
      injection h with h; subst h; subst hp
      unfold startNext
      split
      · rfl
      split <;> rfl
    · exact absurd h (by simp)
  | complete b r =>
    simp only [next] at h
    split at h
    · rename_i hp
      injection h with h; subst h; subst hp
      unfold complNext filled
      simp only [List.filterMap_cons, List.filterMap_nil]
      by_cases h1 : r = cOk
      · rw [if_pos h1, if_pos h1]; rfl
      · rw [if_neg h1, if_neg h1]
        by_cases h2 : r = cSkipBuffer
        · rw [if_pos h2]; rfl
        rw [if_neg h2]
        by_cases h3 : r = cRepeat
        · rw [if_pos h3]; rfl
        rw [if_neg h3]
        by_cases h4 : r = cRepeatTimeOut
        · rw [if_pos h4]; rfl
        rw [if_neg h4]; rfl
    · exact absurd h (by simp)
  | send b =>
    simp only [next] at h
    split at h
    · rename_i hp
      injection h with h; subst h; subst hp; rfl
    · exact absurd h (by simp)
  | eof =>
    simp only [next] at h
    split at h
    · rename_i hp
      injection h with h; subst h; subst hp; rfl
    · exact absurd h (by simp)
  | quit =>
    simp only [next] at h
    cases p <;> simp only [quitNext] at h <;> first
      | (injection h with h; subst h; rfl)
      | exact absurd h (by simp)
  | delete =>
    simp only [next] at h
    cases p <;> simp only [deleteNext] at h <;> first
      | (injection h with h; subst h; rfl)
      | exact absurd h (by simp)
  | create =>
    simp only [next] at h
    split at h
    · rename_i hp
      injection h with h; subst h; subst hp; rfl
    · exact absurd h (by simp)
  | timer =>
    simp only [next] at h
    cases p <;> simp only [timerNext] at h <;> first
      | (injection h with h; subst h; rfl)
      | exact absurd h (by simp)

/-- Split a history at its last entry. -/
theorem run_split {l : List Ev} {e : Ev} {q : P} (h : run (l ++ [e]) = some q) :
    ∃ p, run l = some p ∧ next p e = some q := by
  rw [run_snoc] at h
  cases hl : run l with
  | none => rw [hl] at h; exact absurd h (by simp)
  | some p => rw [hl] at h; exact ⟨p, rfl, h⟩

theorem sent_filled : ∀ (l : List Ev) {p : P}, run l = some p → sent l ++ due p = filled l := by
  intro l
  induction l using List.reverseRecOn with
  | nil => intro p h; cases h; rfl
  | append_singleton l e ih =>
    intro q h
    obtain ⟨p, hp, hn⟩ := run_split h
    rw [sent_snoc, filled_snoc, ← ih hp, List.append_assoc, List.append_assoc, next_filled hn]

/-- The buffer which is being filled. -/
def inWork : P → List Nat
  | .got b _ | .waiting b | .filling b | .ftimed b => [b]
  | _ => []

theorem inWork_announced (v : Nat) : inWork (announced v) = [] := by
  unfold announced; split
  · rfl
  · split <;> rfl

theorem next_taken {p q : P} {e : Ev} (h : next p e = some q) :
    (filled [e] ++ inWork q).Sublist (inWork p ++ taken [e]) := by
  cases e with
  | size r =>
    simp only [next] at h
    split at h
    · rename_i hp
      injection h with h; subst h; subst hp
      unfold sizeNext
      split
      · exact List.Sublist.refl _
      split
      · exact List.Sublist.refl _
      split
      · exact List.Sublist.refl _
      · rw [inWork_announced]; exact List.Sublist.refl _
    · exact absurd h (by simp)
  | back v =>
    simp only [next] at h
    cases p <;> simp only [backNext] at h <;> first
      | (injection h with h; subst h; first | exact List.Sublist.refl _ | exact List.nil_sublist _ | (rw [inWork_announced]; exact List.nil_sublist _))
      | exact absurd h (by simp)
  | take b sz =>
    cases p <;> simp only [next] at h <;> first
      | (injection h with h; subst h; split <;> first | exact List.Sublist.refl _ | exact List.nil_sublist _)
      | exact absurd h (by simp)
  | start b sz r =>
    simp only [next] at h
    split at h
    · rename_i hp
      injection h with h; subst h; subst hp
      unfold startNext
      split
      · exact List.Sublist.refl _
      split
      · exact List.Sublist.refl _
      · exact List.nil_sublist _
    · exact absurd h (by simp)
  | complete b r =>
    simp only [next] at h
    split at h
    · rename_i hp
      injection h with h; subst h; subst hp
      unfold complNext filled
      simp only [List.filterMap_cons, List.filterMap_nil]
      by_cases h1 : r = cOk
      · rw [if_pos h1, if_pos h1]; exact List.Sublist.refl _
      · rw [if_neg h1, if_neg h1]
        by_cases h2 : r = cSkipBuffer
        · rw [if_pos h2]; exact List.nil_sublist _
        rw [if_neg h2]
        by_cases h3 : r = cRepeat
        · rw [if_pos h3]; exact List.Sublist.refl _
        rw [if_neg h3]
        by_cases h4 : r = cRepeatTimeOut
        · rw [if_pos h4]; exact List.Sublist.refl _
        rw [if_neg h4]; exact List.nil_sublist _
    · exact absurd h (by simp)
  | send b =>
    simp only [next] at h
    split at h
    · rename_i hp
      injection h with h; subst h; subst hp; exact List.nil_sublist _
    · exact absurd h (by simp)
  | eof =>
    simp only [next] at h
    split at h
    · rename_i hp
      injection h with h; subst h; subst hp; exact List.nil_sublist _
    · exact absurd h (by simp)
  | quit =>
    simp only [next] at h
    cases p <;> simp only [quitNext] at h <;> first
      | (injection h with h; subst h; exact List.nil_sublist _)
      | exact absurd h (by simp)
  | delete =>
    simp only [next] at h
    cases p <;> simp only [deleteNext] at h <;> first
      | (injection h with h; subst h; exact List.nil_sublist _)
      | exact absurd h (by simp)
  | create =>
    simp only [next] at h
    split at h
    · rename_i hp
      injection h with h; subst h; subst hp; exact List.nil_sublist _
    · exact absurd h (by simp)
  | timer =>
    simp only [next] at h
    cases p <;> simp only [timerNext] at h <;> first
      | (injection h with h; subst h; first | exact List.Sublist.refl _ | exact List.nil_sublist _)
      | exact absurd h (by simp)

theorem filled_taken : ∀ (l : List Ev) {p : P}, run l = some p → (filled l ++ inWork p).Sublist (taken l) := by
  intro l
  induction l using List.reverseRecOn with
  | nil => intro p h; cases h; exact List.Sublist.refl _
  | append_singleton l e ih =>
    intro q h
    obtain ⟨p, hp, hn⟩ := run_split h
    rw [filled_snoc, taken_snoc, List.append_assoc]
    have h1 := (List.Sublist.refl (filled l)).append (next_taken hn)
    refine h1.trans ?_
    rw [← List.append_assoc]
    exact (ih hp).append (List.Sublist.refl _)

theorem due_of_base {s : S} (h : Inv s) : ∃ p, run s.log = some p ∧ due p = [] := by
  rcases h with ⟨_, h⟩ | ⟨_, h, _⟩
  · obtain ⟨_, p, hr, hrel⟩ := h.good
    refine ⟨p, hr, ?_⟩
    have hn := h.sent
    unfold Rel at hrel
    split at hrel
    case h_4 => rw [hrel.2]; exact due_announced _
    case h_7 =>
      obtain ⟨_, b, sz, _, hp⟩ := hrel
      rw [hp]; split <;> rfl
    case h_16 => rcases hrel.2 with hp | hp <;> (rw [hp]; rfl)
    all_goals first
      | contradiction
      | (obtain ⟨_, rfl⟩ := hrel; rfl)
      | (obtain ⟨_, b, sz, _, rfl⟩ := hrel; rfl)
  · exact ⟨_, h, rfl⟩

/-- After the end there is nothing. -/
theorem eof_last : ∀ (l : List Ev) {p : P}, run l = some p → Ev.eof ∈ l →
    p = .over ∧ ∃ l', l = l' ++ [.delete, .eof] ∧ run l' = some .finished ∧ Ev.eof ∉ l' := by
  intro l
  induction l using List.reverseRecOn with
  | nil => intro p _ h; exact absurd h (by simp)
  | append_singleton l e ih =>
    intro q h hmem
    obtain ⟨p, hp, hn⟩ := run_split h
    by_cases hl : Ev.eof ∈ l
    · obtain ⟨rfl, _⟩ := ih hp hl
      cases e <;> simp [next, backNext, quitNext, deleteNext, timerNext] at hn
    · have he : e = .eof := by
        rcases List.mem_append.1 hmem with hx | hx
        · exact absurd hx hl
        · exact (List.mem_singleton.1 hx).symm
      subst he
      simp only [next] at hn
      split at hn
      · rename_i hpe
        subst hpe
        injection hn with hn
        refine ⟨hn.symm, ?_⟩
        rcases List.eq_nil_or_concat l with rfl | ⟨l', e', rfl⟩
        · exact absurd hp (by decide)
        · rw [List.concat_eq_append] at hp hl ⊢
          obtain ⟨p', hp', hn'⟩ := run_split hp
          have : e' = .delete ∧ p' = .finished := by
            cases e' with
            | delete =>
              cases p' <;> simp [next, deleteNext] at hn' ⊢
            | size r =>
              exfalso; simp only [next] at hn'
              split at hn'
              · injection hn' with hn'
                unfold sizeNext announced at hn'
                split at hn'
                · exact absurd hn' (by simp)
                split at hn'
                · exact absurd hn' (by simp)
                split at hn'
                · exact absurd hn' (by simp)
                split at hn'
                · exact absurd hn' (by simp)
                split at hn' <;> exact absurd hn' (by simp)
              · exact absurd hn' (by simp)
            | back v =>
              exfalso; simp only [next] at hn'
              cases p' <;> simp [backNext] at hn'
              unfold announced at hn'
              split at hn'
              · exact absurd hn' (by simp)
              split at hn' <;> exact absurd hn' (by simp)
            | take b sz =>
              exfalso
              cases p' <;> simp only [next] at hn' <;> first
                | (injection hn' with hn'; split at hn' <;> exact absurd hn' (by simp))
                | exact absurd hn' (by simp)
            | start b sz r =>
              exfalso; simp only [next] at hn'
              split at hn'
              · injection hn' with hn'
                unfold startNext at hn'
                split at hn'
                · exact absurd hn' (by simp)
                split at hn' <;> exact absurd hn' (by simp)
              · exact absurd hn' (by simp)
            | complete b r =>
              exfalso; simp only [next] at hn'
              split at hn'
              · injection hn' with hn'
                unfold complNext at hn'
                split at hn'
                · exact absurd hn' (by simp)
                split at hn'
                · exact absurd hn' (by simp)
                split at hn'
                · exact absurd hn' (by simp)
                split at hn' <;> exact absurd hn' (by simp)
              · exact absurd hn' (by simp)
            | send b => exfalso; simp only [next] at hn'; split at hn' <;> simp at hn'
            | eof => exfalso; simp only [next] at hn'; split at hn' <;> simp at hn'
            | quit => exfalso; simp only [next] at hn'; cases p' <;> simp [quitNext] at hn'
            | create => exfalso; simp only [next] at hn'; split at hn' <;> simp at hn'
            | timer => exfalso; simp only [next] at hn'; cases p' <;> simp [timerNext] at hn'
          obtain ⟨rfl, rfl⟩ := this
          refine ⟨l', by simp, hp', fun hx => hl (List.mem_append_left _ hx)⟩
      · exact absurd hn (by simp)

end Verif.InpTransport
