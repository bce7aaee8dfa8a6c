import Verif.Spec.ObjLife

/-! # C40: objects are destroyed at most once and never while referenced; C62: they do not stay for ever -/

namespace Verif.ObjLife

/-- References owned by a call in progress. -/
def owned : Pc → Nat
  | .ask => 1
  | .rel n => n
  | .mgr => 1
  | .drop => 1
  | _ => 0

def total (l : List Pc) : Nat := (l.map owned).sum

/-- Which calls are in progress in which state. -/
def Shape (w : W) : Prop :=
  match w.st with
  | .normal => w.pend = [] ∧ w.tok = false ∧ w.cleaned = 0 ∧ w.deleted = 0
  | .waitThread => (w.pend = [.ask] ∧ w.tok = false ∨ w.pend = [] ∧ w.tok = true) ∧ w.cleaned = 0 ∧ w.deleted = 0
  | .doing => w.tok = false ∧ w.deleted = 0 ∧
      (w.pend = [.clean] ∧ w.cleaned = 0 ∨ ((∃ n, w.pend = [.rel n]) ∨ w.pend = [.after]) ∧ w.cleaned = 1)
  | .waitDestr => w.tok = false ∧ w.deleted = 0 ∧ w.cleaned = 1 ∧ (w.pend = [] ∨ w.pend = [.mgr] ∨ w.pend = [.drop])
  | .destr => w.tok = false ∧ w.cleaned = 1 ∧ w.cnt = 0 ∧
      (w.pend = [.del] ∧ w.deleted = 0 ∨ w.pend = [] ∧ w.deleted = 1)

structure Inv (w : W) : Prop where
  good : w.bad = false
  cnt : w.cnt = w.refs + w.childs + (if w.tok then 1 else 0) + total w.pend
  shape : Shape w

/-- What `dec` with decrement does, when the caller gave up a reference. -/
theorem dec_true {w : W} (ask thr : Bool) (hb : w.bad = false) (hd : w.deleted = 0)
    (hc : w.cnt = w.refs + w.childs + (if w.tok then 1 else 0) + total w.pend + 1)
    (hs : match w.st with
      | .normal => w.pend = [] ∧ w.tok = false ∧ w.cleaned = 0
      | .waitThread => w.cleaned = 0 ∧ (if thr then w.pend = [] ∧ w.tok = false
          else (w.pend = [.ask] ∧ w.tok = false ∨ w.pend = [] ∧ w.tok = true))
      | .doing => w.tok = false ∧
          (w.pend = [.clean] ∧ w.cleaned = 0 ∨ ((∃ n, w.pend = [.rel n]) ∨ w.pend = [.after]) ∧ w.cleaned = 1)
      | .waitDestr => w.tok = false ∧ w.cleaned = 1 ∧ (w.pend = [] ∨ w.pend = [.mgr] ∨ w.pend = [.drop])
      | .destr => False) : Inv (dec w ask true thr) := by
  unfold dec
  rw [if_neg (by omega), if_neg (by simp; omega)]
  dsimp only
  rw [if_pos rfl]
  cases hst : w.st <;> rw [hst] at hs <;> dsimp only at hs ⊢
  · obtain ⟨hp, ht, hcl⟩ := hs
    rw [ht, hp] at hc
    simp only [total, List.map_nil, List.sum_nil, Bool.false_eq_true, if_false] at hc
    split
    · exact ⟨hb, by show w.cnt - 1 = _; simp [hp, ht, total]; omega, by simp [Shape, hst, hp, ht, hcl, hd]⟩
    · split
      · exact ⟨hb, by show w.cnt - 1 + 1 = _; simp [hp, ht, total, owned]; omega, by simp [Shape, hp, ht, hcl, hd]⟩
      · exact ⟨hb, by show w.cnt - 1 = _; simp [hp, ht, total, owned]; omega, by simp [Shape, hp, ht, hcl, hd]⟩
  · obtain ⟨hcl, hp⟩ := hs
    cases thr with
    | false =>
      rw [if_pos (by decide)]
      refine ⟨hb, ?_, ?_⟩
      · show w.cnt - 1 = _
        dsimp only
        omega
      · simp only [Bool.false_eq_true, if_false] at hp
        simp only [Shape, hst]
        exact ⟨hp, hcl, hd⟩
    | true =>
      rw [if_neg (by simp)]
      simp only [if_true] at hp
      obtain ⟨hp, ht⟩ := hp
      rw [ht, hp] at hc
      simp only [total, List.map_nil, List.sum_nil, Bool.false_eq_true, if_false] at hc
      exact ⟨hb, by show w.cnt - 1 = _; simp [hp, ht, total, owned]; omega, by simp [Shape, hp, ht, hcl, hd]⟩
  · obtain ⟨ht, hp⟩ := hs
    refine ⟨hb, ?_, ?_⟩
    · show w.cnt - 1 = _
      dsimp only
      omega
    · simp only [Shape, hst]
      exact ⟨ht, hd, hp⟩
  · obtain ⟨ht, hcl, hp⟩ := hs
    split
    · rename_i h0
      have h1 : total w.pend = 0 := by omega
      have h2 : w.pend = [] := by
        rcases hp with h | h | h
        · exact h
        · rw [h] at h1; simp [total, owned] at h1
        · rw [h] at h1; simp [total, owned] at h1
      refine ⟨hb, ?_, ?_⟩
      · show w.cnt - 1 = _
        rw [h1] at hc
        simp only [h2, total, owned, List.nil_append, List.map_cons, List.map_nil, List.sum_cons, List.sum_nil]
        omega
      · simp only [Shape, h2, List.nil_append]
        exact ⟨ht, hcl, h0, .inl ⟨trivial, hd⟩⟩
    · refine ⟨hb, ?_, ?_⟩
      · show w.cnt - 1 = _
        dsimp only
        omega
      · simp only [Shape, hst]
        exact ⟨ht, hd, hcl, hp⟩

theorem dec_raw {w : W} (h : Inv w) (hd : w.deleted = 0) : Inv (dec w true false false) := by
  have hc := h.cnt
  have hs := h.shape
  unfold dec
  rw [if_neg (by omega), if_neg (by simp)]
  dsimp only
  rw [if_neg (by simp)]
  cases hst : w.st <;> simp only [Shape, hst] at hs <;> dsimp only
  · obtain ⟨hp, ht, hcl, _⟩ := hs
    rw [ht, hp] at hc
    simp only [total, List.map_nil, List.sum_nil, Bool.false_eq_true, if_false] at hc
    rw [if_neg (by simp)]
    split
    · exact ⟨h.good, by simp [hp, ht, total, owned]; omega, by simp [Shape, hp, ht, hcl, hd]⟩
    · exact ⟨h.good, by simp [hp, ht, total, owned]; omega, by simp [Shape, hp, ht, hcl, hd]⟩
  · rw [if_pos (by decide)]; exact h
  · exact h
  · split
    · rename_i h0
      obtain ⟨ht, _, hcl, hp⟩ := hs
      have h1 : total w.pend = 0 := by omega
      have h2 : w.pend = [] := by
        rcases hp with h | h | h
        · exact h
        · rw [h] at h1; simp [total, owned] at h1
        · rw [h] at h1; simp [total, owned] at h1
      refine ⟨h.good, ?_, ?_⟩
      · simp only [h2, total, owned, List.nil_append, List.map_cons, List.map_nil, List.sum_cons, List.sum_nil]
        rw [h1] at hc
        exact hc
      · simp only [Shape, h2, List.nil_append]
        exact ⟨ht, hcl, h0, .inl ⟨trivial, hd⟩⟩
    · exact h
  · exact h

/-- With a reference the object is neither deleted nor going to be. -/
theorem alive {w : W} (h : Inv w) (hr : 0 < w.refs ∨ 0 < w.childs ∨ w.tok = true) : w.deleted = 0 ∧ w.st ≠ .destr := by
  have hc := h.cnt
  have hs := h.shape
  cases hst : w.st <;> simp only [Shape, hst] at hs
  · exact ⟨hs.2.2.2, by simp⟩
  · exact ⟨hs.2.2, by simp⟩
  · exact ⟨hs.2.1, by simp⟩
  · exact ⟨hs.2.1, by simp⟩
  · obtain ⟨h1, _, h2, _⟩ := hs
    rw [h2] at hc
    rcases hr with hr | hr | hr
    · omega
    · omega
    · rw [h1] at hr; cases hr

theorem inc_alive {w : W} (hd : w.deleted = 0) (hs : w.st ≠ .destr) : inc w = (true, { w with cnt := w.cnt + 1 }) := by
  unfold inc
  rw [if_neg (by omega), if_neg hs]

theorem inc_inv {w : W} (h : Inv w) (hs : w.st ≠ .destr) : Inv { w with cnt := w.cnt + 1, refs := w.refs + 1 } := by
  refine ⟨h.good, ?_, ?_⟩
  · have := h.cnt
    dsimp only
    omega
  · have := h.shape
    cases hst : w.st <;> simp only [Shape, hst] at this ⊢ <;> first | exact this | (exact absurd hst hs)

/-- Giving up a reference. -/
theorem release_inv {w : W} (h : Inv w) (hr : 0 < w.refs) (ask : Bool) :
    Inv (dec { w with refs := w.refs - 1 } ask true false) := by
  have ha := alive h (.inl hr)
  have hc := h.cnt
  have hs := h.shape
  refine dec_true ask false h.good ha.1 ?_ ?_
  · dsimp only
    omega
  · dsimp only
    cases hst : w.st <;> simp only [Shape, hst] at hs ⊢
    · exact ⟨hs.1, hs.2.1, hs.2.2.1⟩
    · simp only [Bool.false_eq_true, if_false]
      exact ⟨hs.2.1, hs.1⟩
    · exact ⟨hs.1, hs.2.2⟩
    · exact ⟨hs.1, hs.2.2.1, hs.2.2.2⟩
    · exact ha.2 hst

theorem single {l : List Pc} {p : Pc} {i : Nat} {pc : Pc} (h : l = [p]) (hi : l[i]? = some pc) : i = 0 ∧ pc = p := by
  rw [h] at hi
  cases i with
  | zero => simp at hi; exact ⟨rfl, hi.symm⟩
  | succ i => simp at hi

theorem go_inv {w : W} (h : Inv w) (i : Nat) (a : Bool) : Inv (go w i a) := by
  unfold go
  cases hi : w.pend[i]? with
  | none => exact h
  | some pc =>
    have hc := h.cnt
    have hs := h.shape
    dsimp only
    cases hst : w.st <;> simp only [Shape, hst] at hs
    · rw [hs.1] at hi; simp at hi
    · obtain ⟨hp, hcl, hd⟩ := hs
      rw [if_neg (by omega)]
      rcases hp with ⟨hp, ht⟩ | ⟨hp, ht⟩
      · obtain ⟨rfl, rfl⟩ := single hp hi
        rw [hp, ht] at hc
        simp [total, owned] at hc
        dsimp only
        cases a with
        | true =>
          rw [if_pos rfl]
          exact ⟨h.good, by simp [hp, total]; omega, by simp [Shape, hst, hp, hcl, hd]⟩
        | false =>
          rw [if_neg (by simp)]
          refine ⟨h.good, ?_, by simp [Shape, hp, hcl, hd, ht]⟩
          simp [hp, total, owned, ht]
          omega
      · rw [hp] at hi; simp at hi
    · obtain ⟨ht, hd, hp⟩ := hs
      rw [if_neg (by omega)]
      rcases hp with ⟨hp, hcl⟩ | ⟨⟨n, hp⟩ | hp, hcl⟩
      · obtain ⟨rfl, rfl⟩ := single hp hi
        rw [hp, ht] at hc
        simp [total, owned] at hc
        exact ⟨h.good, by simp [hp, total, owned, ht]; omega, by simp [Shape, hst, hp, hcl, hd, ht]⟩
      · obtain ⟨rfl, rfl⟩ := single hp hi
        rw [hp, ht] at hc
        simp [total, owned] at hc
        cases n with
        | zero => exact ⟨h.good, by simp [hp, total, owned, ht]; omega, by simp [Shape, hst, hp, hcl, hd, ht]⟩
        | succ n =>
          dsimp only
          refine dec_true false false h.good hd ?_ ?_
          · simp [hp, total, owned, ht]; omega
          · simp only [hst]
            exact ⟨ht, .inr ⟨.inl ⟨n, by simp [hp]⟩, hcl⟩⟩
      · obtain ⟨rfl, rfl⟩ := single hp hi
        rw [hp, ht] at hc
        simp [total, owned] at hc
        dsimp only
        split
        · exact ⟨h.good, by simp [hp, total, owned, ht]; omega, by simp [Shape, hp, hcl, hd, ht]⟩
        · split
          · rename_i h0
            exact ⟨h.good, by simp [hp, total, owned, ht]; omega, by simp [Shape, hp, hcl, hd, ht, h0]⟩
          · exact ⟨h.good, by simp [hp, total, ht]; omega, by simp [Shape, hp, hcl, hd, ht]⟩
    · obtain ⟨ht, hd, hcl, hp⟩ := hs
      rw [if_neg (by omega)]
      rcases hp with hp | hp | hp
      · rw [hp] at hi; simp at hi
      · obtain ⟨rfl, rfl⟩ := single hp hi
        rw [hp, ht] at hc
        simp [total, owned] at hc
        dsimp only
        rw [inc_alive hd (by rw [hst]; simp)]
        exact ⟨h.good, by simp [hp, total, owned, ht]; omega, by simp [Shape, hst, hp, hcl, hd, ht]⟩
      · obtain ⟨rfl, rfl⟩ := single hp hi
        rw [hp, ht] at hc
        simp [total, owned] at hc
        dsimp only
        refine dec_true false false h.good hd ?_ ?_
        · simp [hp, total, ht]; omega
        · simp only [hst]
          exact ⟨ht, hcl, .inl (by simp [hp])⟩
    · obtain ⟨ht, hcl, h0, hp⟩ := hs
      rcases hp with ⟨hp, hd⟩ | ⟨hp, hd⟩
      · obtain ⟨rfl, rfl⟩ := single hp hi
        rw [if_neg (by omega)]
        rw [hp, ht] at hc
        simp [total, owned] at hc
        exact ⟨h.good, by simp [hp, total, ht]; omega, by simp [Shape, hst, hp, hcl, hd, ht, h0]⟩
      · rw [hp] at hi; simp at hi

theorem Inv.flags {w w' : W} (h : Inv w) (e1 : w'.st = w.st) (e2 : w'.cnt = w.cnt) (e3 : w'.childs = w.childs)
    (e4 : w'.refs = w.refs) (e5 : w'.pend = w.pend) (e6 : w'.tok = w.tok) (e7 : w'.cleaned = w.cleaned)
    (e8 : w'.deleted = w.deleted) (e9 : w'.bad = w.bad) : Inv w' := by
  refine ⟨by rw [e9]; exact h.good, by rw [e2, e3, e4, e5, e6]; exact h.cnt, ?_⟩
  have := h.shape
  unfold Shape at this ⊢
  rw [e1, e2, e5, e6, e7, e8]
  exact this

theorem step_inv {w : W} (h : Inv w) (o : Op) : Inv (step w o) := by
  cases o with
  | copy =>
    unfold step
    dsimp only
    split
    · exact h
    · have ha := alive h (.inl (by omega))
      rw [inc_alive ha.1 ha.2]
      exact inc_inv h ha.2
  | rawRef =>
    unfold step
    dsimp only
    split
    · exact h
    · by_cases hs : w.st = .destr
      · have : inc w = (false, w) := by
          unfold inc
          rw [if_neg (by omega), if_pos hs]
        rw [this]
        exact h
      · rw [inc_alive (by omega) hs]
        exact inc_inv h hs
  | release =>
    unfold step
    dsimp only
    split
    · exact h
    · exact release_inv h (by omega) false
  | destroy =>
    unfold step
    dsimp only
    split
    · exact h
    · exact release_inv h (by omega) true
  | rawDestroy =>
    unfold step
    dsimp only
    split
    · exact h
    · exact dec_raw h (by omega)
  | thread =>
    unfold step
    dsimp only
    split
    · rename_i ht
      have ha := alive h (.inr (.inr ht))
      have hc := h.cnt
      have hs := h.shape
      rw [ht] at hc
      simp only [if_true] at hc
      refine dec_true true true h.good ha.1 ?_ ?_
      · simp only [Bool.false_eq_true, if_false]
        omega
      · dsimp only
        cases hst : w.st <;> simp only [Shape, hst] at hs ⊢
        · rw [ht] at hs; simp at hs
        · simp only [if_true]
          refine ⟨hs.2.1, ?_⟩
          rcases hs.1 with h1 | h1
          · rw [ht] at h1; simp at h1
          · exact ⟨h1.1, trivial⟩
        · rw [ht] at hs; simp at hs
        · rw [ht] at hs; simp at hs
        · rw [ht] at hs; simp at hs
    · exact h
  | setAuto on => unfold step; dsimp only; split <;> first | exact h | exact h.flags rfl rfl rfl rfl rfl rfl rfl rfl rfl
  | setThread on => unfold step; dsimp only; split <;> first | exact h | exact h.flags rfl rfl rfl rfl rfl rfl rfl rfl rfl
  | setCleanup => unfold step; dsimp only; split <;> first | exact h | exact h.flags rfl rfl rfl rfl rfl rfl rfl rfl rfl
  | addChild =>
    unfold step
    dsimp only
    split
    · exact h
    · have ha := alive h (.inl (by omega))
      refine ⟨h.good, ?_, ?_⟩
      · have := h.cnt
        dsimp only
        omega
      · have := h.shape
        cases hst : w.st <;> simp only [Shape, hst] at this ⊢ <;> first | exact this | (exact absurd hst ha.2)
  | removeChild =>
    unfold step
    dsimp only
    split
    · exact h
    · have ha := alive h (.inr (.inl (by omega)))
      refine ⟨h.good, ?_, ?_⟩
      · have := h.cnt
        dsimp only
        omega
      · have := h.shape
        cases hst : w.st <;> simp only [Shape, hst] at this ⊢ <;> first | exact this | (exact absurd hst ha.2)
  | go i a => exact go_inv h i a

theorem run_inv {ops : List Op} {w : W} (h : Inv w) : Inv (run ops w) := by
  induction ops generalizing w with
  | nil => exact h
  | cons o l ih => exact ih (step_inv h o)

theorem init_inv (auto : Bool) : Inv (init auto) := ⟨rfl, rfl, by simp [Shape, init]⟩

/-- C40: the object is deleted at most once, and when it is deleted, nobody can use it any more: there is no reference, no
child, no unfinished call and no promise of the thread; cleanup was done exactly once.  No reference is ever counted down below
zero, no call touches a deleted object (`bad`). -/
theorem C40_once (auto : Bool) (ops : List Op) :
    (run ops (init auto)).deleted ≤ 1 ∧ (run ops (init auto)).cleaned ≤ 1 ∧ (run ops (init auto)).bad = false ∧
      ((run ops (init auto)).deleted = 1 → Unused (run ops (init auto)) ∧ (run ops (init auto)).cleaned = 1) := by
  have h := run_inv (ops := ops) (init_inv auto)
  have hc := h.cnt
  have hs := h.shape
  generalize run ops (init auto) = w at h hc hs
  cases hst : w.st <;> simp only [Shape, hst] at hs
  · refine ⟨by omega, by omega, h.good, by omega⟩
  · refine ⟨by omega, by omega, h.good, by omega⟩
  · refine ⟨by omega, ?_, h.good, by omega⟩
    rcases hs.2.2 with h1 | h1 <;> omega
  · refine ⟨by omega, by omega, h.good, by omega⟩
  · obtain ⟨ht, hcl, h0, hp⟩ := hs
    rcases hp with ⟨hp, hd⟩ | ⟨hp, hd⟩
    · refine ⟨by omega, by omega, h.good, by omega⟩
    · refine ⟨by omega, by omega, h.good, fun _ => ⟨⟨by omega, by omega, hp, ht⟩, hcl⟩⟩

/-- As long as somebody has a reference, or a child exists, the object is not deleted and a further reference can be made. -/
theorem C40_referenced (auto : Bool) (ops : List Op) (h : 0 < (run ops (init auto)).refs ∨ 0 < (run ops (init auto)).childs) :
    (run ops (init auto)).deleted = 0 ∧ (inc (run ops (init auto))).1 = true := by
  have hi := run_inv (ops := ops) (init_inv auto)
  have ha := alive hi (by rcases h with h | h; exact .inl h; exact .inr (.inl h))
  exact ⟨ha.1, by rw [inc_alive ha.1 ha.2]⟩

/-- Once the deletion is decided, no reference can be made, at any later time. -/
theorem C40_final (auto : Bool) (ops more : List Op) (h : (run ops (init auto)).st = .destr) :
    (inc (run more (run ops (init auto)))).1 = false ∧ (run more (run ops (init auto))).refs = 0 := by
  have hi := run_inv (ops := ops) (init_inv auto)
  generalize run ops (init auto) = w at h hi ⊢
  have key : ∀ (l : List Op) (w : W), Inv w → w.st = .destr → (run l w).st = .destr ∧ Inv (run l w) := by
    intro l
    induction l with
    | nil => intro w hi h; exact ⟨h, hi⟩
    | cons o l ih =>
      intro w hi h
      apply ih (step w o) (step_inv hi o)
      have hc := hi.cnt
      have hs := hi.shape
      simp only [Shape, h] at hs
      obtain ⟨ht, hcl, h0, hp⟩ := hs
      have hr : w.refs = 0 := by omega
      have hch : w.childs = 0 := by omega
      cases o <;> simp only [step, hr, hch, ht, if_true, Bool.false_eq_true, if_false] <;> first | exact h | skip
      · split
        · exact h
        · unfold inc
          rw [if_neg (by assumption), if_pos h]
          exact h
      · split
        · exact h
        · unfold dec
          rw [if_neg (by assumption), if_neg (by simp)]
          dsimp only
          rw [if_neg (by simp), h]
          exact h
      · split <;> exact h
      · split <;> exact h
      · split <;> exact h
      · unfold go
        rename_i i a
        rcases hp with ⟨hp, hd⟩ | ⟨hp, hd⟩
        · cases hi2 : w.pend[i]? with
          | none => exact h
          | some pc =>
            obtain ⟨rfl, rfl⟩ := single hp hi2
            dsimp only
            rw [if_neg (by omega)]
            exact h
        · rw [hp]; exact h
  obtain ⟨h1, h2⟩ := key more w hi h
  have hc := h2.cnt
  have hs := h2.shape
  simp only [Shape, h1] at hs
  refine ⟨?_, by omega⟩
  unfold inc
  rw [if_pos h1]
  split <;> rfl

/-! ## No object is forgotten -/

/-- In this state somebody who counts will give up a reference later. -/
def Kept (w : W) : Prop := w.st = .waitDestr → 0 < w.cnt

theorem dec_kept {w : W} (ask dodec thr : Bool) (h : dodec = false → Kept w) : Kept (dec w ask dodec thr) ∨ (dec w ask dodec thr).bad = true := by
  unfold dec
  split
  · exact .inr rfl
  · split
    · exact .inr rfl
    · left
      unfold Kept at h ⊢
      dsimp only
      cases hst : w.st
      · cases dodec <;> simp only [hst, if_true, Bool.false_eq_true, if_false] <;> (repeat' split) <;> simp [hst]
      · cases dodec <;> simp only [hst, if_true, Bool.false_eq_true, if_false] <;> (repeat' split) <;> simp [hst]
      · cases dodec <;> simp [hst]
      · cases dodec with
        | false =>
          simp only [hst, Bool.false_eq_true, if_false]
          have := h rfl hst
          rw [if_neg (by omega)]
          exact fun _ => this
        | true =>
          simp only [hst, if_true]
          split
          · intro hc; cases hc
          · intro _; dsimp only at *; omega
      · cases dodec <;> simp [hst]

theorem step_kept {w : W} (hi : Inv w) (h : Kept w) (o : Op) (ho : o = .removeChild → w.st ≠ .waitDestr) :
    Kept (step w o) := by
  have hgood := (step_inv hi o).good
  have hdec : ∀ {w' : W} {ask dodec thr : Bool}, (dodec = false → Kept w') → (dec w' ask dodec thr).bad = false →
      Kept (dec w' ask dodec thr) := by
    intro w' ask dodec thr h1 h2
    rcases dec_kept ask dodec thr h1 with h3 | h3
    · exact h3
    · rw [h2] at h3; cases h3
  have hinc : ∀ {b : Bool} {w' : W}, inc w = (b, w') → Kept w' := by
    intro b w' he
    unfold inc at he
    split at he
    · cases he; exact h
    · split at he
      · cases he; exact h
      · cases he
        intro _
        show 0 < w.cnt + 1
        omega
  cases o with
  | copy =>
    unfold step
    dsimp only
    split
    · exact h
    · obtain ⟨b, w', he⟩ : ∃ b w', inc w = (b, w') := ⟨_, _, rfl⟩
      rw [he]
      have := hinc he
      cases b
      · exact this
      · exact this
  | rawRef =>
    unfold step
    dsimp only
    split
    · exact h
    · obtain ⟨b, w', he⟩ : ∃ b w', inc w = (b, w') := ⟨_, _, rfl⟩
      rw [he]
      have := hinc he
      cases b
      · exact this
      · exact this
  | release =>
    unfold step at hgood ⊢
    dsimp only at hgood ⊢
    split
    · exact h
    · rename_i hr
      rw [if_neg hr] at hgood
      exact hdec (by simp) hgood
  | destroy =>
    unfold step at hgood ⊢
    dsimp only at hgood ⊢
    split
    · exact h
    · rename_i hr
      rw [if_neg hr] at hgood
      exact hdec (by simp) hgood
  | rawDestroy =>
    unfold step at hgood ⊢
    dsimp only at hgood ⊢
    split
    · exact h
    · rename_i hr
      rw [if_neg hr] at hgood
      exact hdec (fun _ => h) hgood
  | thread =>
    unfold step at hgood ⊢
    dsimp only at hgood ⊢
    split
    · rename_i hr
      rw [if_pos hr] at hgood
      exact hdec (by simp) hgood
    · exact h
  | setAuto on => unfold step; dsimp only; split <;> exact h
  | setThread on => unfold step; dsimp only; split <;> exact h
  | setCleanup => unfold step; dsimp only; split <;> exact h
  | addChild =>
    unfold step
    dsimp only
    split
    · exact h
    · intro _
      show 0 < w.cnt + 1
      omega
  | removeChild =>
    unfold step
    dsimp only
    split
    · exact h
    · intro hc
      exact absurd hc (ho rfl)
  | go i a =>
    unfold step at hgood ⊢
    dsimp only at hgood ⊢
    unfold go at hgood ⊢
    cases hpc : w.pend[i]? with
    | none => exact h
    | some pc =>
      rw [hpc] at hgood
      dsimp only at hgood ⊢
      split
      · exact h
      · rename_i hd
        rw [if_neg hd] at hgood
        cases pc with
        | ask =>
          dsimp only
          split
          · exact h
          · intro hc; cases hc
        | clean => exact h
        | rel n =>
          cases n with
          | zero => exact h
          | succ n => exact hdec (by simp) hgood
        | after =>
          dsimp only
          split
          · intro _; show 0 < w.cnt + 1; omega
          · split
            · intro hc; cases hc
            · rename_i h0
              intro _; show 0 < w.cnt; omega
        | mgr =>
          dsimp only
          obtain ⟨b, w', he⟩ : ∃ b w', inc w = (b, w') := ⟨_, _, rfl⟩
          rw [he]
          have := hinc he
          cases b
          · exact this
          · exact this
        | drop => exact hdec (by simp) hgood
        | del => exact h

theorem run_kept {ops : List Op} {w : W} (hi : Inv w) (h : Kept w) (ho : Orderly ops w) : Kept (run ops w) := by
  induction ops generalizing w with
  | nil => exact h
  | cons o l ih => exact ih (step_inv hi o) (step_kept hi h o ho.1) ho.2

/-- When destruction was requested and nobody has anything to do with the object, it is deleted.  Missing for the full
statement: childs which are removed one by one after the cleanup, see the counterexample. -/
theorem C62_deleted_partial (auto : Bool) (ops : List Op) (ho : Orderly ops (init auto))
    (ha : Asked (run ops (init auto))) (hu : Unused (run ops (init auto))) : (run ops (init auto)).deleted = 1 := by
  have hi := run_inv (ops := ops) (init_inv auto)
  have hk := run_kept (init_inv auto) (fun hc => by cases hc) ho
  generalize run ops (init auto) = w at ha hu hi hk
  obtain ⟨h1, h2, h3, h4⟩ := hu
  have hc := hi.cnt
  have hs := hi.shape
  cases hst : w.st <;> simp only [Shape, hst] at hs
  · exact absurd hst ha
  · rcases hs.1 with h | h
    · rw [h3] at h; simp at h
    · rw [h4] at h; simp at h
  · rw [h3] at hs; simp at hs
  · have := hk hst
    rw [h1, h2, h3, h4] at hc
    simp [total] at hc
    omega
  · rcases hs.2.2.2 with h | h
    · rw [h3] at h; simp at h
    · exact h.2

/-- The object of this run is never deleted, whatever finishes: destruction is requested while somebody else has a reference,
this one adds a child and gives up the reference, then the child is removed. -/
theorem C62_leak_counterexample :
    let w := run [.rawRef, .rawDestroy, .go 0 true, .go 0 true, .go 0 true, .addChild, .release, .removeChild] (init false)
    Asked w ∧ Unused w ∧ w.deleted = 0 := by
  unfold Asked Unused
  decide +kernel

/-! ## Automatic destruction -/

/-- Operations which leave the flag. -/
def Same (o : Op) : Prop := ∀ on, o ≠ .setAuto on

structure Auto (w : W) : Prop where
  flag : w.auto = true
  held : w.st = .normal → 0 < w.refs

theorem dec_auto {w : W} (ask dodec thr : Bool) (hf : w.auto = true)
    (h : w.st = .normal → 0 < w.refs ∨ (dodec = true ∧ w.cnt = w.childs + 1) ∨ (dodec = false ∧ ask = true)) :
    Auto (dec w ask dodec thr) ∨ (dec w ask dodec thr).bad = true := by
  unfold dec
  split
  · exact .inr rfl
  · split
    · exact .inr rfl
    · left
      dsimp only
      cases hst : w.st
      · have h := h hst
        cases dodec with
        | true =>
          simp only [if_true, hst]
          split
          · rename_i hn
            refine ⟨hf, fun _ => ?_⟩
            rcases h with h | h | h
            · exact h
            · rw [hf] at hn
              simp at hn
              omega
            · simp at h
          · split
            · exact ⟨hf, fun hc => by cases hc⟩
            · exact ⟨hf, fun hc => by cases hc⟩
        | false =>
          simp only [Bool.false_eq_true, if_false, hst]
          split
          · rename_i hn
            refine ⟨hf, fun _ => ?_⟩
            rcases h with h | h | h
            · exact h
            · simp at h
            · rw [h.2] at hn; simp at hn
          · split
            · exact ⟨hf, fun hc => by cases hc⟩
            · exact ⟨hf, fun hc => by cases hc⟩
      all_goals
        cases dodec <;> simp only [if_true, Bool.false_eq_true, if_false, hst] <;> (repeat' split) <;>
          first
          | exact ⟨hf, fun hc => by cases hc⟩
          | exact ⟨hf, fun hc => by rw [hst] at hc; cases hc⟩
          | exact ⟨hf, fun hc => by simp [hst] at hc⟩

theorem step_auto {w : W} (hi : Inv w) (h : Auto w) (o : Op) (ho : Same o) : Auto (step w o) := by
  have hgood := (step_inv hi o).good
  have hs := hi.shape
  have hcn := hi.cnt
  have hdec : ∀ {w' : W} {ask dodec thr : Bool}, w'.auto = true →
      (w'.st = .normal → 0 < w'.refs ∨ (dodec = true ∧ w'.cnt = w'.childs + 1) ∨ (dodec = false ∧ ask = true)) →
      (dec w' ask dodec thr).bad = false → Auto (dec w' ask dodec thr) := by
    intro w' ask dodec thr h0 h1 h2
    rcases dec_auto ask dodec thr h0 h1 with h3 | h3
    · exact h3
    · rw [h2] at h3; cases h3
  have hnorm : w.st = .normal → w.pend = [] ∧ w.tok = false := by
    intro hn
    simp only [Shape, hn] at hs
    exact ⟨hs.1, hs.2.1⟩
  have hrel : 0 < w.refs → ∀ ask, (dec { w with refs := w.refs - 1 } ask true false).bad = false →
      Auto (dec { w with refs := w.refs - 1 } ask true false) := by
    intro hr ask hg
    refine hdec (dodec := true) h.flag (fun hn => ?_) hg
    obtain ⟨hp, ht⟩ := hnorm hn
    rw [hp, ht] at hcn
    simp [total] at hcn
    by_cases h1 : w.refs = 1
    · right; left
      refine ⟨rfl, ?_⟩
      dsimp only
      omega
    · left
      show 0 < w.refs - 1
      omega
  have hinc : ∀ {b : Bool} {w' : W}, inc w = (b, w') → Auto w' := by
    intro b w' he
    unfold inc at he
    split at he
    · cases he; exact ⟨h.flag, h.held⟩
    · split at he
      · cases he; exact h
      · cases he; exact ⟨h.flag, h.held⟩
  have hnot : ∀ {i : Nat} {pc : Pc}, w.pend[i]? = some pc → w.st ≠ .normal := by
    intro i pc hp hn
    rw [(hnorm hn).1] at hp
    simp at hp
  cases o with
  | copy =>
    unfold step
    dsimp only
    split
    · exact h
    · obtain ⟨b, w', he⟩ : ∃ b w', inc w = (b, w') := ⟨_, _, rfl⟩
      rw [he]
      have := hinc he
      cases b
      · exact ⟨this.flag, this.held⟩
      · exact ⟨this.flag, fun _ => Nat.succ_pos _⟩
  | rawRef =>
    unfold step
    dsimp only
    split
    · exact h
    · obtain ⟨b, w', he⟩ : ∃ b w', inc w = (b, w') := ⟨_, _, rfl⟩
      rw [he]
      have := hinc he
      cases b
      · exact this
      · exact ⟨this.flag, fun _ => Nat.succ_pos _⟩
  | release =>
    unfold step at hgood ⊢
    dsimp only at hgood ⊢
    split
    · exact h
    · rename_i hr
      rw [if_neg hr] at hgood
      exact hrel (by omega) _ hgood
  | destroy =>
    unfold step at hgood ⊢
    dsimp only at hgood ⊢
    split
    · exact h
    · rename_i hr
      rw [if_neg hr] at hgood
      exact hrel (by omega) _ hgood
  | rawDestroy =>
    unfold step at hgood ⊢
    dsimp only at hgood ⊢
    split
    · exact h
    · rename_i hr
      rw [if_neg hr] at hgood
      exact hdec (dodec := false) h.flag (fun _ => .inr (.inr ⟨rfl, rfl⟩)) hgood
  | thread =>
    unfold step at hgood ⊢
    dsimp only at hgood ⊢
    split
    · rename_i hr
      rw [if_pos hr] at hgood
      refine hdec (dodec := true) h.flag (fun hn => ?_) hgood
      have := (hnorm hn).2
      rw [this] at hr
      cases hr
    · exact h
  | setAuto on => exact absurd rfl (ho on)
  | setThread on => unfold step; dsimp only; split <;> exact ⟨h.flag, h.held⟩
  | setCleanup => unfold step; dsimp only; split <;> exact ⟨h.flag, h.held⟩
  | addChild =>
    unfold step
    dsimp only
    split <;> exact ⟨h.flag, h.held⟩
  | removeChild =>
    unfold step
    dsimp only
    split <;> exact ⟨h.flag, h.held⟩
  | go i a =>
    unfold step at hgood ⊢
    dsimp only at hgood ⊢
    unfold go at hgood ⊢
    cases hpc : w.pend[i]? with
    | none => exact h
    | some pc =>
      have hne := hnot hpc
      rw [hpc] at hgood
      dsimp only at hgood ⊢
      split
      · exact ⟨h.flag, h.held⟩
      · rename_i hd
        rw [if_neg hd] at hgood
        cases pc with
        | ask =>
          dsimp only
          split
          · exact ⟨h.flag, h.held⟩
          · exact ⟨h.flag, fun hc => by cases hc⟩
        | clean => exact ⟨h.flag, h.held⟩
        | rel n =>
          cases n with
          | zero => exact ⟨h.flag, h.held⟩
          | succ n => exact hdec (dodec := true) h.flag (fun hn => absurd hn hne) hgood
        | after =>
          dsimp only
          split
          · exact ⟨h.flag, fun hc => by cases hc⟩
          · split
            · exact ⟨h.flag, fun hc => by cases hc⟩
            · exact ⟨h.flag, fun hc => by cases hc⟩
        | mgr =>
          dsimp only
          obtain ⟨b, w', he⟩ : ∃ b w', inc w = (b, w') := ⟨_, _, rfl⟩
          rw [he]
          have := hinc he
          cases b
          · exact ⟨this.flag, this.held⟩
          · exact ⟨this.flag, fun _ => Nat.succ_pos _⟩
        | drop => exact hdec (dodec := true) h.flag (fun hn => absurd hn hne) hgood
        | del => exact ⟨h.flag, h.held⟩

/-- An object with the flag `flAutoDestroy`, once it was given to a reference, is asked to go as soon as no reference is left,
whatever childs it has. -/
theorem C62_auto (ops : List Op) (ho : ∀ o ∈ ops, Same o) (hr : (run ops (step (init true) .rawRef)).refs = 0) :
    Asked (run ops (step (init true) .rawRef)) := by
  have key : ∀ (l : List Op) (w : W), Inv w → Auto w → (∀ o ∈ l, Same o) → Auto (run l w) := by
    intro l
    induction l with
    | nil => intro w _ h _; exact h
    | cons o l ih =>
      intro w hi h ho
      exact ih _ (step_inv hi o) (step_auto hi h o (ho o List.mem_cons_self)) (fun x hx => ho x (List.mem_cons_of_mem _ hx))
  have := key ops _ (step_inv (init_inv true) .rawRef) ⟨rfl, fun _ => by decide⟩ ho
  intro hn
  have := this.held hn
  omega

/-- Nothing else asks an object to go: only the two calls of destroy, or the release of the last reference of an object with the
flag. -/
theorem C62_unasked (auto : Bool) (ops : List Op) (o : Op) (hn : ¬ Asked (run ops (init auto))) (h1 : o ≠ .destroy)
    (h2 : o ≠ .rawDestroy) (ha : Asked (step (run ops (init auto)) o)) :
    o = .release ∧ (step (run ops (init auto)) o).auto = true ∧ (step (run ops (init auto)) o).refs = 0 := by
  have hi := run_inv (ops := ops) (init_inv auto)
  generalize run ops (init auto) = w at hn ha hi ⊢
  have hst : w.st = .normal := Decidable.not_not.1 hn
  have hc := hi.cnt
  have hs := hi.shape
  simp only [Shape, hst] at hs
  obtain ⟨hp, ht, _, hd⟩ := hs
  rw [hp, ht] at hc
  simp only [total, List.map_nil, List.sum_nil, Bool.false_eq_true, if_false, Nat.add_zero] at hc
  have hinc : inc w = (true, { w with cnt := w.cnt + 1 }) := by
    unfold inc
    rw [if_neg (by omega), if_neg (by rw [hst]; decide)]
  have no : ∀ w' : W, w'.st = .normal → ¬ Asked w' := fun w' h h' => h' h
  cases o with
  | destroy => exact absurd rfl h1
  | rawDestroy => exact absurd rfl h2
  | copy =>
    exfalso
    unfold step at ha
    dsimp only at ha
    split at ha
    · exact no _ hst ha
    · rw [hinc] at ha
      exact no _ hst ha
  | rawRef =>
    exfalso
    unfold step at ha
    dsimp only at ha
    rw [if_neg (by omega), hinc] at ha
    exact no _ hst ha
  | release =>
    refine ⟨rfl, ?_⟩
    unfold step at ha ⊢
    dsimp only at ha ⊢
    split at ha
    · exact absurd ha (no _ hst)
    · rename_i hr
      rw [if_neg hr]
      unfold dec at ha ⊢
      dsimp only at ha ⊢
      rw [if_neg (by omega), if_neg (by simp; omega)] at ha ⊢
      simp only [if_true, hst, Bool.false_or, Bool.true_and] at ha ⊢
      split at ha
      · exact absurd ha (no _ rfl)
      · rename_i hask
        rw [if_neg hask]
        have hask : w.auto = true ∧ (w.cnt - 1 = 0 ∨ w.cnt - 1 = w.childs) := by
          by_cases h0 : w.cnt - 1 = 0 <;> cases hau : w.auto <;> simp [hau, h0] at hask
          · exact ⟨rfl, .inl h0⟩
          · exact ⟨rfl, .inr hask⟩
        split
        · exact ⟨hask.1, by show w.refs - 1 = 0; omega⟩
        · exact ⟨hask.1, by show w.refs - 1 = 0; omega⟩
  | thread =>
    exfalso
    unfold step at ha
    dsimp only at ha
    rw [ht] at ha
    exact no _ hst ha
  | setAuto on =>
    exfalso
    unfold step at ha
    dsimp only at ha
    rw [if_neg (by omega)] at ha
    exact no _ hst ha
  | setThread on =>
    exfalso
    unfold step at ha
    dsimp only at ha
    rw [if_neg (by omega)] at ha
    exact no _ hst ha
  | setCleanup =>
    exfalso
    unfold step at ha
    dsimp only at ha
    rw [if_neg (by omega)] at ha
    exact no _ hst ha
  | addChild =>
    exfalso
    unfold step at ha
    dsimp only at ha
    split at ha <;> exact no _ hst ha
  | removeChild =>
    exfalso
    unfold step at ha
    dsimp only at ha
    split at ha <;> exact no _ hst ha
  | go i a =>
    exfalso
    unfold step go at ha
    rw [hp] at ha
    exact no _ hst ha

/-! ## Examples -/

example : ¬ Asked (run [.rawRef, .addChild] (init true)) ∧ Asked (step (run [.rawRef, .addChild] (init true)) .release) := by
  unfold Asked
  decide +kernel

/-- With a thread and the manager: both are asked, the object is deleted at the end. -/
example : (run [.rawRef, .copy, .addChild, .setThread true, .setCleanup, .destroy, .go 0 true, .release, .thread, .go 0 true,
    .go 0 true, .go 0 true, .go 0 true, .go 0 true, .go 0 true, .destroy, .go 0 true] (init false)).deleted = 1 := by
  decide +kernel

example : Orderly [.rawRef, .addChild, .removeChild, .destroy, .go 0 true] (init true) := by
  refine ⟨by simp, by simp, by decide, by simp, by simp, trivial⟩

example : Unused (run [.rawRef, .release, .go 0 true, .go 0 true, .go 0 true, .go 0 true] (init true)) := by
  unfold Unused
  decide +kernel

end Verif.ObjLife
