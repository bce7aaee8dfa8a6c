import Verif.Command

namespace Verif.Command
variable {W : Type} [DecidableEq W]

/-- Exact description of one `Reply`: the callers from the back, skipping null workers, up to and including the first
that accepts. -/
theorem replyLoop_split {W : Type} (accept : Caller W → Bool) (l : List (Caller W)) :
    ∃ visited, l = visited ++ (replyLoop accept l).2 ∧ (replyLoop accept l).1 = visited.filter (fun r => r.worker.isSome) ∧
      ((replyLoop accept l).2 ≠ [] → ∃ r vs, visited = vs ++ [r] ∧ r.worker.isSome ∧ accept r = true ∧
          ∀ x ∈ vs, x.worker.isSome → accept x = false) ∧
      ((∀ x ∈ l, x.worker.isSome → accept x = false) → (replyLoop accept l).2 = []) := by
  induction l with
  | nil => exact ⟨[], by simp [replyLoop]⟩
  | cons r l ih =>
    obtain ⟨vs, h1, h2, h3, h4⟩ := ih
    simp only [replyLoop]
    split
    · rename_i hn
      have hnone : r.worker = none := by simpa using hn
      refine ⟨r :: vs, by simpa using h1, by simp [h2, hnone], ?_, ?_⟩
      · intro hne
        obtain ⟨x, ws, e1, e2, e3, e4⟩ := h3 hne
        refine ⟨x, r :: ws, by simp [e1], e2, e3, ?_⟩
        intro y hy hs
        rcases List.mem_cons.mp hy with rfl | hy
        · simp [hnone] at hs
        · exact e4 y hy hs
      · intro hall; exact h4 (fun x hx => hall x (by simp [hx]))
    · rename_i hn
      have hsome : r.worker.isSome = true := by
        cases hr : r.worker <;> simp [hr] at hn ⊢
      split
      · rename_i ha
        refine ⟨[r], by simp, by simp [hsome], ?_, ?_⟩
        · intro _; exact ⟨r, [], rfl, hsome, ha, by simp⟩
        · intro hall
          have := hall r (by simp) hsome
          rw [ha] at this; simp at this
      · rename_i ha
        refine ⟨r :: vs, by simpa using h1, by simp [h2, hsome], ?_, ?_⟩
        · intro hne
          obtain ⟨x, ws, e1, e2, e3, e4⟩ := h3 hne
          refine ⟨x, r :: ws, by simp [e1], e2, e3, ?_⟩
          intro y hy hs
          rcases List.mem_cons.mp hy with rfl | hy
          · simpa using ha
          · exact e4 y hy hs
        · intro hall; exact h4 (fun x hx => hall x (by simp [hx]))

/-! ### Callers -/

structure Cmd.Inv (c : Cmd W) : Prop where
  lt : ∀ r ∈ c.callers, r.reg < c.nreg
  ord : c.callers.Pairwise (fun a b => a.reg < b.reg)

omit [DecidableEq W] in
theorem cmd_inv_create : (Cmd.create : Cmd W).Inv := by constructor <;> simp [Cmd.create]

omit [DecidableEq W] in
/-- One `Reply` in terms of the callers list: a part of its end was visited. -/
theorem reply_split (c : Cmd W) (res) (accept : Caller W → Bool) :
    ∃ visited, c.callers = (c.reply res accept).2.callers ++ visited.reverse ∧
      (c.reply res accept).1 = visited.filter (fun r => r.worker.isSome) ∧
      ((c.reply res accept).2.callers ≠ [] → ∃ r vs, visited = vs ++ [r] ∧ r.worker.isSome ∧ accept r = true ∧
          ∀ x ∈ vs, x.worker.isSome → accept x = false) ∧
      ((∀ x ∈ c.callers, x.worker.isSome → accept x = false) → (c.reply res accept).2.callers = []) := by
  have hc : (if res ≥ 0 then c.setResult res else c).callers = c.callers := by split <;> rfl
  obtain ⟨vs, h1, h2, h3, h4⟩ := replyLoop_split accept c.callers.reverse
  refine ⟨vs, ?_, ?_, ?_, ?_⟩
  · simp only [Cmd.reply, hc]
    rw [← List.reverse_append, ← h1, List.reverse_reverse]
  · simp only [Cmd.reply, hc]; exact h2
  · simp only [Cmd.reply, hc]
    intro hne; exact h3 (by simpa using hne)
  · simp only [Cmd.reply, hc]
    intro hall
    rw [h4 (fun x hx => hall x (by simpa using hx))]; rfl

omit [DecidableEq W] in
theorem reply_nreg (c : Cmd W) (res) (accept : Caller W → Bool) : (c.reply res accept).2.nreg = c.nreg := by
  simp only [Cmd.reply]; split <;> rfl

theorem cmd_inv_step {c : Cmd W} (h : c.Inv) (op) : (c.step op).2.Inv := by
  cases op with
  | add w exe =>
    constructor
    · intro r hr
      simp only [Cmd.step, Cmd.addCaller, List.mem_append, List.mem_singleton] at hr ⊢
      rcases hr with hr | rfl
      · have := h.lt r hr; omega
      · simp
    · simp only [Cmd.step, Cmd.addCaller]
      rw [List.pairwise_append]
      refine ⟨h.ord, by simp, ?_⟩
      intro a ha b hb
      simp only [List.mem_singleton] at hb
      subst hb; exact h.lt a ha
  | remove w exe =>
    exact ⟨fun r hr => h.lt r ((List.mem_filter.mp hr).1), h.ord.sublist List.filter_sublist⟩
  | reply res accept =>
    obtain ⟨vs, h1, _⟩ := reply_split c res accept
    have hsub : (c.reply res accept).2.callers.Sublist c.callers := by
      conv => rhs; rw [h1]
      exact List.sublist_append_left _ _
    exact ⟨fun r hr => by have := h.lt r (hsub.subset hr); simpa [Cmd.step, reply_nreg] using this, h.ord.sublist hsub⟩

theorem cmd_inv_run (ops : List (COp W)) : ∀ {c : Cmd W}, c.Inv → (c.run ops).2.Inv := by
  induction ops with
  | nil => intro c h; exact h
  | cons op ops ih => intro c h; exact ih (cmd_inv_step h op)

/-- The registrations in `l`. -/
def regs (l : List (Caller W)) : List Nat := l.map Caller.reg

theorem step_regs {c : Cmd W} (h : c.Inv) (op) :
    (∀ x ∈ (c.step op).1, x ∈ c.callers) ∧
    (∀ x ∈ (c.step op).2.callers, x ∈ c.callers ∨ x.reg = c.nreg) ∧
    (regs (c.step op).1).Nodup ∧ (∀ x ∈ (c.step op).1, ∀ y ∈ (c.step op).2.callers, y.reg < x.reg) ∧
    c.nreg ≤ (c.step op).2.nreg := by
  cases op with
  | add w exe =>
    refine ⟨by simp [Cmd.step], ?_, by simp [Cmd.step, regs], by simp [Cmd.step], by simp [Cmd.step, Cmd.addCaller]⟩
    intro x hx
    simp only [Cmd.step, Cmd.addCaller, List.mem_append, List.mem_singleton] at hx
    rcases hx with hx | rfl
    · left; exact hx
    · right; rfl
  | remove w exe =>
    refine ⟨by simp [Cmd.step], ?_, by simp [Cmd.step, regs], by simp [Cmd.step], by simp [Cmd.step, Cmd.removeCaller]⟩
    intro x hx
    left; exact (List.mem_filter.mp hx).1
  | reply res accept =>
    obtain ⟨vs, h1, h2, _⟩ := reply_split c res accept
    have hord := h.ord
    rw [h1, List.pairwise_append] at hord
    refine ⟨?_, ?_, ?_, ?_, ?_⟩
    · intro x hx
      simp only [Cmd.step] at hx
      rw [h2] at hx
      rw [h1]
      have := (List.mem_filter.mp hx).1
      simp [this]
    · intro x hx
      left
      simp only [Cmd.step] at hx
      rw [h1]; simp [hx]
    · simp only [Cmd.step, h2, regs]
      have : vs.Pairwise (fun a b => b.reg < a.reg) := by
        have := hord.2.1
        rwa [List.pairwise_reverse] at this
      have h3 := this.filter (fun r => r.worker.isSome)
      rw [List.Nodup, List.pairwise_map]
      exact h3.imp (fun {a b} hab => by omega)
    · intro x hx y hy
      simp only [Cmd.step] at hx hy
      rw [h2] at hx
      exact hord.2.2 y hy x (by simpa using (List.mem_filter.mp hx).1)
    · simp [Cmd.step, reply_nreg]

theorem run_informed (ops : List (COp W)) : ∀ {c : Cmd W}, c.Inv →
    (∀ x ∈ (c.run ops).1.flatten, x ∈ c.callers ∨ c.nreg ≤ x.reg) ∧ (regs (c.run ops).1.flatten).Nodup ∧
    (∀ x ∈ (c.run ops).1.flatten, ∀ y ∈ (c.run ops).2.callers, x.reg ≠ y.reg) := by
  induction ops with
  | nil => intro c h; simp [Cmd.run, regs]
  | cons op ops ih =>
    intro c h
    obtain ⟨s1, s2, s3, s4, s5⟩ := step_regs h op
    obtain ⟨i1, i2, i3⟩ := ih (cmd_inv_step h op)
    have hfut : ∀ x ∈ ((c.step op).2.run ops).1.flatten, ∀ y ∈ (c.step op).1, x.reg ≠ y.reg := by
      intro x hx y hy
      rcases i1 x hx with hx | hx
      · have := s4 y hy x hx; omega
      · have := h.lt y (s1 y hy); omega
    have hfin : ∀ y ∈ ((c.step op).2.run ops).2.callers, y ∈ (c.step op).2.callers ∨ (c.step op).2.nreg ≤ y.reg := by
      have key : ∀ (ops : List (COp W)) (c : Cmd W), c.Inv → ∀ y ∈ (c.run ops).2.callers, y ∈ c.callers ∨ c.nreg ≤ y.reg := by
        intro ops
        induction ops with
        | nil => intro c _ y hy; left; exact hy
        | cons op ops ih =>
          intro c hc y hy
          obtain ⟨_, t2, _, _, t5⟩ := step_regs hc op
          rcases ih _ (cmd_inv_step hc op) y hy with hy | hy
          · rcases t2 y hy with h | h
            · left; exact h
            · right; omega
          · right; omega
      exact key ops _ (cmd_inv_step h op)
    refine ⟨?_, ?_, ?_⟩
    · intro x hx
      simp only [Cmd.run, List.flatten_cons, List.mem_append] at hx
      rcases hx with hx | hx
      · left; exact s1 x hx
      · rcases i1 x hx with hx | hx
        · rcases s2 x hx with h | h
          · left; exact h
          · right; omega
        · right; omega
    · simp only [Cmd.run, List.flatten_cons, regs, List.map_append]
      rw [List.nodup_append]
      refine ⟨s3, i2, ?_⟩
      intro a ha b hb
      obtain ⟨x, hx, rfl⟩ := List.mem_map.mp ha
      obtain ⟨y, hy, rfl⟩ := List.mem_map.mp hb
      exact (hfut y hy x hx).symm
    · intro x hx y hy
      simp only [Cmd.run, List.flatten_cons, List.mem_append] at hx hy
      rcases hx with hx | hx
      · rcases hfin y hy with hy | hy
        · have := s4 x hx y hy; omega
        · have := h.lt x (s1 x hx); omega
      · exact i3 x hx y hy

theorem cmd_run_append (a b : List (COp W)) : ∀ {c : Cmd W},
    c.run (a ++ b) = ((c.run a).1 ++ ((c.run a).2.run b).1, ((c.run a).2.run b).2) := by
  induction a with
  | nil => intro c; rfl
  | cons op a ih => intro c; simp [Cmd.run, ih]

/-! ### Queue -/

theorem takeFirst_none {C : Type} (p : Rec C → Bool) (l : List (Rec C)) (h : ∀ r ∈ l, p r = false) :
    takeFirst p l = (none, l) := by
  induction l with
  | nil => rfl
  | cons r l ih =>
    simp only [takeFirst, h r (by simp)]
    simp [ih (fun x hx => h x (by simp [hx]))]

theorem takeFirst_some {C : Type} (p : Rec C → Bool) (l1 : List (Rec C)) (r : Rec C) (l2 : List (Rec C))
    (h : ∀ x ∈ l1, p x = false) (hr : p r = true) :
    takeFirst p (l1 ++ r :: l2) = (some r, l1 ++ l2) := by
  induction l1 with
  | nil => simp [takeFirst, hr]
  | cons x l ih =>
    simp only [List.cons_append, takeFirst, h x (by simp)]
    simp [ih (fun y hy => h y (by simp [hy]))]

theorem takeFirst_cases {C : Type} (p : Rec C → Bool) (l : List (Rec C)) :
    ((∀ r ∈ l, p r = false) ∧ takeFirst p l = (none, l)) ∨
    ∃ l1 r l2, l = l1 ++ r :: l2 ∧ (∀ x ∈ l1, p x = false) ∧ p r = true ∧ takeFirst p l = (some r, l1 ++ l2) := by
  induction l with
  | nil => left; simp [takeFirst]
  | cons x l ih =>
    by_cases hx : p x = true
    · right; exact ⟨[], x, l, rfl, by simp, hx, by simp [takeFirst, hx]⟩
    · have hx' : p x = false := by simpa using hx
      rcases ih with ⟨h1, h2⟩ | ⟨l1, r, l2, h1, h2, h3, h4⟩
      · left
        refine ⟨?_, by simp [takeFirst, hx', h2]⟩
        intro r hr
        rcases List.mem_cons.mp hr with rfl | hr
        · exact hx'
        · exact h1 r hr
      · right
        refine ⟨x :: l1, r, l2, by simp [h1], ?_, h3, by simp [takeFirst, hx', h4]⟩
        intro y hy
        rcases List.mem_cons.mp hy with rfl | hy
        · exact hx'
        · exact h2 y hy

theorem nextId_spec {n : Nat} (c : Nat) (hc : c = if n = 0 then 0 else (n - 1) % (2 ^ 32 - 1) + 1) :
    nextId c = (n + 1 - 1) % (2 ^ 32 - 1) + 1 := by
  unfold nextId
  by_cases hn : n = 0
  · subst hn; rw [if_pos rfl] at hc; subst hc; rfl
  · rw [if_neg hn] at hc
    simp only [Nat.add_sub_cancel]
    have h1 : (n - 1) % (2 ^ 32 - 1) < 2 ^ 32 - 1 := Nat.mod_lt _ (by decide)
    have h2 : n % (2 ^ 32 - 1) = if (n - 1) % (2 ^ 32 - 1) + 1 = 2 ^ 32 - 1 then 0 else (n - 1) % (2 ^ 32 - 1) + 1 := by
      split <;> omega
    rw [h2, hc]
    split <;> split <;> omega

variable {C : Type} [DecidableEq C]

/-- Invariant: ids are determined by the push number, push numbers increase along the list. -/
structure CQ.Inv (q : CQ C) : Prop where
  ctr : q.idCounter = if q.pushes = 0 then 0 else (q.pushes - 1) % (2 ^ 32 - 1) + 1
  ids : ∀ r ∈ q.list, 1 ≤ r.seq ∧ r.seq ≤ q.pushes ∧ r.id = (r.seq - 1) % (2 ^ 32 - 1) + 1
  ord : q.list.Pairwise (fun a b => a.seq < b.seq)

omit [DecidableEq C] in
theorem CQ.Inv.sub {q : CQ C} (h : q.Inv) {l : List (Rec C)} (hl : l.Sublist q.list) : CQ.Inv { q with list := l } :=
  ⟨h.ctr, fun r hr => h.ids r (hl.subset hr), h.ord.sublist hl⟩

omit [DecidableEq C] in
theorem inv_create (k : Kind) : (CQ.create k : CQ C).Inv := by
  constructor <;> simp [CQ.create]

omit [DecidableEq C] in
theorem inv_push {q : CQ C} (h : q.Inv) (c k) : (q.push c k).2.Inv := by
  have hid := nextId_spec _ h.ctr
  constructor
  · simp only [CQ.push, hid]; simp
  · intro r hr
    simp only [CQ.push, List.mem_append, List.mem_singleton] at hr
    rcases hr with hr | rfl
    · have := h.ids r hr
      simp only [CQ.push]; exact ⟨this.1, by omega, this.2.2⟩
    · simp only [CQ.push]
      exact ⟨by omega, Nat.le_refl _, hid⟩
  · simp only [CQ.push]
    rw [List.pairwise_append]
    refine ⟨h.ord, by simp, ?_⟩
    intro a ha b hb
    simp only [List.mem_singleton] at hb
    subst hb
    have := h.ids a ha
    simp only; omega

omit [DecidableEq C] in
theorem takeFirst_sublist (p : Rec C → Bool) (l : List (Rec C)) : (takeFirst p l).2.Sublist l := by
  rcases takeFirst_cases p l with ⟨_, h⟩ | ⟨l1, r, l2, h1, _, _, h4⟩
  · rw [h]; exact List.Sublist.refl _
  · rw [h4, h1]
    exact List.Sublist.append (List.Sublist.refl _) (List.sublist_cons_self _ _)

theorem changeLoop_map (c : C) (k : Kind) (l : List (Rec C)) :
    (changeLoop c k l).2.map (fun r => (r.cmd, r.id, r.seq)) = l.map (fun r => (r.cmd, r.id, r.seq)) := by
  induction l with
  | nil => rfl
  | cons r l ih =>
    simp only [changeLoop]
    split
    · simp
    · simpa using ih

theorem changeLoop_none (c : C) (k : Kind) (l : List (Rec C)) (h : (changeLoop c k l).1 = none) :
    ∀ r ∈ l, r.cmd ≠ c := by
  induction l with
  | nil => simp
  | cons r l ih =>
    simp only [changeLoop] at h
    split at h
    · simp at h
    · rename_i hne
      intro x hx
      rcases List.mem_cons.mp hx with rfl | hx
      · exact hne
      · exact ih h x hx

theorem inv_changeKind {q : CQ C} (h : q.Inv) (c k) : (q.changeKind c k).2.Inv := by
  unfold CQ.changeKind
  split
  · rename_i id l he
    have hm := changeLoop_map c k q.list
    rw [he] at hm
    simp only at hm
    constructor
    · exact h.ctr
    · intro r hr
      have : (r.cmd, r.id, r.seq) ∈ l.map (fun r => (r.cmd, r.id, r.seq)) := List.mem_map_of_mem hr
      rw [hm, List.mem_map] at this
      obtain ⟨r', h1, h2⟩ := this
      simp only [Prod.mk.injEq] at h2
      rw [← h2.2.1, ← h2.2.2]; exact h.ids r' h1
    · have h1 : (q.list.map (fun r => (r.cmd, r.id, r.seq))).Pairwise (fun a b => a.2.2 < b.2.2) := by
        rw [List.pairwise_map]; exact h.ord
      rw [← hm, List.pairwise_map] at h1
      exact h1
  · exact inv_push h c k

theorem inv_step {q : CQ C} (h : q.Inv) (op) : (q.step op).2.Inv := by
  cases op with
  | push c k => exact inv_push h c k
  | pop =>
    simp only [CQ.step, CQ.pop]
    split
    · exact h
    · rename_i r rest he
      exact h.sub (by rw [he]; exact List.sublist_cons_self _ _)
  | popWithKind k => exact h.sub (takeFirst_sublist _ _)
  | popWithId i => exact h.sub (takeFirst_sublist _ _)
  | changeKind c k => exact inv_changeKind h c k
  | cleanup res => exact h.sub (List.nil_sublist _)
  | replyTimedout t => exact h.sub (List.filter_sublist)

theorem inv_run (ops : List (QOp C)) : ∀ {q : CQ C}, q.Inv → (q.run ops).2.Inv := by
  induction ops with
  | nil => intro q h; exact h
  | cons op ops ih => intro q h; exact ih (inv_step h op)

end Verif.Command
