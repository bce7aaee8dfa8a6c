import Verif.Spec.Depend
/-!
# C119: objects are told about the destruction of what they depend on
-/

namespace Verif.Depend

theorem run_append (s : St) (a b : List Op) : run s (a ++ b) = run (run s a) b := by
  simp [run, List.foldl_append]

theorem run_snoc (s : St) (a : List Op) (o : Op) : run s (a ++ [o]) = step (run s a) o := by
  simp [run, List.foldl_append]

/-- Induction over the end of the run. -/
theorem snoc_ind {motive : List Op → Prop} (nil : motive []) (snoc : ∀ a o, motive a → motive (a ++ [o])) :
    ∀ ops, motive ops := by
  have : ∀ (n : Nat) (ops : List Op), ops.length = n → motive ops := by
    intro n
    induction n with
    | zero => intro ops h; rw [List.length_eq_zero_iff.1 h]; exact nil
    | succ n ih =>
      intro ops hl
      rcases List.eq_nil_or_concat ops with rfl | ⟨a, o, rfl⟩
      · simp at hl
      · rw [List.concat_eq_append] at *
        exact snoc a o (ih a (by simpa using hl))
  exact fun ops => this _ ops rfl

/-! ## Wake-up and order of destruction -/

theorem process_queue (w : Nat → Bool) (s : St) : (process w s).queue = none := by
  unfold process
  dsimp only
  split <;> rfl

theorem process_pending (w : Nat → Bool) (s : St) : (process w s).pending = s.pending := by
  unfold process
  dsimp only
  split <;> rfl

theorem process_deps (w : Nat → Bool) (s : St) :
    (process w s).deps = s.deps.filter (fun p => !(p.ftgt || p.fsrc)) := by
  unfold process
  dsimp only
  split <;> rfl

/-- New entries of the log: who is told, dropped pairs and receivers, then the objects. -/
theorem process_log (w : Nat → Bool) (s : St) :
    (process w s).log = s.log ++ ((s.deps.filter (·.ftgt)).map (tell w) ++
      (s.deps.filter (fun p => !p.ftgt && p.fsrc)).map (fun p => Act.drop p.src p.tgt) ++
      (s.receivers.filter (fun r => (s.queue.getD []).contains r)).map .forget) ++
      (s.queue.getD []).map .destroy := by
  unfold process
  dsimp only
  split
  · rename_i e
    rw [e]
    simp
  · rename_i v e
    rw [e]
    simp [List.append_assoc]

theorem wake {ops : List Op} (h : (run init ops).queue ≠ none) : 0 < (run init ops).pending := by
  have : ∀ (ops : List Op), ((run init ops).queue ≠ none → 0 < (run init ops).pending) := by
    intro ops
    induction ops using snoc_ind with
    | nil => intro h; exact absurd rfl h
    | snoc a o ih =>
      rw [run_snoc]
      cases o with
      | register x y b => exact ih
      | unregister x y b => exact ih
      | listen r => exact ih
      | destroy x =>
        intro _
        simp only [step, destroyObject]
        split
        · exact Nat.succ_pos _
        · rename_i hn
          apply ih
          intro e
          rw [e] at hn
          exact hn rfl
      | event w =>
        intro h
        simp only [step] at h ⊢
        split at h
        · rename_i hp
          rw [if_pos hp]
          exact ih h
        · exact absurd (process_queue _ _) h
      | halt w => intro h; exact absurd (process_queue _ _) h
  exact this ops h

theorem destroyed_append (a b : List Act) : destroyed (a ++ b) = destroyed a ++ destroyed b := by
  induction a with
  | nil => rfl
  | cons x a ih => cases x <;> simp [destroyed, ih]

theorem destroyed_map (l : List Nat) : destroyed (l.map .destroy) = l := by
  induction l with
  | nil => rfl
  | cons x l ih => simp [destroyed, ih]

theorem destroyed_none {l : List Act} (h : ∀ a ∈ l, ¬ IsDestroy a) : destroyed l = [] := by
  induction l with
  | nil => rfl
  | cons x l ih =>
    have hx := h x (by simp)
    have := ih (fun a ha => h a (by simp [ha]))
    cases x with
    | destroy o => exact absurd trivial hx
    | _ => exact this

theorem head_no_destroy (w : Nat → Bool) (s : St) : ∀ a ∈ (s.deps.filter (·.ftgt)).map (tell w) ++
      (s.deps.filter (fun p => !p.ftgt && p.fsrc)).map (fun p => Act.drop p.src p.tgt) ++
      (s.receivers.filter (fun r => (s.queue.getD []).contains r)).map .forget, ¬ IsDestroy a := by
  intro a ha
  rcases List.mem_append.1 ha with ha | ha
  · rcases List.mem_append.1 ha with ha | ha
    · obtain ⟨p, _, rfl⟩ := List.mem_map.1 ha
      unfold tell
      split <;> (intro h; exact h)
    · obtain ⟨p, _, rfl⟩ := List.mem_map.1 ha
      intro h; exact h
  · obtain ⟨p, _, rfl⟩ := List.mem_map.1 ha
    intro h; exact h

/-- Objects are destroyed in the order of the requests, each once for each request; those not yet
destroyed wait in the queue, and then an event is on the way. -/
theorem C119_destroyed (ops : List Op) :
    destroyed (run init ops).log ++ (run init ops).queue.getD [] = ops.flatMap kills ∧
    ((run init ops).queue ≠ none → 0 < (run init ops).pending) := by
  refine ⟨?_, wake⟩
  have hp : ∀ w s, destroyed (process w s).log ++ (process w s).queue.getD [] =
      destroyed s.log ++ s.queue.getD [] := by
    intro w s
    rw [process_log, process_queue, destroyed_append, destroyed_append, destroyed_map,
      destroyed_none (head_no_destroy w s)]
    simp
  induction ops using snoc_ind with
  | nil => rfl
  | snoc a o ih =>
    rw [run_snoc, List.flatMap_append, ← ih]
    cases o with
    | register x y b => simp [step, kills]
    | unregister x y b => simp [step, kills]
    | listen r => simp [step, kills]
    | destroy x => simp [step, destroyObject, kills]
    | event w =>
      simp only [step]
      split
      · simp [kills]
      · rw [hp]; simp [kills]
    | halt w => simp only [step]; rw [hp]; simp [kills]

/-! ## Who is told -/

/-- A registration for which nothing was destroyed. -/
def Fresh (s t : Nat) (d : List Pair) : Prop := ⟨s, t, false, false⟩ ∈ d

/-- A registration whose target is to be destroyed. -/
def Doomed (s t : Nat) (d : List Pair) : Prop := ∃ p ∈ d, p.src = s ∧ p.tgt = t ∧ p.ftgt = true

theorem mem_add {p : Pair} {d : List Pair} (h : p ∈ d) (a b : Nat) : p ∈ add d a b :=
  List.mem_append_left _ h

theorem mem_register {p : Pair} {d : List Pair} (h : p ∈ d) (a b : Nat) (bi : Bool) : p ∈ register d a b bi := by
  unfold register
  dsimp only
  split
  · exact mem_add (mem_add h _ _) _ _
  · exact mem_add h _ _

theorem mem_remove {p : Pair} {d : List Pair} (h : p ∈ d) {a b : Nat} (hn : (a, b) ≠ (p.src, p.tgt)) :
    p ∈ remove d a b := by
  unfold remove
  rw [List.mem_eraseP_of_neg]
  · exact h
  · simp only [Bool.and_eq_true, decide_eq_true_eq]
    rintro ⟨rfl, rfl⟩
    exact hn rfl

theorem mem_unregister {p : Pair} {d : List Pair} (h : p ∈ d) {a b : Nat} {bi : Bool}
    (hn : (p.src, p.tgt) ∉ unregs (.unregister a b bi)) : p ∈ unregister d a b bi := by
  unfold unregister
  cases bi with
  | false =>
    simp only [unregs, List.mem_singleton] at hn
    exact mem_remove h (fun e => hn e.symm)
  | true =>
    simp only [unregs, List.mem_cons, List.not_mem_nil, or_false, not_or] at hn
    exact mem_remove (mem_remove h (fun e => hn.1 e.symm)) (fun e => hn.2 e.symm)

theorem fresh_step {s t : Nat} {x : St} {o : Op} (h : Fresh s t x.deps) (hu : (s, t) ∉ unregs o)
    (h1 : s ∉ kills o) (h2 : t ∉ kills o) : Fresh s t (step x o).deps := by
  cases o with
  | register a b bi => exact mem_register h a b bi
  | unregister a b bi => exact mem_unregister h hu
  | listen r => exact h
  | destroy o =>
    simp only [kills, List.mem_singleton] at h1 h2
    show _ ∈ x.deps.map (mark o)
    refine List.mem_map.2 ⟨_, h, ?_⟩
    simp [mark, h1, h2]
  | event w =>
    simp only [step]
    split
    · exact h
    · rw [process_deps]
      exact List.mem_filter.2 ⟨h, rfl⟩
  | halt w =>
    simp only [step]
    rw [process_deps]
    exact List.mem_filter.2 ⟨h, rfl⟩

theorem doomed_step {s t : Nat} {x : St} {o : Op} (h : Doomed s t x.deps) (hq : t ∈ x.queue.getD [])
    (hu : (s, t) ∉ unregs o) (hp : ¬ Processes o) :
    Doomed s t (step x o).deps ∧ t ∈ (step x o).queue.getD [] := by
  obtain ⟨p, hm, rfl, rfl, hf⟩ := h
  cases o with
  | register a b bi => exact ⟨⟨p, mem_register hm a b bi, rfl, rfl, hf⟩, hq⟩
  | unregister a b bi => exact ⟨⟨p, mem_unregister hm hu, rfl, rfl, hf⟩, hq⟩
  | listen r => exact ⟨⟨p, hm, rfl, rfl, hf⟩, hq⟩
  | destroy o =>
    refine ⟨⟨mark o p, List.mem_map.2 ⟨p, hm, rfl⟩, rfl, rfl, ?_⟩, ?_⟩
    · simp [mark, hf]
    · simp only [step, destroyObject, Option.getD_some]
      exact List.mem_append_left _ hq
  | event w => exact absurd trivial hp
  | halt w => exact absurd trivial hp

theorem fresh_registered (d : List Pair) {o : Op} {x : St} {s t : Nat} (hd : d = x.deps)
    (h : (s, t) ∈ regs o) : Fresh s t (step x o).deps := by
  subst hd
  cases o with
  | register a b bi =>
    cases bi with
    | false =>
      simp only [regs, List.mem_singleton, Prod.mk.injEq] at h
      obtain ⟨rfl, rfl⟩ := h
      show _ ∈ register x.deps s t false
      simp [register, add]
    | true =>
      simp only [regs, List.mem_cons, List.not_mem_nil, or_false, Prod.mk.injEq] at h
      show _ ∈ register x.deps a b true
      rcases h with ⟨rfl, rfl⟩ | ⟨rfl, rfl⟩ <;> simp [register, add]
  | _ => simp [regs] at h

/-- An object that registered its dependency is told when the target is destroyed, by its thread or
directly, before any object of this turn is destroyed; the target is destroyed in the same turn. -/
theorem C119_told (a b c : List Op) (r o : Op) (s t : Nat) (hr : (s, t) ∈ regs r)
    (hb : ∀ x ∈ b, (s, t) ∉ unregs x ∧ s ∉ kills x ∧ t ∉ kills x)
    (hc : ∀ x ∈ c, (s, t) ∉ unregs x ∧ ¬ Processes x) (ho : Processes o) :
    let before := run init (a ++ r :: (b ++ .destroy t :: c))
    ∃ l1 l2, (step before o).log = before.log ++ l1 ++ l2 ∧ (∃ x ∈ l1, Tells s t x) ∧
      .destroy t ∈ l2 ∧ ∀ x ∈ l1, ¬ IsDestroy x := by
  intro before
  have hbefore : before = run init (a ++ r :: (b ++ .destroy t :: c)) := rfl
  have e1 : before = run (step (run (step (run init a) r) b) (.destroy t)) c := by
    rw [hbefore, run_append]
    show run (step (run init a) r) (b ++ .destroy t :: c) = _
    rw [run_append]
    rfl
  have h1 : Fresh s t (step (run init a) r).deps := fresh_registered _ rfl hr
  have h2 : ∀ (b : List Op) (x : St), (∀ x ∈ b, (s, t) ∉ unregs x ∧ s ∉ kills x ∧ t ∉ kills x) →
      Fresh s t x.deps → Fresh s t (run x b).deps := by
    intro b
    induction b with
    | nil => intro x _ h; exact h
    | cons o b ih =>
      intro x hb h
      obtain ⟨u1, u2, u3⟩ := hb o (by simp)
      exact ih (step x o) (fun y hy => hb y (by simp [hy])) (fresh_step h u1 u2 u3)
  have h3 := h2 b _ hb h1
  have h4 : Doomed s t (step (run (step (run init a) r) b) (.destroy t)).deps ∧
      t ∈ (step (run (step (run init a) r) b) (.destroy t)).queue.getD [] := by
    constructor
    · refine ⟨mark t ⟨s, t, false, false⟩, List.mem_map.2 ⟨_, h3, rfl⟩, rfl, rfl, ?_⟩
      simp [mark]
    · simp [step, destroyObject]
  have h5 : ∀ (c : List Op) (x : St), (∀ x ∈ c, (s, t) ∉ unregs x ∧ ¬ Processes x) →
      Doomed s t x.deps ∧ t ∈ x.queue.getD [] → Doomed s t (run x c).deps ∧ t ∈ (run x c).queue.getD [] := by
    intro c
    induction c with
    | nil => intro x _ h; exact h
    | cons o c ih =>
      intro x hc h
      obtain ⟨u1, u2⟩ := hc o (by simp)
      exact ih (step x o) (fun y hy => hc y (by simp [hy])) (doomed_step h.1 h.2 u1 u2)
  have h6 := h5 c _ hc h4
  rw [← e1] at h6
  obtain ⟨⟨p, hm, hps, hpt, hf⟩, hq⟩ := h6
  have key : ∀ (w : Nat → Bool) (x : St), x.deps = before.deps → x.queue = before.queue → x.log = before.log →
      ∃ l1 l2, (process w x).log = before.log ++ l1 ++ l2 ∧ (∃ y ∈ l1, Tells s t y) ∧
        .destroy t ∈ l2 ∧ ∀ y ∈ l1, ¬ IsDestroy y := by
    intro w x hd hqx hl
    rw [process_log, hl]
    refine ⟨_, _, rfl, ⟨tell w p, ?_, ?_⟩, ?_, head_no_destroy w x⟩
    · apply List.mem_append_left
      apply List.mem_append_left
      refine List.mem_map.2 ⟨p, List.mem_filter.2 ⟨?_, hf⟩, rfl⟩
      rw [hd]; exact hm
    · unfold tell Tells
      rw [hps, hpt]
      split
      · exact Or.inl rfl
      · exact Or.inr rfl
    · rw [hqx]
      exact List.mem_map.2 ⟨t, hq, rfl⟩
  cases o with
  | event w =>
    have hne : before.queue ≠ none := by
      intro e
      rw [e] at hq
      cases hq
    have hpos : 0 < before.pending := wake hne
    show ∃ l1 l2, (if before.pending = 0 then before else process w { before with pending := before.pending - 1 }).log = _ ∧ _
    rw [if_neg (by omega)]
    exact key w _ rfl rfl rfl
  | halt w => exact key w before rfl rfl rfl
  | register x y z => exact absurd ho (by simp [Processes])
  | unregister x y z => exact absurd ho (by simp [Processes])
  | listen x => exact absurd ho (by simp [Processes])
  | destroy x => exact absurd ho (by simp [Processes])

example : (1, 2) ∈ regs (.register 1 2 false) ∧
    (∀ x ∈ [Op.listen 1, .event (fun _ => true)], (1, 2) ∉ unregs x ∧ 1 ∉ kills x ∧ 2 ∉ kills x) ∧
    (∀ x ∈ [Op.destroy 1], (1, 2) ∉ unregs x ∧ ¬ Processes x) := by
  refine ⟨by simp [regs], ?_, ?_⟩
  · intro x hx
    simp only [List.mem_cons, List.not_mem_nil, or_false] at hx
    rcases hx with rfl | rfl <;> simp [unregs, kills]
  · intro x hx
    rw [List.mem_singleton.1 hx]
    simp [unregs, Processes]

/-! ## Nobody is told without reason -/

/-- How often a pair is in the list. -/
def cnt (s t : Nat) (d : List Pair) : Nat := d.countP (fun p => p.src = s && p.tgt = t)

theorem cnt_append (s t : Nat) (a b : List Pair) : cnt s t (a ++ b) = cnt s t a + cnt s t b :=
  List.countP_append

theorem cnt_single (s t a b : Nat) (x y : Bool) :
    cnt s t [⟨a, b, x, y⟩] = if (a, b) = (s, t) then 1 else 0 := by
  by_cases h : a = s ∧ b = t
  · obtain ⟨rfl, rfl⟩ := h
    simp [cnt]
  · have : (a, b) ≠ (s, t) := fun e => h (by simpa using e)
    rw [if_neg this]
    simp only [cnt, List.countP_singleton]
    rw [if_neg]
    simpa using h

theorem cnt_mark (s t o : Nat) (d : List Pair) : cnt s t (d.map (mark o)) = cnt s t d := by
  unfold cnt
  rw [List.countP_map]
  rfl

theorem cnt_remove_le (s t a b : Nat) (d : List Pair) : cnt s t (remove d a b) ≤ cnt s t d :=
  List.Sublist.countP_le (List.eraseP_sublist)

theorem cnt_remove (s t : Nat) (d : List Pair) : cnt s t (remove d s t) = cnt s t d - 1 := by
  unfold cnt remove
  induction d with
  | nil => rfl
  | cons p d ih =>
    by_cases h : (p.src = s && p.tgt = t) = true
    · rw [List.eraseP_cons_of_pos (p := fun p : Pair => p.src = s && p.tgt = t) h, List.countP_cons_of_pos (p := fun p : Pair => p.src = s && p.tgt = t) h]
      omega
    · rw [List.eraseP_cons_of_neg (p := fun p : Pair => p.src = s && p.tgt = t) h, List.countP_cons_of_neg (p := fun p : Pair => p.src = s && p.tgt = t) h, ih,
        List.countP_cons_of_neg (p := fun p : Pair => p.src = s && p.tgt = t) h]

theorem told_append (s t : Nat) (a b : List Act) : toldCount s t (a ++ b) = toldCount s t a + toldCount s t b :=
  List.countP_append

theorem told_none {s t : Nat} {l : List Act} (h : ∀ a ∈ l, ¬ Tells s t a) : toldCount s t l = 0 := by
  unfold toldCount
  rw [List.countP_eq_zero]
  intro a ha
  simpa using h a ha

theorem told_map (w : Nat → Bool) (s t : Nat) (d : List Pair) : toldCount s t (d.map (tell w)) = cnt s t d := by
  unfold toldCount cnt
  rw [List.countP_map]
  congr 1
  funext p
  simp only [Function.comp]
  rw [Bool.eq_iff_iff]
  simp only [decide_eq_true_eq, Bool.and_eq_true]
  unfold tell Tells
  split <;> simp

/-- Telling and the pairs kept. -/
theorem told_process (w : Nat → Bool) (x : St) (s t : Nat) :
    toldCount s t (process w x).log = toldCount s t x.log + cnt s t (x.deps.filter (·.ftgt)) := by
  rw [process_log, told_append, told_append, told_append, told_append, told_map]
  rw [told_none (l := (x.deps.filter _).map (fun p => Act.drop p.src p.tgt)),
    told_none (l := (x.receivers.filter _).map _), told_none (l := (x.queue.getD []).map _)]
  · omega
  all_goals
    intro a ha
    obtain ⟨p, _, rfl⟩ := List.mem_map.1 ha
    simp [Tells]

theorem cnt_parts (s t : Nat) (d : List Pair) :
    cnt s t (d.filter (·.ftgt)) + cnt s t (d.filter (fun p => !(p.ftgt || p.fsrc))) ≤ cnt s t d := by
  induction d with
  | nil => exact Nat.le_refl _
  | cons p d ih =>
    obtain ⟨k, e⟩ : ∃ k, ∀ l, cnt s t (p :: l) = cnt s t l + k := by
      refine ⟨cnt s t [p], fun l => ?_⟩
      rw [← List.singleton_append, cnt_append]; omega
    cases h1 : p.ftgt <;> cases h2 : p.fsrc <;> simp only [List.filter_cons, h1, h2, Bool.or_self,
      Bool.or_true, Bool.true_or, Bool.or_false, Bool.false_or, Bool.not_true, Bool.not_false, if_true,
      Bool.false_eq_true, if_false, e] <;> omega

theorem cnt_register (s t : Nat) (d : List Pair) (a b : Nat) (bi : Bool) :
    cnt s t (register d a b bi) = cnt s t d + (regs (.register a b bi)).count (s, t) := by
  unfold register add
  cases bi with
  | false =>
    simp only [Bool.false_eq_true, if_false, cnt_append, cnt_single, regs, List.count_singleton]
    simp
  | true =>
    simp only [if_true, cnt_append, cnt_single, regs, List.count_cons, List.count_nil]
    simp
    omega

theorem cnt_unregister_le (s t : Nat) (d : List Pair) (a b : Nat) (bi : Bool) :
    cnt s t (unregister d a b bi) ≤ cnt s t d := by
  unfold unregister
  dsimp only
  split
  · exact Nat.le_trans (cnt_remove_le _ _ _ _ _) (cnt_remove_le _ _ _ _ _)
  · exact cnt_remove_le _ _ _ _ _

theorem balance_step (s t : Nat) (x : St) (o : Op) :
    toldCount s t (step x o).log + cnt s t (step x o).deps ≤
      toldCount s t x.log + cnt s t x.deps + (regs o).count (s, t) := by
  have hp : ∀ w (x : St), toldCount s t (process w x).log + cnt s t (process w x).deps ≤
      toldCount s t x.log + cnt s t x.deps := by
    intro w x
    rw [told_process, process_deps]
    have := cnt_parts s t x.deps
    omega
  cases o with
  | register a b bi => simp only [step, cnt_register]; omega
  | unregister a b bi =>
    have := cnt_unregister_le s t x.deps a b bi
    simp only [step]; omega
  | listen r => simp only [step]; omega
  | destroy o => simp only [step, destroyObject, cnt_mark]; omega
  | event w =>
    simp only [step]
    split
    · omega
    · have := hp w { x with pending := x.pending - 1 }
      exact Nat.le_trans this (Nat.le_add_right _ _)
  | halt w =>
    have := hp w x
    exact Nat.le_trans this (Nat.le_add_right _ _)

theorem balance_run (s t : Nat) : ∀ (ops : List Op) (x : St),
    toldCount s t (run x ops).log + cnt s t (run x ops).deps ≤
      toldCount s t x.log + cnt s t x.deps + (ops.flatMap regs).count (s, t) := by
  intro ops
  induction ops with
  | nil => intro x; simp [run]
  | cons o l ih =>
    intro x
    have h1 := ih (step x o)
    have h2 := balance_step s t x o
    rw [List.flatMap_cons, List.count_append]
    show toldCount s t (run (step x o) l).log + cnt s t (run (step x o) l).deps ≤ _
    omega

/-- Nobody is told more often than registered. -/
theorem C119_at_most_once (ops : List Op) (s t : Nat) :
    toldCount s t (run init ops).log ≤ (ops.flatMap regs).count (s, t) := by
  have := balance_run s t ops init
  have e : toldCount s t init.log = 0 ∧ cnt s t init.deps = 0 := ⟨rfl, rfl⟩
  omega

/-- After a registration was taken back, the object is not told any more. -/
theorem C119_unregistered (a b : List Op) (s t : Nat) (u : Op) (hu : u = .unregister s t false ∨ u = .unregister s t true)
    (ha : (a.flatMap regs).count (s, t) ≤ 1) (hb : (s, t) ∉ b.flatMap regs) :
    toldCount s t (run init (a ++ u :: b)).log = toldCount s t (run init a).log := by
  have h0 := balance_run s t a init
  have e : toldCount s t init.log = 0 ∧ cnt s t init.deps = 0 := ⟨rfl, rfl⟩
  have h1 : cnt s t (step (run init a) u).deps = 0 ∧ (step (run init a) u).log = (run init a).log := by
    have hz : cnt s t (remove (run init a).deps s t) = 0 := by
      rw [cnt_remove]; omega
    rcases hu with rfl | rfl
    · exact ⟨hz, rfl⟩
    · refine ⟨?_, rfl⟩
      have := cnt_remove_le s t t s (remove (run init a).deps s t)
      show cnt s t (remove (remove (run init a).deps s t) t s) = 0
      omega
  have h2 := balance_run s t b (step (run init a) u)
  rw [List.count_eq_zero.2 hb, h1.1, h1.2] at h2
  have h3 : toldCount s t (run init a).log ≤ toldCount s t (run (step (run init a) u) b).log := by
    have mono : ∀ (b : List Op) (x : St), toldCount s t x.log ≤ toldCount s t (run x b).log := by
      intro b
      induction b with
      | nil => intro x; exact Nat.le_refl _
      | cons o b ih =>
        intro x
        refine Nat.le_trans ?_ (ih (step x o))
        cases o with
        | event w =>
          simp only [step]
          split
          · exact Nat.le_refl _
          · rw [told_process]; exact Nat.le_add_right _ _
        | halt w => simp only [step]; rw [told_process]; exact Nat.le_add_right _ _
        | _ => exact Nat.le_refl _
    have := mono b (step (run init a) u)
    rw [h1.2] at this
    exact this
  rw [run_append]
  show toldCount s t (run (step (run init a) u) b).log = _
  omega

example : ([Op.register 1 2 true].flatMap regs).count (1, 2) ≤ 1 ∧ (1, 2) ∉ [Op.destroy 2].flatMap regs := by
  decide

/-- A registration comes before a request for destruction of its target. -/
def Caused (ops : List Op) (s t : Nat) : Prop :=
  ∃ a b, ops = a ++ .destroy t :: b ∧ (s, t) ∈ a.flatMap regs

theorem caused_mono {ops : List Op} {s t : Nat} (h : Caused ops s t) (o : Op) : Caused (ops ++ [o]) s t := by
  obtain ⟨a, b, rfl, hr⟩ := h
  exact ⟨a, b ++ [o], by simp, hr⟩

theorem mem_remove_sub {p : Pair} {d : List Pair} {a b : Nat} (h : p ∈ remove d a b) : p ∈ d :=
  List.mem_of_mem_eraseP h

theorem mem_unregister_sub {p : Pair} {d : List Pair} {a b : Nat} {bi : Bool} (h : p ∈ unregister d a b bi) :
    p ∈ d := by
  unfold unregister at h
  dsimp only at h
  split at h
  · exact mem_remove_sub (mem_remove_sub h)
  · exact mem_remove_sub h

theorem mem_register_sub {p : Pair} {d : List Pair} {a b : Nat} {bi : Bool} (h : p ∈ register d a b bi) :
    p ∈ d ∨ ((p.src, p.tgt) ∈ regs (.register a b bi) ∧ p.ftgt = false) := by
  unfold register add at h
  cases bi with
  | false =>
    rcases List.mem_append.1 h with h | h
    · exact Or.inl h
    · rw [List.mem_singleton.1 h]; simp [regs]
  | true =>
    rcases List.mem_append.1 h with h | h
    · rcases List.mem_append.1 h with h | h
      · exact Or.inl h
      · rw [List.mem_singleton.1 h]; simp [regs]
    · rw [List.mem_singleton.1 h]; simp [regs]

/-- An object is told about a target only if it had registered before the destruction of the target
was requested. -/
theorem C119_cause (ops : List Op) (s t : Nat) (x : Act) (hx : x ∈ (run init ops).log) (ht : Tells s t x) :
    ∃ a b, ops = a ++ .destroy t :: b ∧ (s, t) ∈ a.flatMap regs := by
  have key : ∀ ops, (∀ p ∈ (run init ops).deps, (p.src, p.tgt) ∈ ops.flatMap regs ∧
      (p.ftgt = true → Caused ops p.src p.tgt)) ∧
      (∀ x ∈ (run init ops).log, ∀ s t, Tells s t x → Caused ops s t) := by
    intro ops
    induction ops using snoc_ind with
    | nil => exact ⟨(fun p hp => by cases hp), (fun x hx => by cases hx)⟩
    | snoc a o ih =>
      obtain ⟨i1, i2⟩ := ih
      have keep : ∀ p ∈ (run init a).deps, (p.src, p.tgt) ∈ (a ++ [o]).flatMap regs ∧
          (p.ftgt = true → Caused (a ++ [o]) p.src p.tgt) := by
        intro p hp
        refine ⟨?_, fun hf => caused_mono ((i1 p hp).2 hf) o⟩
        rw [List.flatMap_append]
        exact List.mem_append_left _ (i1 p hp).1
      have keepLog : ∀ x ∈ (run init a).log, ∀ s t, Tells s t x → Caused (a ++ [o]) s t :=
        fun x hx s t h => caused_mono (i2 x hx s t h) o
      have proc : ∀ (w : Nat → Bool) (y : St), y.deps = (run init a).deps → y.log = (run init a).log →
          (∀ p ∈ (process w y).deps, (p.src, p.tgt) ∈ (a ++ [o]).flatMap regs ∧
            (p.ftgt = true → Caused (a ++ [o]) p.src p.tgt)) ∧
          (∀ x ∈ (process w y).log, ∀ s t, Tells s t x → Caused (a ++ [o]) s t) := by
        intro w y hd hl
        constructor
        · intro p hp
          rw [process_deps, hd] at hp
          exact keep p (List.mem_filter.1 hp).1
        · intro x hx s t h
          rw [process_log, hl, hd] at hx
          rcases List.mem_append.1 hx with hx | hx
          · rcases List.mem_append.1 hx with hx | hx
            · exact keepLog x hx s t h
            · rcases List.mem_append.1 hx with hx | hx
              · rcases List.mem_append.1 hx with hx | hx
                · obtain ⟨p, hp, rfl⟩ := List.mem_map.1 hx
                  obtain ⟨hp1, hp2⟩ := List.mem_filter.1 hp
                  have hc := (keep p hp1).2 hp2
                  unfold tell Tells at h
                  split at h
                  · simp only [Act.command.injEq, reduceCtorEq, or_false] at h
                    rw [← h.1, ← h.2]; exact hc
                  · simp only [Act.call.injEq, reduceCtorEq, false_or] at h
                    rw [← h.1, ← h.2]; exact hc
                · obtain ⟨p, _, rfl⟩ := List.mem_map.1 hx
                  simp [Tells] at h
              · obtain ⟨p, _, rfl⟩ := List.mem_map.1 hx
                simp [Tells] at h
          · obtain ⟨p, _, rfl⟩ := List.mem_map.1 hx
            simp [Tells] at h
      rw [run_snoc]
      cases o with
      | register x y bi =>
        refine ⟨?_, keepLog⟩
        intro p hp
        rcases mem_register_sub hp with h | ⟨h1, h2⟩
        · exact keep p h
        · refine ⟨?_, fun e => by rw [h2] at e; cases e⟩
          rw [List.flatMap_append]
          exact List.mem_append_right _ (by simpa using h1)
      | unregister x y bi => exact ⟨fun p hp => keep p (mem_unregister_sub hp), keepLog⟩
      | listen r => exact ⟨keep, keepLog⟩
      | destroy z =>
        refine ⟨?_, keepLog⟩
        intro p hp
        obtain ⟨q, hq, rfl⟩ := List.mem_map.1 hp
        have hk := keep q hq
        refine ⟨hk.1, ?_⟩
        intro hf
        simp only [mark, Bool.or_eq_true, decide_eq_true_eq] at hf
        rcases hf with hf | hf
        · exact hk.2 hf
        · refine ⟨a, [], ?_, (i1 q hq).1⟩
          show a ++ [.destroy z] = a ++ [.destroy q.tgt]
          rw [hf]
      | event w =>
        simp only [step]
        split
        · exact ⟨keep, keepLog⟩
        · exact proc w _ rfl rfl
      | halt w => exact proc w _ rfl rfl
  exact (key ops).2 x hx s t ht

/-- A dependency registered when the destruction of the target is already requested is never
served, whatever follows (as long as destruction is not requested again). -/
theorem C119_late_counterexample (a b : List Op) (s t : Nat) (ha : (s, t) ∉ a.flatMap regs)
    (hb : t ∉ b.flatMap kills) :
    ∀ x ∈ (run init (a ++ .destroy t :: .register s t false :: b)).log, ¬ Tells s t x := by
  intro x hx ht
  obtain ⟨p, q, e, hr⟩ := C119_cause _ s t x hx ht
  -- the request is in `a` or it is the one before the registration
  have hq : ∀ (l : List Op) (p q : List Op), t ∉ l.flatMap kills → l ≠ p ++ .destroy t :: q := by
    intro l p q hl e
    apply hl
    rw [e, List.flatMap_append, List.flatMap_cons]
    apply List.mem_append_right
    apply List.mem_append_left
    simp [kills]
  rcases Nat.lt_trichotomy p.length a.length with h | h | h
  · -- p is a proper beginning of a
    have hp : p <+: a := by
      have h1 : p <+: a ++ .destroy t :: .register s t false :: b := ⟨_, e.symm⟩
      exact List.prefix_of_prefix_length_le h1 (List.prefix_append _ _) (by omega)
    obtain ⟨z, rfl⟩ := hp
    apply ha
    rw [List.flatMap_append]
    exact List.mem_append_left _ hr
  · obtain ⟨e1, _⟩ := List.append_inj e h.symm
    rw [e1] at ha
    exact ha hr
  · have e' : (a ++ [.destroy t]) ++ (.register s t false :: b) = p ++ .destroy t :: q := by
      rw [← e]; simp
    have hp : (a ++ [.destroy t]) <+: p := by
      have h1 : (a ++ [Op.destroy t]) <+: p ++ .destroy t :: q := ⟨_, e'⟩
      exact List.prefix_of_prefix_length_le h1 (List.prefix_append _ _) (by simp; omega)
    obtain ⟨z, rfl⟩ := hp
    rw [List.append_assoc (a ++ [Op.destroy t]) z] at e'
    have e2 := List.append_cancel_left e'
    cases z with
    | nil => simp at e2
    | cons y z =>
      simp only [List.cons_append, List.cons.injEq] at e2
      exact hq b z q hb e2.2

example : (1, 2) ∉ ([] : List Op).flatMap regs ∧ 2 ∉ [Op.event (fun _ => true)].flatMap kills := by
  simp [kills]

/-- After a turn of the manager no dependency from or to an object remains whose destruction was
requested just before, and no parameter events go to it. -/
theorem C119_clean (a : List Op) (o : Nat) (w : Nat → Bool) :
    let s := run init (a ++ [.destroy o, .event w])
    (∀ p ∈ s.deps, p.src ≠ o ∧ p.tgt ≠ o) ∧ o ∉ s.receivers ∧ s.queue = none := by
  have e : a ++ [Op.destroy o, .event w] = (a ++ [.destroy o]) ++ [.event w] := by simp
  dsimp only
  rw [e, run_snoc]
  have hq : (run init (a ++ [.destroy o])).queue ≠ none := by
    rw [run_snoc]; simp [step, destroyObject]
  have hpos := wake hq
  simp only [step]
  rw [if_neg (by omega)]
  refine ⟨?_, ?_, process_queue _ _⟩
  · intro p hp
    rw [process_deps] at hp
    obtain ⟨h1, h2⟩ := List.mem_filter.1 hp
    rw [run_snoc] at h1
    obtain ⟨q, _, rfl⟩ := List.mem_map.1 h1
    simp only [mark, Bool.not_eq_true', Bool.or_eq_false_iff, decide_eq_false_iff_not] at h2
    exact ⟨h2.2.2, h2.1.2⟩
  · rw [run_snoc]
    unfold process
    simp only [step, destroyObject]
    intro h
    have := (List.mem_filter.1 h).2
    simp at this

/-- An object which is destroyed itself is not told about targets which stay. -/
theorem C119_source (a : List Op) (s t : Nat) (w : Nat → Bool) (hs : s ≠ t)
    (ha : t ∉ a.flatMap kills) (x : Act) (hx : x ∈ (run init (a ++ [.destroy s, .event w])).log) : ¬ Tells s t x := by
  intro ht
  obtain ⟨p, q, e, _⟩ := C119_cause _ s t x hx ht
  have hm : t ∈ (a ++ [Op.destroy s, .event w]).flatMap kills := by
    rw [e, List.flatMap_append, List.flatMap_cons]
    apply List.mem_append_right
    apply List.mem_append_left
    simp [kills]
  rw [List.flatMap_append] at hm
  rcases List.mem_append.1 hm with h | h
  · exact ha h
  · simp [kills] at h
    exact hs h.symm

example : ∃ x ∈ (run init [.register 1 2 false, .destroy 2, .event (fun _ => true)]).log, Tells 1 2 x :=
  ⟨.command 1 2, by decide, Or.inl rfl⟩

end Verif.Depend
