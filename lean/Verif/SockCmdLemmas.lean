import Verif.SockCmd

/-!
# Lemmas about the command channel
-/

namespace Verif.SockCmd

@[simp] theorem put_same {α} (f : Bool → α) (d : Bool) (x : α) : put f d x d = x := by simp [put]
@[simp] theorem put_not {α} (f : Bool → α) (d : Bool) (x : α) : put f d x (!d) = f (!d) := by
  cases d <;> simp [put]
@[simp] theorem put_not' {α} (f : Bool → α) (d : Bool) (x : α) : put f (!d) x d = f d := by
  cases d <;> simp [put]
@[simp] theorem put_ft {α} (f : Bool → α) (x : α) : put f false x true = f true := by simp [put]
@[simp] theorem put_tf {α} (f : Bool → α) (x : α) : put f true x false = f false := by simp [put]

theorem drain_ind {d : Bool} {env : Env} (P : S → Prop)
    (h : ∀ s it q, P s → (s.side d).sendq = it :: q → (s.side d).active = false →
      P ((s.upd d (fun x => { x with sendq := q })).send d env it)) :
    ∀ n s, P s → P (S.drain d env n s) := by
  intro n
  induction n with
  | zero => intro s hs; exact hs
  | succ n ih =>
    intro s hs
    simp only [S.drain]
    split
    · exact hs
    · rename_i ha
      split
      · exact hs
      · rename_i it q hq
        exact ih _ (h s it q hs hq (by simpa using ha))

/-! ### Order of the commands -/

def Pkt.asCmd (p : Pkt) : Option Nat := if p.kind = .command then some p.c else none

/-- Commands of side `d` from the executed ones to the last in the queue. -/
def line (s : S) (d : Bool) : List Nat :=
  s.executed d ++ ((s.side (!d)).rbuf.toList.filterMap Pkt.asCmd ++ ((s.wire d).filterMap Pkt.asCmd ++
    (s.side d).sendq.filterMap Item.own))

theorem line_close (s : S) (d e : Bool) : (line (s.close d) e).Sublist (line s e) := by
  cases d <;> cases e <;> simp [line, S.close] <;>
    exact List.Sublist.append_left (List.sublist_append_right _ _) _ <;> skip

theorem line_start (s : S) (d e : Bool) (p : Pkt) :
    (line (s.start d p) e).Sublist (line { s with wire := put s.wire d (s.wire d ++ [p]) } e) := by
  unfold S.start
  split
  · cases d <;> cases e <;> simp [line, S.upd]
  · refine (line_close s d e).trans ?_
    cases d <;> cases e <;> simp [line, List.sublist_append_right]

theorem line_send (s : S) (d : Bool) (env : Env) (it : Item) (q : List Item) (hq : (s.side d).sendq = it :: q) (e : Bool) :
    (line ((s.upd d (fun x => { x with sendq := q })).send d env it) e).Sublist (line s e) := by
  cases it with
  | cmd c =>
    simp only [S.send]
    split
    · cases d <;> cases e <;> simp [line, S.upd, hq, Item.own]
    · refine (line_start _ d e _).trans ?_
      cases hc : env.canc c <;> cases d <;> cases e <;>
        simp [line, S.upd, hq, Item.own, Side.number, Pkt.asCmd, List.filterMap_cons]
  | reply id c v =>
    simp only [S.send]
    refine (line_start _ d e _).trans ?_
    cases hc : env.rcanc c <;> cases d <;> cases e <;>
      simp [line, S.upd, hq, Item.own, Pkt.asCmd, List.filterMap_cons]

theorem line_flush (s : S) (d : Bool) (env : Env) (e : Bool) : (line (s.flush d env) e).Sublist (line s e) := by
  refine drain_ind (d := d) (env := env) (fun t => (line t e).Sublist (line s e)) ?_ _ s (List.Sublist.refl _)
  intro t it q ht hq _
  exact (line_send t d env it q hq e).trans ht

theorem line_answer (s : S) (d : Bool) (p : Pkt) (e : Bool) : line (s.answer d p) e = line s e := by
  unfold S.answer
  split
  · rfl
  · cases d <;> cases e <;> simp [line, S.upd]

theorem line_recv (s : S) (d : Bool) (e : Bool) : (line (s.recv d) e).Sublist (line s e) := by
  unfold S.recv
  split
  · exact line_close s d e
  · split
    · exact List.Sublist.refl _
    · rename_i p hp
      have h1 : ∀ t : S, line (t.again d) e = line t e := by
        intro t; unfold S.again; split
        · cases d <;> cases e <;> simp [line, S.upd]
        · rfl
      rw [h1]
      unfold S.handle
      split
      · rename_i hk
        cases d <;> cases e <;> simp [line, S.upd, hp, Pkt.asCmd, hk] <;> simp_all
      · rw [line_answer]
        cases d <;> cases e <;> simp [line, S.upd]
  · split
    · cases d <;> cases e <;> simp [line, S.upd]
    · exact List.Sublist.refl _

theorem line_dispatch (s : S) (d : Bool) (env : Env) (e : Bool) : (line (s.dispatch d env) e).Sublist (line s e) := by
  unfold S.dispatch
  split
  · exact List.Sublist.refl _
  · refine (line_flush _ d env e).trans ?_
    cases d <;> cases e <;> simp [line, S.upd]
  · refine (line_recv _ d e).trans ?_
    cases d <;> cases e <;> simp [line, S.upd]
  · refine (line_close _ d e).trans ?_
    cases d <;> cases e <;> simp [line, S.upd]

theorem line_add (s : S) (d : Bool) (env : Env) (it : Item) (e : Bool) :
    (line (s.add d env it) e).Sublist (if e = d then line s e ++ it.own.toList else line s e) := by
  refine (line_flush _ d env e).trans ?_
  cases d <;> cases e <;> cases it <;> simp [line, S.upd, Item.own, List.filterMap_cons]

theorem line_connect (s : S) (env : Env) (e : Bool) : (line (s.connect env) e).Sublist (line s e) := by
  unfold S.connect
  split
  · refine (line_flush _ false env e).trans (List.Sublist.trans ?_ (line_close s true e))
    cases e <;> simp [line, S.joined, List.append_assoc] <;>
      first
        | exact List.Sublist.append_left (List.sublist_append_of_sublist_right (List.sublist_append_right _ _)) _
        | exact List.sublist_append_left _ _
        | skip
  · exact List.Sublist.refl _

/-! ### Histories -/

def hist (s : S) : (Bool → List Nat) × List (Nat × Nat) := (s.submitted, s.finished)

theorem hist_close (s : S) (d : Bool) : hist (s.close d) = hist s := by cases d <;> rfl

theorem hist_start (s : S) (d : Bool) (p : Pkt) : hist (s.start d p) = hist s := by
  unfold S.start; split
  · rfl
  · exact hist_close s d

theorem hist_send (s : S) (d : Bool) (env : Env) (it : Item) : hist (s.send d env it) = hist s := by
  cases it with
  | cmd c =>
    simp only [S.send]; split
    · rfl
    · exact hist_start _ d _
  | reply id c v => exact hist_start _ d _

theorem hist_flush (s : S) (d : Bool) (env : Env) : hist (s.flush d env) = hist s := by
  refine drain_ind (d := d) (env := env) (fun t => hist t = hist s) ?_ _ s rfl
  intro t it q ht _ _
  rw [hist_send]; exact ht

theorem hist_add (s : S) (d : Bool) (env : Env) (it : Item) : hist (s.add d env it) = hist s := hist_flush _ d env

theorem hist_answer (s : S) (d : Bool) (p : Pkt) : hist (s.answer d p) = hist s := by
  unfold S.answer; split <;> rfl

theorem hist_recv (s : S) (d : Bool) : hist (s.recv d) = hist s := by
  unfold S.recv
  split
  · exact hist_close s d
  · split
    · rfl
    · rename_i p _
      have h1 : ∀ t : S, hist (t.again d) = hist t := by
        intro t; unfold S.again; split <;> rfl
      rw [h1]
      unfold S.handle
      split
      · rfl
      · exact hist_answer _ d p
  · split <;> rfl

theorem hist_dispatch (s : S) (d : Bool) (env : Env) : hist (s.dispatch d env) = hist s := by
  unfold S.dispatch
  split
  · rfl
  · exact hist_flush _ d env
  · exact hist_recv _ d
  · exact hist_close _ d

theorem hist_connect (s : S) (env : Env) : hist (s.connect env) = hist s := by
  unfold S.connect
  split
  · exact (hist_flush _ false env).trans (hist_close s true)
  · rfl

/-- What the channel itself does never adds commands and keeps their order. -/
theorem line_step (s : S) (op : Op) (e : Bool) :
    ((line (step s op) e).Sublist (line s e) ∧ (step s op).submitted e = s.submitted e) ∨
      ∃ c env, op = .submit e c env ∧ c ∉ s.submitted false ++ s.submitted true ∧
        (line (step s op) e).Sublist (line s e ++ [c]) ∧ (step s op).submitted e = s.submitted e ++ [c] := by
  have sub : ∀ {t u : S}, hist t = hist u → t.submitted e = u.submitted e :=
    fun h => congrFun (congrArg Prod.fst h) e
  unfold step
  split
  · exact Or.inl ⟨List.Sublist.refl _, rfl⟩
  · cases op with
    | submit d c env =>
      simp only [S.submit]
      split
      · exact Or.inl ⟨List.Sublist.refl _, rfl⟩
      · rename_i hc
        split
        · exact Or.inl ⟨List.Sublist.refl _, rfl⟩
        · by_cases hd : e = d
          · right
            subst hd
            refine ⟨c, env, rfl, hc, ?_, ?_⟩
            · refine (line_add _ e env _ e).trans ?_
              simp [line, Item.own]
            · refine (sub (hist_flush _ e env)).trans ?_
              simp [S.upd]
          · left
            refine ⟨?_, ?_⟩
            · refine (line_add _ d env _ e).trans ?_
              simp [line, hd]
            · refine (sub (hist_flush _ d env)).trans ?_
              simp [S.upd, put, hd]
    | finish d i v env =>
      left
      simp only [S.finish]
      split
      · exact ⟨List.Sublist.refl _, rfl⟩
      · refine ⟨(line_add _ d env _ e).trans ?_, (sub (hist_add _ d env _)).trans rfl⟩
        cases d <;> cases e <;> simp [line, S.upd, Item.own]
    | wrote d =>
      left; simp only [S.wrote]; split
      · refine ⟨?_, rfl⟩
        cases d <;> cases e <;> simp [line, S.upd]
      · exact ⟨List.Sublist.refl _, rfl⟩
    | read d =>
      left; simp only [S.read]; split
      · split
        · exact ⟨List.Sublist.refl _, rfl⟩
        · rename_i p w hw
          split
          · refine ⟨?_, rfl⟩
            cases d <;> simp only [Bool.not_true, Bool.not_false] at hw <;> cases hp : p.asCmd <;> cases e <;>
              simp [line, S.upd, List.filterMap_cons, hp, hw, List.sublist_append_right]
          · refine ⟨?_, rfl⟩
            cases d <;> cases e <;> simp [line, S.upd]
      · exact ⟨List.Sublist.refl _, rfl⟩
    | fail d =>
      left; simp only [S.fail]; split
      · refine ⟨?_, rfl⟩
        cases d <;> cases e <;> simp [line, S.upd]
      · exact ⟨List.Sublist.refl _, rfl⟩
    | dispatch d env => exact Or.inl ⟨line_dispatch s d env e, sub (hist_dispatch s d env)⟩
    | expireWait d i =>
      left; simp only [S.expireWait]; split
      · exact ⟨List.Sublist.refl _, rfl⟩
      · refine ⟨?_, rfl⟩
        cases d <;> cases e <;> simp [line, S.upd]
    | expireSend d i =>
      left; simp only [S.expireSend]; split
      · exact ⟨List.Sublist.refl _, rfl⟩
      · refine ⟨?_, rfl⟩
        have := (List.eraseIdx_sublist (s.side d).sendq i).filterMap Item.own
        cases d <;> cases e <;> simp [line, S.upd] <;> simpa using this
    | retry =>
      left; simp only [S.retry]; split
      · exact ⟨List.Sublist.refl _, rfl⟩
      · refine ⟨?_, rfl⟩
        cases e <;> simp [line, S.upd]
    | connect env => exact Or.inl ⟨line_connect s env e, sub (hist_connect s env)⟩

/-! ### Account of the commands -/

def Side.kept (x : Side) (c : Nat) : Nat := (x.waitq.map (·.2)).count c + (x.sendq.filterMap Item.own).count c

/-- How often a command was answered or is kept. -/
def tally (s : S) (c : Nat) : Nat := (s.answers.map (·.1)).count c + ((s.side false).kept c + (s.side true).kept c)

theorem tally_close (s : S) (d : Bool) (c : Nat) : tally (s.close d) c = tally s c := by
  cases d
  · simp [tally, S.close, Side.kept]
  · simp [tally, S.close, Side.kept, List.count_append, Function.comp_def]; omega

theorem tally_start (s : S) (d : Bool) (p : Pkt) (c : Nat) : tally (s.start d p) c = tally s c := by
  unfold S.start; split
  · cases d <;> simp [tally, S.upd, Side.kept]
  · exact tally_close s d c

theorem tally_send (s : S) (d : Bool) (env : Env) (it : Item) (q : List Item) (hq : (s.side d).sendq = it :: q) (c : Nat) :
    tally ((s.upd d (fun x => { x with sendq := q })).send d env it) c = tally s c := by
  cases it with
  | cmd c' =>
    simp only [S.send]; split
    · cases d <;> simp [tally, S.upd, Side.kept, hq, Item.own, List.count_append, List.count_cons] <;> omega
    · rw [tally_start]
      cases d <;> simp [tally, S.upd, Side.kept, Side.number, hq, Item.own, List.count_append, List.count_cons] <;> omega
  | reply id c' v =>
    simp only [S.send]; rw [tally_start]
    cases d <;> simp [tally, S.upd, Side.kept, hq, Item.own, List.filterMap_cons]

theorem tally_flush (s : S) (d : Bool) (env : Env) (c : Nat) : tally (s.flush d env) c = tally s c := by
  refine drain_ind (d := d) (env := env) (fun t => tally t c = tally s c) ?_ _ s rfl
  intro t it q ht hq _
  rw [tally_send t d env it q hq]; exact ht

theorem tally_add (s : S) (d : Bool) (env : Env) (it : Item) (c : Nat) :
    tally (s.add d env it) c = tally s c + it.own.toList.count c := by
  unfold S.add
  rw [tally_flush]
  cases d <;> cases it <;>
    simp [tally, S.upd, Side.kept, Item.own, List.count_append, List.count_cons, List.filterMap_cons] <;> omega

theorem count_eraseP (l : List (Nat × Nat)) (P : Nat × Nat → Bool) (e : Nat × Nat) (h : l.find? P = some e) (c : Nat) :
    (l.map (·.2)).count c = ((l.eraseP P).map (·.2)).count c + [e.2].count c := by
  induction l with
  | nil => simp at h
  | cons x t ih =>
    rw [List.find?_cons] at h
    rw [List.eraseP_cons]
    cases hx : P x with
    | true =>
      rw [hx] at h; simp only [Option.some.injEq] at h; subst h
      simp [List.count_cons]
    | false =>
      rw [hx] at h
      have := ih h
      simp only [cond_false, List.map_cons, List.count_cons] at *
      omega

theorem count_eraseIdx {α} (l : List α) (i : Nat) (x : α) (h : l[i]? = some x) (f : α → Option Nat) (c : Nat) :
    (l.filterMap f).count c = ((l.eraseIdx i).filterMap f).count c + (f x).toList.count c := by
  induction l generalizing i with
  | nil => simp at h
  | cons y t ih =>
    cases i with
    | zero =>
      simp only [List.getElem?_cons_zero, Option.some.injEq] at h
      subst h
      cases hf : f y <;> simp [hf, List.count_cons]
    | succ i =>
      have := ih i (by simpa using h)
      cases hf : f y <;> simp [hf, List.count_cons] <;> omega

theorem count_eraseIdx_map {α} (l : List α) (i : Nat) (x : α) (h : l[i]? = some x) (f : α → Nat) (c : Nat) :
    (l.map f).count c = ((l.eraseIdx i).map f).count c + [f x].count c := by
  have := count_eraseIdx l i x h (some ∘ f) c
  rwa [List.filterMap_eq_map] at this

theorem tally_answer (s : S) (d : Bool) (p : Pkt) (c : Nat) : tally (s.answer d p) c = tally s c := by
  unfold S.answer
  split
  · rfl
  · rename_i e he
    have := count_eraseP _ _ e he c
    simp only [List.count_cons, List.count_nil, beq_iff_eq] at this
    cases d <;> simp [tally, S.upd, Side.kept, List.count_append, List.count_cons] <;> omega

theorem tally_recv (s : S) (d : Bool) (c : Nat) : tally (s.recv d) c = tally s c := by
  unfold S.recv
  split
  · exact tally_close s d c
  · split
    · rfl
    · rename_i p _
      have h1 : ∀ t : S, tally (t.again d) c = tally t c := by
        intro t; unfold S.again; split
        · cases d <;> simp [tally, S.upd, Side.kept]
        · rfl
      rw [h1]
      unfold S.handle
      split
      · cases d <;> simp [tally, S.upd, Side.kept]
      · rw [tally_answer]
        cases d <;> simp [tally, S.upd, Side.kept]
  · split
    · cases d <;> simp [tally, S.upd, Side.kept]
    · rfl

theorem tally_dispatch (s : S) (d : Bool) (env : Env) (c : Nat) : tally (s.dispatch d env) c = tally s c := by
  unfold S.dispatch
  split
  · rfl
  · rw [tally_flush]; cases d <;> simp [tally, S.upd, Side.kept]
  · rw [tally_recv]; cases d <;> simp [tally, S.upd, Side.kept]
  · rw [tally_close]; cases d <;> simp [tally, S.upd, Side.kept]

theorem tally_connect (s : S) (env : Env) (c : Nat) : tally (s.connect env) c = tally s c := by
  unfold S.connect
  split
  · rw [tally_flush]
    refine Eq.trans ?_ (tally_close s true c)
    simp [tally, S.joined, Side.kept, S.close]
  · rfl

/-- Every command is answered or kept as often as it was submitted. -/
theorem tally_step (s : S) (op : Op) (c : Nat) (h : tally s c = (s.submitted false).count c + (s.submitted true).count c) :
    tally (step s op) c = ((step s op).submitted false).count c + ((step s op).submitted true).count c := by
  have keep : ∀ {t : S}, hist t = hist s → tally t c = tally s c →
      tally t c = (t.submitted false).count c + (t.submitted true).count c := by
    intro t h1 h2
    rw [h2, h, show t.submitted = s.submitted from congrArg Prod.fst h1]
  unfold step
  split
  · exact h
  · cases op with
    | submit d c' env =>
      simp only [S.submit]
      split
      · exact h
      · split
        · exact h
        · rename_i hc _
          rw [tally_add, show ∀ t : S, (t.add d env (.cmd c')).submitted = t.submitted from
            fun t => congrArg Prod.fst (hist_add t d env _)]
          have : tally { s with submitted := put s.submitted d (s.submitted d ++ [c']) } c = tally s c := rfl
          rw [this, h]
          cases d <;> simp [Item.own, List.count_append, List.count_cons] <;> omega
    | finish d i v env =>
      simp only [S.finish]
      split
      · exact h
      · rw [tally_add, show ∀ (t : S) it, (t.add d env it).submitted = t.submitted from
            fun t it => congrArg Prod.fst (hist_add t d env it)]
        refine Eq.trans ?_ h
        cases d <;> simp [Item.own, tally, S.upd, Side.kept]
    | wrote d =>
      simp only [S.wrote]; split
      · exact keep rfl (by cases d <;> simp [tally, S.upd, Side.kept])
      · exact h
    | read d =>
      simp only [S.read]; split
      · split
        · exact h
        · split
          · exact keep rfl (by cases d <;> simp [tally, S.upd, Side.kept])
          · exact keep rfl (by cases d <;> simp [tally, S.upd, Side.kept])
      · exact h
    | fail d =>
      simp only [S.fail]; split
      · exact keep rfl (by cases d <;> simp [tally, S.upd, Side.kept])
      · exact h
    | dispatch d env => exact keep (hist_dispatch s d env) (tally_dispatch s d env c)
    | expireWait d i =>
      simp only [S.expireWait]; split
      · exact h
      · rename_i e he
        refine keep rfl ?_
        have := count_eraseIdx_map _ i e he (·.2) c
        simp only [List.count_cons, List.count_nil, beq_iff_eq] at this
        cases d <;> simp [tally, S.upd, Side.kept, List.count_append, List.count_cons] <;> omega
    | expireSend d i =>
      simp only [S.expireSend]; split
      · exact h
      · rename_i it he
        refine keep rfl ?_
        have := count_eraseIdx _ i it he Item.own c
        cases it <;> cases d <;> simp [tally, S.upd, Side.kept, List.count_append, Item.own, List.count_cons] at * <;> omega
    | retry =>
      simp only [S.retry]; split
      · exact h
      · exact keep rfl (by simp [tally, S.upd, Side.kept])
    | connect env => exact keep (hist_connect s env) (tally_connect s env c)

/-! ### Whose answer a command gets -/

/-- What is under way for the commands of side `d`: `G` are the numbers given, `F` the results. -/
structure Right (G F : List (Nat × Nat)) (s : S) (d : Bool) : Prop where
  cmdWire : ∀ p ∈ s.wire d, p.kind = .command → (p.id, p.c) ∈ G
  cmdBuf : ∀ p, (s.side (!d)).rbuf = some p → p.kind = .command → (p.id, p.c) ∈ G
  exec : ∀ e ∈ (s.side (!d)).exec, e ∈ G
  repQ : ∀ id c v, Item.reply id c v ∈ (s.side (!d)).sendq → (id, c) ∈ G ∧ (c, v) ∈ F
  repWire : ∀ p ∈ s.wire (!d), p.kind = .reply → (p.id, p.c) ∈ G ∧ (p.c, p.v) ∈ F
  repBuf : ∀ p, (s.side d).rbuf = some p → p.kind = .reply → (p.id, p.c) ∈ G ∧ (p.c, p.v) ∈ F

theorem Right.mono {G F G' F' : List (Nat × Nat)} {s : S} {d : Bool} (h : Right G F s d) (hG : ∀ x ∈ G, x ∈ G')
    (hF : ∀ x ∈ F, x ∈ F') : Right G' F' s d :=
  ⟨fun p hp hk => hG _ (h.cmdWire p hp hk), fun p hp hk => hG _ (h.cmdBuf p hp hk),
    fun e he => hG _ (h.exec e he), fun id c v hm => ⟨hG _ (h.repQ id c v hm).1, hF _ (h.repQ id c v hm).2⟩,
    fun p hp hk => ⟨hG _ (h.repWire p hp hk).1, hF _ (h.repWire p hp hk).2⟩,
    fun p hp hk => ⟨hG _ (h.repBuf p hp hk).1, hF _ (h.repBuf p hp hk).2⟩⟩

/-- Only parts of what is under way were left. -/
structure Less (t s : S) : Prop where
  wire : ∀ d, ∀ p ∈ t.wire d, p ∈ s.wire d
  rbuf : ∀ d p, (t.side d).rbuf = some p → (s.side d).rbuf = some p
  exec : ∀ d, ∀ e ∈ (t.side d).exec, e ∈ (s.side d).exec
  sendq : ∀ d id c v, Item.reply id c v ∈ (t.side d).sendq → Item.reply id c v ∈ (s.side d).sendq

theorem Less.refl (s : S) : Less s s :=
  ⟨fun _ _ h => h, fun _ _ h => h, fun _ _ h => h, fun _ _ _ _ h => h⟩

theorem Less.trans {s t u : S} (h : Less s t) (h' : Less t u) : Less s u :=
  ⟨fun d e he => h'.wire d e (h.wire d e he),
    fun d e he => h'.rbuf d e (h.rbuf d e he), fun d e he => h'.exec d e (h.exec d e he),
    fun d id c v he => h'.sendq d id c v (h.sendq d id c v he)⟩

theorem Right.less {G F : List (Nat × Nat)} {s t : S} {d : Bool} (h : Right G F s d) (hl : Less t s) : Right G F t d :=
  ⟨fun p hp => h.cmdWire p (hl.wire _ p hp),
    fun p hp => h.cmdBuf p (hl.rbuf _ p hp), fun e he => h.exec e (hl.exec _ e he),
    fun id c v hm => h.repQ id c v (hl.sendq _ _ _ _ hm), fun p hp => h.repWire p (hl.wire _ p hp),
    fun p hp => h.repBuf p (hl.rbuf _ p hp)⟩

theorem less_close (s : S) (d : Bool) : Less (s.close d) s := by
  cases d <;> constructor <;> intro e <;> cases e <;> simp [S.close] <;> intros <;> simp_all

theorem right_start {G F : List (Nat × Nat)} {s : S} {d e : Bool} {p : Pkt} (h : Right G F s e)
    (hc : e = d → p.kind = .command → (p.id, p.c) ∈ G)
    (hr : e ≠ d → p.kind = .reply → (p.id, p.c) ∈ G ∧ (p.c, p.v) ∈ F) : Right G F (s.start d p) e := by
  unfold S.start
  split
  · obtain ⟨h2, h3, h4, h5, h6, h7⟩ := h
    cases d <;> cases e <;> simp at * <;> constructor <;> simp [S.upd] <;> (try assumption) <;>
      (intro q hq; rcases hq with hq | rfl) <;> (try exact h2 _ hq) <;> (try exact h6 _ hq) <;> (try assumption)
  · exact h.less (less_close s d)

/-- The numbers of a side. -/
structure Base (s : S) (d : Bool) : Prop where
  wait : ∀ e ∈ (s.side d).waitq, e ∈ (s.side d).given
  sub : ((s.side d).given.map (·.2) ++ (s.side d).sendq.filterMap Item.own).Sublist (s.submitted d)
  num : (s.side d).given.length < 4294967296 →
    (s.side d).next = (s.side d).given.length ∧ (s.side d).given.map (·.1) = List.range' 1 (s.side d).given.length

theorem base_close {s : S} {d e : Bool} (h : Base s e) : Base (s.close d) e := by
  obtain ⟨h1, h2, h3⟩ := h
  cases d <;> cases e <;> refine ⟨?_, ?_, ?_⟩ <;> simp [S.close] <;> (try assumption)
  · simpa using h1
  · simpa using h1
  · simpa using h1
  · exact (List.sublist_append_left _ _).trans h2

theorem base_start {s : S} {d e : Bool} {p : Pkt} (h : Base s e) : Base (s.start d p) e := by
  unfold S.start
  split
  · obtain ⟨h1, h2, h3⟩ := h
    cases d <;> cases e <;> refine ⟨?_, ?_, ?_⟩ <;> simp [S.upd] <;> first | exact h2 | exact h3 | simpa using h1
  · exact base_close h

theorem base_number {s : S} {d : Bool} {c : Nat} {q : List Item} (h : Base s d) (hq : (s.side d).sendq = .cmd c :: q) :
    Base ((s.upd d (fun x => { x with sendq := q })).upd d (·.number c)) d := by
  obtain ⟨h1, h2, h3⟩ := h
  refine ⟨?_, ?_, ?_⟩
  · simp only [S.upd, put_same, Side.number, List.mem_append, List.mem_singleton]
    rintro e (he | he)
    · exact Or.inl (h1 e he)
    · exact Or.inr he
  · simp only [S.upd, put_same, Side.number]
    rw [hq] at h2
    simpa [Item.own] using h2
  · simp only [S.upd, put_same, Side.number, List.length_append, List.length_cons, List.length_nil]
    intro hl
    obtain ⟨h4, h5⟩ := h3 (by omega)
    have : nextId (s.side d).next = (s.side d).given.length + 1 := by
      unfold nextId; rw [if_neg (by omega)]; omega
    refine ⟨this, ?_⟩
    rw [List.map_append, h5, this, List.range'_concat]
    simp [Nat.add_comm]

theorem base_other {s : S} {d e : Bool} {f : Side → Side} (h : Base s e) (hd : e ≠ d) : Base (s.upd d f) e := by
  obtain ⟨h1, h2, h3⟩ := h
  refine ⟨?_, ?_, ?_⟩ <;> simp only [S.upd, put, if_neg hd] <;> assumption

theorem base_send {s : S} {d e : Bool} {env : Env} {it : Item} {q : List Item} (h : Base s e)
    (hq : (s.side d).sendq = it :: q) : Base ((s.upd d (fun x => { x with sendq := q })).send d env it) e := by
  have hpop : Base (s.upd d (fun x => { x with sendq := q })) e := by
    by_cases hd : e = d
    · subst hd
      refine ⟨?_, ?_, ?_⟩ <;> simp only [S.upd, put_same]
      · exact h.wait
      · refine List.Sublist.trans ?_ h.sub
        rw [hq]
        refine List.Sublist.append_left ?_ _
        exact (List.sublist_cons_self it q).filterMap _
      · exact h.num
    · exact base_other h hd
  cases it with
  | cmd c =>
    simp only [S.send]
    split
    · exact ⟨hpop.wait, hpop.sub, hpop.num⟩
    · refine base_start ?_
      by_cases hd : e = d
      · subst hd; exact base_number h hq
      · exact base_other hpop hd
  | reply id c v => exact base_start hpop

theorem base_flush {s : S} {d e : Bool} {env : Env} (h : Base s e) : Base (s.flush d env) e :=
  drain_ind (d := d) (env := env) (fun t => Base t e) (fun _ _ _ ht hq _ => base_send ht hq) _ s h

/-- A change of one side which leaves the numbers alone. -/
theorem base_upd {s : S} {d e : Bool} {f : Side → Side} (h : Base s e)
    (hf : ∀ x : Side, (∀ w ∈ (f x).waitq, w ∈ x.waitq) ∧ (f x).sendq.Sublist x.sendq ∧ (f x).next = x.next ∧
      (f x).given = x.given) : Base (s.upd d f) e := by
  by_cases hd : e = d
  · subst hd
    obtain ⟨h1, h2, h3, h4⟩ := hf (s.side e)
    refine ⟨?_, ?_, ?_⟩ <;> simp only [S.upd, put_same, h3, h4]
    · exact fun w hw => h.wait w (h1 w hw)
    · exact ((h2.filterMap _).append_left _).trans h.sub
    · exact h.num
  · exact base_other h hd

theorem base_same {s : S} {d e : Bool} {f : Side → Side} (h : Base s e) (hf : ∀ x : Side, (f x).waitq = x.waitq ∧
    (f x).sendq = x.sendq ∧ (f x).next = x.next ∧ (f x).given = x.given) : Base (s.upd d f) e := by
  refine base_upd h (fun x => ?_)
  obtain ⟨h1, h2, h3, h4⟩ := hf x
  rw [h1, h2]
  exact ⟨fun _ hw => hw, List.Sublist.refl _, h3, h4⟩

theorem base_of {s t : S} {e : Bool} (h : Base s e) (hs : t.side e = s.side e) (hu : t.submitted e = s.submitted e) :
    Base t e := by
  obtain ⟨h1, h2, h3⟩ := h
  refine ⟨?_, ?_, ?_⟩ <;> rw [hs] <;> (try rw [hu]) <;> assumption

theorem base_answer {s : S} {d e : Bool} {p : Pkt} (h : Base s e) : Base (s.answer d p) e := by
  unfold S.answer
  split
  · exact h
  · refine base_of (base_upd (d := d) (f := fun x => { x with waitq := x.waitq.eraseP (fun e => decide (e.1 = p.id)) }) h
      ?_) rfl rfl
    exact fun x => ⟨fun w hw => List.mem_of_mem_eraseP hw, List.Sublist.refl _, rfl, rfl⟩

theorem base_step {s : S} {e : Bool} (h : Base s e) (op : Op) : Base (step s op) e := by
  unfold step
  split
  · exact h
  · cases op with
    | submit d c env =>
      simp only [S.submit]
      split
      · exact h
      · split
        · exact h
        · refine base_flush ?_
          by_cases hd : e = d
          · subst hd
            refine ⟨?_, ?_, ?_⟩ <;> simp only [S.upd, put_same]
            · exact h.wait
            · rw [List.filterMap_append, ← List.append_assoc]
              exact List.Sublist.append h.sub (List.Sublist.refl _)
            · exact h.num
          · refine base_other (base_of h rfl ?_) hd
            simp [put, hd]
    | finish d i v env =>
      simp only [S.finish]
      split
      · exact h
      · rename_i x hx
        refine base_flush ?_
        have h0 : Base (s.upd d (fun x => { x with exec := x.exec.eraseIdx i })) e := (by refine base_same h ?_; exact fun x => ⟨rfl, rfl, rfl, rfl⟩)
        by_cases hd : e = d
        · subst hd
          refine ⟨?_, ?_, ?_⟩ <;> simp only [S.upd, put_same]
          · exact h.wait
          · rw [List.filterMap_append]
            simpa [Item.own, List.filterMap_cons] using h.sub
          · exact h.num
        · refine base_other (base_of h0 rfl rfl) hd
    | wrote d => simp only [S.wrote]; split <;> first | exact h | exact (by refine base_same h ?_; exact fun x => ⟨rfl, rfl, rfl, rfl⟩)
    | read d =>
      simp only [S.read]
      split
      · split
        · exact h
        · split
          · exact base_of (base_same (d := d) (f := fun x => { x with rbuf := _, rstart := false, evq := x.evq ++ [.recv] })
              h (fun x => ⟨rfl, rfl, rfl, rfl⟩)) rfl rfl
          · exact (by refine base_same h ?_; exact fun x => ⟨rfl, rfl, rfl, rfl⟩)
      · exact h
    | fail d => simp only [S.fail]; split <;> first | exact h | exact (by refine base_same h ?_; exact fun x => ⟨rfl, rfl, rfl, rfl⟩)
    | dispatch d env =>
      simp only [S.dispatch]
      split
      · exact h
      · exact base_flush ((by refine base_same h ?_; exact fun x => ⟨rfl, rfl, rfl, rfl⟩))
      · rename_i q _
        have h0 : Base (s.upd d (fun x => { x with evq := q })) e := (by refine base_same h ?_; exact fun x => ⟨rfl, rfl, rfl, rfl⟩)
        revert h0
        generalize s.upd d (fun x => { x with evq := q }) = t
        intro h0
        unfold S.recv
        split
        · exact base_close h0
        · split
          · exact h0
          · rename_i p _
            have h1 : ∀ u : S, Base u e → Base (u.again d) e := by
              intro u hu; unfold S.again; split
              · exact (by refine base_same hu ?_; exact fun x => ⟨rfl, rfl, rfl, rfl⟩)
              · exact base_of hu rfl rfl
            refine h1 _ ?_
            have h2 : Base (t.upd d (fun x => { x with rbuf := none, stage := .init })) e :=
              (by refine base_same h0 ?_; exact fun x => ⟨rfl, rfl, rfl, rfl⟩)
            unfold S.handle
            split
            · exact base_of (base_same (d := d) (f := fun x => { x with exec := x.exec ++ [(p.id, p.c)] })
                h2 (fun x => ⟨rfl, rfl, rfl, rfl⟩)) rfl rfl
            · exact base_answer h2
        · split
          · exact (by refine base_same h0 ?_; exact fun x => ⟨rfl, rfl, rfl, rfl⟩)
          · exact base_of h0 rfl rfl
      · exact base_close ((by refine base_same h ?_; exact fun x => ⟨rfl, rfl, rfl, rfl⟩))
    | expireWait d i =>
      simp only [S.expireWait]
      split
      · exact h
      · refine base_of (base_upd (d := d) (f := fun x => { x with waitq := x.waitq.eraseIdx i }) h ?_) rfl rfl
        exact fun x => ⟨fun w hw => List.mem_of_mem_eraseIdx hw, List.Sublist.refl _, rfl, rfl⟩
    | expireSend d i =>
      simp only [S.expireSend]
      split
      · exact h
      · refine base_of (base_upd (d := d) (f := fun x => { x with sendq := x.sendq.eraseIdx i }) h ?_) rfl rfl
        exact fun x => ⟨fun w hw => hw, List.eraseIdx_sublist _ _, rfl, rfl⟩
    | retry => simp only [S.retry]; split <;> first | exact h | exact (by refine base_same h ?_; exact fun x => ⟨rfl, rfl, rfl, rfl⟩)
    | connect env =>
      simp only [S.connect]
      split
      · refine base_flush ?_
        cases e with
        | false => exact ⟨h.wait, h.sub, h.num⟩
        | true =>
          refine ⟨?_, ?_, ?_⟩ <;> simp [S.joined]
      · exact h

theorem less_upd {s : S} {d : Bool} {f : Side → Side}
    (hf : ∀ x : Side, (∀ p, (f x).rbuf = some p → x.rbuf = some p) ∧ (∀ w ∈ (f x).exec, w ∈ x.exec) ∧
      (∀ id c v, Item.reply id c v ∈ (f x).sendq → Item.reply id c v ∈ x.sendq)) : Less (s.upd d f) s := by
  obtain ⟨h1, h2, h3⟩ := hf (s.side d)
  refine ⟨fun _ _ h => h, ?_, ?_, ?_⟩ <;> intro e <;> by_cases he : e = d
  · subst he; simpa only [S.upd, put_same] using h1
  · simp only [S.upd, put, if_neg he]; exact fun _ h => h
  · subst he; simpa only [S.upd, put_same] using h2
  · simp only [S.upd, put, if_neg he]; exact fun _ h => h
  · subst he; simpa only [S.upd, put_same] using h3
  · simp only [S.upd, put, if_neg he]; exact fun _ _ _ h => h

theorem given_upd {s : S} {d e : Bool} {f : Side → Side} (hf : ∀ x : Side, (f x).given = x.given) :
    ((s.upd d f).side e).given = (s.side e).given := by
  by_cases he : e = d
  · subst he; simp only [S.upd, put_same]; exact hf _
  · simp only [S.upd, put, if_neg he]

theorem given_close (s : S) (d e : Bool) : ((s.close d).side e).given = (s.side e).given := by
  cases d <;> cases e <;> simp [S.close]

theorem given_start (s : S) (d e : Bool) (p : Pkt) : ((s.start d p).side e).given = (s.side e).given := by
  unfold S.start; split
  · exact given_upd (s := s) (d := d) (f := fun x => { x with busy := true, active := true }) (fun _ => rfl)
  · exact given_close s d e

/-- What is under way for the commands of a side belongs to them. -/
def Fits (s : S) (e : Bool) : Prop := Right (s.side e).given s.finished s e

theorem fits_less {s t : S} {e : Bool} (h : Fits s e) (hl : Less t s) (hg : (t.side e).given = (s.side e).given)
    (hf : t.finished = s.finished) : Fits t e := by
  unfold Fits; rw [hg, hf]; exact Right.less h hl

theorem fits_start {s : S} {d e : Bool} {p : Pkt} (h : Fits s e)
    (hc : e = d → p.kind = .command → (p.id, p.c) ∈ (s.side e).given)
    (hr : e ≠ d → p.kind = .reply → (p.id, p.c) ∈ (s.side e).given ∧ (p.c, p.v) ∈ s.finished) :
    Fits (s.start d p) e := by
  unfold Fits
  rw [given_start, show (s.start d p).finished = s.finished from congrArg Prod.snd (hist_start s d p)]
  exact right_start h hc hr

theorem fits_send {s : S} {d e : Bool} {env : Env} {it : Item} {q : List Item} (h : Fits s e)
    (hq : (s.side d).sendq = it :: q) : Fits ((s.upd d (fun x => { x with sendq := q })).send d env it) e := by
  have hless : Less (s.upd d (fun x => { x with sendq := q })) s := by
    refine ⟨fun _ _ h => h, ?_, ?_, ?_⟩ <;> intro e <;> by_cases he : e = d
    · subst he; simp only [S.upd, put_same]; exact fun _ h => h
    · simp only [S.upd, put, if_neg he]; exact fun _ h => h
    · subst he; simp only [S.upd, put_same]; exact fun _ h => h
    · simp only [S.upd, put, if_neg he]; exact fun _ h => h
    · subst he; simp only [S.upd, put_same, hq]; exact fun _ _ _ h => List.mem_cons_of_mem _ h
    · simp only [S.upd, put, if_neg he]; exact fun _ _ _ h => h
  have hpop : Fits (s.upd d (fun x => { x with sendq := q })) e := by
    refine fits_less h hless ?_ rfl
    exact given_upd (fun _ => rfl)
  cases it with
  | cmd c =>
    simp only [S.send]
    split
    · exact fits_less hpop ⟨fun _ _ h => h, fun _ _ h => h, fun _ _ h => h, fun _ _ _ _ h => h⟩ rfl rfl
    · generalize s.upd d (fun x => { x with sendq := q }) = t at hpop ⊢
      have hl : Less (t.upd d (·.number c)) t := less_upd (fun x => ⟨fun _ h => h, fun _ h => h, fun _ _ _ h => h⟩)
      by_cases hd : e = d
      · subst hd
        refine fits_start ?_ (fun _ _ => ?_) (fun hne => absurd rfl hne)
        · unfold Fits
          refine (Right.less hpop hl).mono ?_ (fun x hx => hx)
          simp only [S.upd, put_same, Side.number]
          exact fun x hx => List.mem_append_left _ hx
        · simp [S.upd, Side.number]
      · refine fits_start (fits_less hpop hl ?_ rfl) (fun he => absurd he hd) (fun _ hk => ?_)
        · simp only [S.upd, put, if_neg hd]
        · simp only at hk; split at hk <;> cases hk
  | reply id c v =>
    simp only [S.send]
    refine fits_start hpop (fun _ hk => ?_) (fun hne _ => ?_)
    · simp only at hk; split at hk <;> cases hk
    · have hd : d = !e := by cases d <;> cases e <;> simp_all
      have hm : Item.reply id c v ∈ (s.side (!e)).sendq := by rw [← hd, hq]; exact List.mem_cons_self
      have := Right.repQ h id c v hm
      refine ⟨?_, this.2⟩
      rw [show ((s.upd d (fun x => { x with sendq := q })).side e).given = (s.side e).given from given_upd (fun _ => rfl)]
      exact this.1

theorem fits_flush {s : S} {d e : Bool} {env : Env} (h : Fits s e) : Fits (s.flush d env) e :=
  drain_ind (d := d) (env := env) (fun t => Fits t e) (fun _ _ _ ht hq _ => fits_send ht hq) _ s h

theorem less_of {s t : S} (h1 : t.side = s.side) (h2 : t.wire = s.wire) : Less t s := by
  refine ⟨?_, ?_, ?_, ?_⟩ <;> (try rw [h1]) <;> (try rw [h2])
  · exact fun _ _ h => h
  · exact fun _ _ h => h
  · exact fun _ _ h => h
  · exact fun _ _ _ _ h => h

theorem fits_answer {s : S} {d e : Bool} {p : Pkt} (h : Fits s e) : Fits (s.answer d p) e := by
  unfold S.answer
  split
  · exact h
  · refine fits_less (s := s) h (Less.trans (less_of (t := _) (s := s.upd d (fun x => { x with
      waitq := x.waitq.eraseP (fun e => decide (e.1 = p.id)) })) rfl rfl) ?_) ?_ rfl
    · exact less_upd (fun x => ⟨fun _ h => h, fun _ h => h, fun _ _ _ h => h⟩)
    · exact given_upd (s := s) (d := d) (f := fun x => { x with
        waitq := x.waitq.eraseP (fun e => decide (e.1 = p.id)) }) (fun _ => rfl)

theorem fits_upd {s : S} {d e : Bool} {f : Side → Side} (h : Fits s e)
    (hf : ∀ x : Side, (∀ p, (f x).rbuf = some p → x.rbuf = some p) ∧ (∀ w ∈ (f x).exec, w ∈ x.exec) ∧
      (∀ id c v, Item.reply id c v ∈ (f x).sendq → Item.reply id c v ∈ x.sendq) ∧ (f x).given = x.given) :
    Fits (s.upd d f) e :=
  fits_less h (less_upd (fun x => ⟨(hf x).1, (hf x).2.1, (hf x).2.2.1⟩)) (given_upd (fun x => (hf x).2.2.2)) rfl

theorem fits_handle {s : S} {d e : Bool} {p : Pkt} (h : Fits s e)
    (hp : (!e) = d → p.kind = .command → (p.id, p.c) ∈ (s.side e).given) : Fits (s.handle d p) e := by
  unfold S.handle
  split
  · rename_i hk
    obtain ⟨h2, h3, h4, h5, h6, h7⟩ := h
    cases d <;> cases e <;> refine ⟨?_, ?_, ?_, ?_, ?_, ?_⟩ <;> simp [S.upd] at * <;> (try assumption) <;>
      (intro a b hab; rcases hab with hab | ⟨rfl, rfl⟩) <;> (try exact h4 _ _ hab) <;> exact hp hk
  · exact fits_answer h

theorem fits_recv {s : S} {d e : Bool} (h : Fits s e) : Fits (s.recv d) e := by
  unfold S.recv
  split
  · exact fits_less h (less_close s d) (given_close s d e) (congrArg Prod.snd (hist_close s d))
  · split
    · exact h
    · rename_i p hp
      have h1 : ∀ t : S, Fits t e → Fits (t.again d) e := by
        intro t ht; unfold S.again; split
        · refine fits_upd ht ?_
          exact fun x => ⟨fun _ h => h, fun _ h => h, fun _ _ _ h => h, rfl⟩
        · exact fits_less ht (less_of rfl rfl) rfl rfl
      refine h1 _ (fits_handle ?_ ?_)
      · refine fits_upd h ?_
        exact fun x => ⟨fun _ h => (by cases h), fun _ h => h, fun _ _ _ h => h, rfl⟩
      · intro hd hk
        rw [show ((s.upd d (fun x => { x with rbuf := none, stage := .init })).side e).given = (s.side e).given from
          given_upd (fun _ => rfl)]
        exact Right.cmdBuf h p (by rw [hd]; exact hp) hk
  · split
    · refine fits_upd h ?_
      exact fun x => ⟨fun _ h => h, fun _ h => h, fun _ _ _ h => h, rfl⟩
    · exact fits_less h (less_of rfl rfl) rfl rfl

/-- The connection begins with nothing left of the old one. -/
def Clear (s : S) : Op → Prop
  | .connect _ => (s.side false).exec = [] ∧ ∀ it ∈ (s.side false).sendq, it.own ≠ none
  | _ => True

theorem fits_step {s : S} {e : Bool} (h : Fits s e) (op : Op) (hc : e = false ∨ Clear s op) : Fits (step s op) e := by
  unfold step
  split
  · exact h
  · cases op with
    | submit d c env =>
      simp only [S.submit]
      split
      · exact h
      · split
        · exact h
        · refine fits_flush (fits_upd (fits_less h (less_of rfl rfl) rfl rfl) ?_)
          intro x
          refine ⟨fun _ h => h, fun _ h => h, ?_, rfl⟩
          intro id c' v hm
          simpa using hm
    | finish d i v env =>
      simp only [S.finish]
      split
      · exact h
      · rename_i w hw
        refine fits_flush ?_
        have hmem := List.mem_of_getElem? hw
        obtain ⟨h2, h3, h4, h5, h6, h7⟩ := h
        cases d <;> cases e <;> refine ⟨?_, ?_, ?_, ?_, ?_, ?_⟩ <;> simp [S.upd] at *
        all_goals first
          | assumption
          | exact fun a b hab => h4 a b (List.mem_of_mem_eraseIdx hab)
          | exact fun id c v hm => ⟨(h5 id c v hm).1, Or.inl (h5 id c v hm).2⟩
          | exact fun p hp hk => ⟨(h6 p hp hk).1, Or.inl (h6 p hp hk).2⟩
          | exact fun p hp hk => ⟨(h7 p hp hk).1, Or.inl (h7 p hp hk).2⟩
          | (rintro id c v' (hm | ⟨rfl, rfl, rfl⟩)
             · exact ⟨(h5 id c v' hm).1, Or.inl (h5 id c v' hm).2⟩
             · exact ⟨h4 _ _ hmem, Or.inr ⟨rfl, rfl⟩⟩)
    | wrote d =>
      simp only [S.wrote]; split
      · refine fits_upd h ?_
        exact fun x => ⟨fun _ h => h, fun _ h => h, fun _ _ _ h => h, rfl⟩
      · exact h
    | read d =>
      simp only [S.read]
      split
      · split
        · exact h
        · rename_i p w hw
          split
          · obtain ⟨h2, h3, h4, h5, h6, h7⟩ := h
            cases d <;> cases e <;> refine ⟨?_, ?_, ?_, ?_, ?_, ?_⟩ <;> simp [S.upd] at * <;> simp [hw] at *
            all_goals first
              | assumption
              | exact h2.1
              | exact h2.2
              | exact h6.1
              | exact h6.2
          · refine fits_upd h ?_
            exact fun x => ⟨fun _ h => h, fun _ h => h, fun _ _ _ h => h, rfl⟩
      · exact h
    | fail d =>
      simp only [S.fail]; split
      · refine fits_upd h ?_
        exact fun x => ⟨fun _ h => h, fun _ h => h, fun _ _ _ h => h, rfl⟩
      · exact h
    | dispatch d env =>
      simp only [S.dispatch]
      split
      · exact h
      · refine fits_flush (fits_upd h ?_)
        exact fun x => ⟨fun _ h => h, fun _ h => h, fun _ _ _ h => h, rfl⟩
      · refine fits_recv (fits_upd h ?_)
        exact fun x => ⟨fun _ h => h, fun _ h => h, fun _ _ _ h => h, rfl⟩
      · refine fits_less (fits_upd h ?_) (less_close _ d) (given_close _ d e) (congrArg Prod.snd (hist_close _ d))
        exact fun x => ⟨fun _ h => h, fun _ h => h, fun _ _ _ h => h, rfl⟩
    | expireWait d i =>
      simp only [S.expireWait]
      split
      · exact h
      · refine fits_less (fits_upd (d := d) (f := fun x => { x with waitq := x.waitq.eraseIdx i }) h ?_) (less_of rfl rfl)
          rfl rfl
        exact fun x => ⟨fun _ h => h, fun _ h => h, fun _ _ _ h => h, rfl⟩
    | expireSend d i =>
      simp only [S.expireSend]
      split
      · exact h
      · refine fits_less (fits_upd (d := d) (f := fun x => { x with sendq := x.sendq.eraseIdx i }) h ?_) (less_of rfl rfl)
          rfl rfl
        exact fun x => ⟨fun _ h => h, fun _ h => h, fun _ _ _ h => List.mem_of_mem_eraseIdx h, rfl⟩
    | retry =>
      simp only [S.retry]; split
      · exact h
      · refine fits_upd h ?_
        exact fun x => ⟨fun _ h => h, fun _ h => h, fun _ _ _ h => h, rfl⟩
    | connect env =>
      simp only [S.connect]
      split
      · refine fits_flush ?_
        cases e with
        | false => refine ⟨?_, ?_, ?_, ?_, ?_, ?_⟩ <;> simp [S.joined]
        | true =>
          obtain ⟨h1, h2⟩ := hc.resolve_left (by simp)
          refine ⟨?_, ?_, ?_, ?_, ?_, ?_⟩ <;> simp [S.joined, S.close, h1]
          exact fun id c v hm => absurd rfl (h2 _ hm)
      · exact h

/-! ### Executions and results -/

/-- Nothing was executed, finished or answered with a result. -/
structure Calm (t s : S) : Prop where
  executed : t.executed = s.executed
  finished : t.finished = s.finished
  exec : ∀ d, (t.side d).exec.Sublist (s.side d).exec
  answers : ∀ c v, (c, Res.val v) ∈ t.answers → (c, Res.val v) ∈ s.answers

theorem Calm.refl (s : S) : Calm s s := ⟨rfl, rfl, fun _ => List.Sublist.refl _, fun _ _ h => h⟩

theorem Calm.trans {s t u : S} (h : Calm s t) (h' : Calm t u) : Calm s u :=
  ⟨h.executed.trans h'.executed, h.finished.trans h'.finished, fun d => (h.exec d).trans (h'.exec d),
    fun c v hm => h'.answers c v (h.answers c v hm)⟩

theorem calm_upd {s : S} {d : Bool} {f : Side → Side} (hf : ∀ x : Side, (f x).exec = x.exec) : Calm (s.upd d f) s := by
  refine ⟨rfl, rfl, ?_, fun _ _ h => h⟩
  intro e
  by_cases he : e = d
  · subst he; simp only [S.upd, put_same]; rw [hf]; exact List.Sublist.refl _
  · simp only [S.upd, put, if_neg he]; exact List.Sublist.refl _

theorem calm_of {s t : S} (d : Bool) (f : Side → Side) (hf : ∀ x : Side, (f x).exec = x.exec)
    (hs : t.side = put s.side d (f (s.side d))) (he : t.executed = s.executed) (hg : t.finished = s.finished)
    (ha : ∀ c v, (c, Res.val v) ∈ t.answers → (c, Res.val v) ∈ s.answers) : Calm t s := by
  refine ⟨he, hg, ?_, ha⟩
  rw [hs]
  exact (calm_upd (s := s) (d := d) hf).exec

theorem calm_close (s : S) (d : Bool) : Calm (s.close d) s := by
  cases d
  · refine ⟨rfl, rfl, ?_, fun _ _ h => h⟩
    intro e; cases e <;> simp [S.close]
  · refine ⟨rfl, rfl, ?_, ?_⟩
    · intro e; cases e <;> simp [S.close]
    · intro c v h
      simpa [S.close] using h

theorem calm_start (s : S) (d : Bool) (p : Pkt) : Calm (s.start d p) s := by
  unfold S.start; split
  · have := calm_upd (s := s) (d := d) (f := fun x => { x with busy := true, active := true }) (fun _ => rfl)
    exact ⟨rfl, rfl, this.exec, fun _ _ h => h⟩
  · exact calm_close s d

theorem calm_send (s : S) (d : Bool) (env : Env) (it : Item) : Calm (s.send d env it) s := by
  cases it with
  | cmd c =>
    simp only [S.send]; split
    · refine ⟨rfl, rfl, fun _ => List.Sublist.refl _, ?_⟩
      intro c v h; simpa using h
    · exact (calm_start _ d _).trans (calm_upd (fun _ => rfl))
  | reply id c v => exact calm_start _ d _

theorem calm_flush (s : S) (d : Bool) (env : Env) : Calm (s.flush d env) s := by
  refine drain_ind (d := d) (env := env) (fun t => Calm t s) ?_ _ s (Calm.refl s)
  intro t it q ht _ _
  refine (calm_send _ d env it).trans (Calm.trans ?_ ht)
  exact calm_upd (fun _ => rfl)

theorem calm_connect (s : S) (env : Env) : Calm (s.connect env) s := by
  unfold S.connect
  split
  · refine (calm_flush _ false env).trans (Calm.trans ?_ (calm_close s true))
    refine ⟨rfl, rfl, ?_, fun _ _ h => h⟩
    intro d; cases d <;> simp [S.joined, S.close]
  · exact Calm.refl s

/-- The operations which do not finish an execution and do not process a packet. -/
theorem calm_step (s : S) (op : Op) :
    Calm (step s op) s ∨
      (∃ d i v env w, op = .finish d i v env ∧ (s.side d).exec[i]? = some w ∧ (step s op).executed = s.executed ∧
        (step s op).finished = s.finished ++ [(w.2, v)] ∧
        (∀ e, ((step s op).side e).exec.Sublist (if e = d then (s.side d).exec.eraseIdx i else (s.side e).exec)) ∧
        ∀ c v, (c, Res.val v) ∈ (step s op).answers → (c, Res.val v) ∈ s.answers) ∨
      (∃ d p, (s.side d).rbuf = some p ∧ p.kind = .command ∧ (step s op).finished = s.finished ∧
        (step s op).executed = put s.executed (!d) (s.executed (!d) ++ [p.c]) ∧
        (∀ e, ((step s op).side e).exec = if e = d then (s.side d).exec ++ [(p.id, p.c)] else (s.side e).exec) ∧
        (step s op).answers = s.answers) ∨
      (∃ d p w, (s.side d).rbuf = some p ∧ p.kind = .reply ∧ w ∈ (s.side d).waitq ∧ w.1 = p.id ∧
        (step s op).finished = s.finished ∧ (step s op).executed = s.executed ∧
        (∀ e, ((step s op).side e).exec = (s.side e).exec) ∧
        (step s op).answers = s.answers ++ [(w.2, .val p.v)]) := by
  unfold step
  split
  · exact Or.inl (Calm.refl s)
  · cases op with
    | submit d c env =>
      left
      simp only [S.submit]
      split
      · exact Calm.refl s
      · split
        · exact Calm.refl s
        · refine (calm_flush _ d env).trans (Calm.trans (calm_upd (fun _ => rfl)) ?_)
          exact ⟨rfl, rfl, fun _ => List.Sublist.refl _, fun _ _ h => h⟩
    | finish d i v env =>
      simp only [S.finish]
      cases hw : (s.side d).exec[i]? with
      | none => exact Or.inl (Calm.refl s)
      | some w =>
        right; left
        refine ⟨d, i, v, env, w, rfl, hw, ?_⟩
        dsimp only
        obtain ⟨h1, h2, h3, h4⟩ := calm_flush ({ s.upd d (fun x => { x with exec := x.exec.eraseIdx i }) with
          finished := s.finished ++ [(w.2, v)] }.upd d (fun x => { x with sendq := x.sendq ++ [Item.reply w.1 w.2 v] })) d env
        refine ⟨h1, h2, ?_, h4⟩
        intro e
        refine (h3 e).trans ?_
        by_cases he : e = d
        · subst he; simp [S.upd]
        · simp only [S.upd, put, if_neg he]; exact List.Sublist.refl _
    | wrote d =>
      left; simp only [S.wrote]; split
      · exact calm_upd (fun _ => rfl)
      · exact Calm.refl s
    | read d =>
      left; simp only [S.read]
      split
      · split
        · exact Calm.refl s
        · split
          · exact calm_of d (fun x => { x with rbuf := _, rstart := false, evq := x.evq ++ [.recv] }) (fun _ => rfl) rfl rfl
              rfl (fun _ _ h => h)
          · exact calm_upd (fun _ => rfl)
      · exact Calm.refl s
    | fail d =>
      left; simp only [S.fail]; split
      · exact calm_upd (fun _ => rfl)
      · exact Calm.refl s
    | dispatch d env =>
      simp only [S.dispatch]
      split
      · exact Or.inl (Calm.refl s)
      · exact Or.inl ((calm_flush _ d env).trans (calm_upd (fun _ => rfl)))
      · rename_i q _
        have hside : ∀ e, ((s.upd d (fun x => { x with evq := q })).side e).exec = (s.side e).exec ∧
            ((s.upd d (fun x => { x with evq := q })).side e).waitq = (s.side e).waitq ∧
            ((s.upd d (fun x => { x with evq := q })).side e).rbuf = (s.side e).rbuf := by
          intro e
          by_cases he : e = d
          · subst he; simp [S.upd]
          · simp [S.upd, put, if_neg he]
        have hc0 : Calm (s.upd d (fun x => { x with evq := q })) s := calm_upd (fun _ => rfl)
        have hx : (s.upd d (fun x => { x with evq := q })).executed = s.executed ∧
          (s.upd d (fun x => { x with evq := q })).finished = s.finished ∧
          (s.upd d (fun x => { x with evq := q })).answers = s.answers := ⟨rfl, rfl, rfl⟩
        revert hside hc0 hx
        generalize s.upd d (fun x => { x with evq := q }) = t
        intro hside hc0 ⟨hx1, hx2, hx3⟩
        unfold S.recv
        split
        · exact Or.inl ((calm_close t d).trans hc0)
        · split
          · exact Or.inl hc0
          · rename_i p hp
            have hp' : (s.side d).rbuf = some p := by rw [← (hside d).2.2]; exact hp
            have hag : ∀ u : S, (u.again d).executed = u.executed ∧ (u.again d).finished = u.finished ∧
                (u.again d).answers = u.answers ∧ ∀ e, ((u.again d).side e).exec = (u.side e).exec := by
              intro u; unfold S.again; split
              · refine ⟨rfl, rfl, rfl, ?_⟩
                intro e
                by_cases he : e = d
                · subst he; simp [S.upd]
                · simp [S.upd, put, if_neg he]
              · exact ⟨rfl, rfl, rfl, fun _ => rfl⟩
            have hcan : ∀ w, (t.upd d (fun x => { x with rbuf := none, stage := .init })).answers = t.answers ∧
                (((t.upd d (fun x => { x with rbuf := none, stage := .init })).side w).waitq = (t.side w).waitq) ∧
                (((t.upd d (fun x => { x with rbuf := none, stage := .init })).side w).exec = (t.side w).exec) := by
              intro w
              refine ⟨rfl, ?_, ?_⟩ <;>
              · by_cases he : w = d
                · subst he; simp [S.upd]
                · simp [S.upd, put, if_neg he]
            have hce : (t.upd d (fun x => { x with rbuf := none, stage := .init })).executed = t.executed ∧
              (t.upd d (fun x => { x with rbuf := none, stage := .init })).finished = t.finished := ⟨rfl, rfl⟩
            revert hcan hce
            generalize t.upd d (fun x => { x with rbuf := none, stage := .init }) = u
            intro hcan ⟨hce1, hce2⟩
            obtain ⟨g1, g2, g3, g4⟩ := hag (u.handle d p)
            cases hk : p.kind with
            | command =>
              right; right; left
              refine ⟨d, p, hp', hk, ?_⟩
              rw [g1, g2, g3]
              unfold S.handle at g4 ⊢
              rw [hk] at g4 ⊢
              dsimp only at g4 ⊢
              refine ⟨hce2.trans hx2, ?_, ?_, (hcan d).1.trans hx3⟩
              · show put u.executed _ _ = _
                rw [hce1, hx1]
              · intro e
                rw [g4]
                by_cases he : e = d
                · subst he; simp [S.upd, (hcan e).2.2, (hside e).1]
                · simp [S.upd, put, if_neg he, (hcan e).2.2, (hside e).1]
            | reply =>
              have hh : u.handle d p = u.answer d p := by unfold S.handle; rw [hk]
              cases hf : (u.side d).waitq.find? (fun e => decide (e.1 = p.id)) with
              | none =>
                left
                have ha : u.answer d p = u := by unfold S.answer; rw [hf]
                rw [hh, ha] at g1 g2 g3 g4 ⊢
                refine ⟨g1.trans (hce1.trans hx1), g2.trans (hce2.trans hx2), ?_, ?_⟩
                · intro e; rw [g4, (hcan e).2.2, (hside e).1]; exact List.Sublist.refl _
                · rw [g3, (hcan d).1, hx3]; exact fun _ _ h => h
              | some w =>
                right; right; right
                have ha : (u.answer d p).answers = u.answers ++ [(w.2, .val p.v)] ∧ (u.answer d p).executed = u.executed ∧
                    (u.answer d p).finished = u.finished ∧ ∀ e, ((u.answer d p).side e).exec = (u.side e).exec := by
                  unfold S.answer; rw [hf]
                  refine ⟨?_, rfl, rfl, ?_⟩
                  · simp [hk]
                  · intro e
                    by_cases he : e = d
                    · subst he; simp [S.upd]
                    · simp [S.upd, put, if_neg he]
                have hw1 := List.mem_of_find?_eq_some hf
                have hw2 := List.find?_some hf
                refine ⟨d, p, w, hp', hk, ?_, by simpa using hw2, ?_, ?_, ?_, ?_⟩
                · rw [(hcan d).2.1, (hside d).2.1] at hw1; exact hw1
                · rw [g2, hh, ha.2.2.1, hce2, hx2]
                · rw [g1, hh, ha.2.1, hce1, hx1]
                · intro e; rw [g4, hh, ha.2.2.2, (hcan e).2.2, (hside e).1]
                · rw [g3, hh, ha.1, (hcan d).1, hx3]
            | cancel =>
              left
              have hh : u.handle d p = u.answer d p := by unfold S.handle; rw [hk]
              have ha : (u.answer d p).executed = u.executed ∧ (u.answer d p).finished = u.finished ∧
                  (∀ e, ((u.answer d p).side e).exec = (u.side e).exec) ∧
                  ∀ c v, (c, Res.val v) ∈ (u.answer d p).answers → (c, Res.val v) ∈ u.answers := by
                unfold S.answer
                split
                · exact ⟨rfl, rfl, fun _ => rfl, fun _ _ h => h⟩
                · refine ⟨rfl, rfl, ?_, ?_⟩
                  · intro e
                    by_cases he : e = d
                    · subst he; simp [S.upd]
                    · simp [S.upd, put, if_neg he]
                  · intro c v h; simpa [hk] using h
              rw [hh] at g1 g2 g3 g4 ⊢
              refine ⟨?_, ?_, ?_, ?_⟩
              · rw [g1, ha.1, hce1, hx1]
              · rw [g2, ha.2.1, hce2, hx2]
              · intro e; rw [g4, ha.2.2.1, (hcan e).2.2, (hside e).1]; exact List.Sublist.refl _
              · intro c v h
                rw [g3] at h
                have := ha.2.2.2 c v h
                rw [(hcan d).1, hx3] at this
                exact this
        · left
          split
          · refine Calm.trans ?_ hc0
            exact calm_upd (fun _ => rfl)
          · exact ⟨hc0.executed, hc0.finished, hc0.exec, hc0.answers⟩
      · exact Or.inl ((calm_close _ d).trans (calm_upd (fun _ => rfl)))
    | expireWait d i =>
      left; simp only [S.expireWait]
      split
      · exact Calm.refl s
      · refine calm_of d (fun x => { x with waitq := x.waitq.eraseIdx i }) (fun _ => rfl) rfl rfl rfl ?_
        intro c v h; simpa [S.upd] using h
    | expireSend d i =>
      left; simp only [S.expireSend]
      split
      · exact Calm.refl s
      · rename_i it _
        refine calm_of d (fun x => { x with sendq := x.sendq.eraseIdx i }) (fun _ => rfl) rfl rfl rfl ?_
        intro c v h
        cases it <;> simpa [S.upd, Item.own] using h
    | retry =>
      left; simp only [S.retry]; split
      · exact Calm.refl s
      · exact calm_upd (fun _ => rfl)
    | connect env => exact Or.inl (calm_connect s env)

end Verif.SockCmd
