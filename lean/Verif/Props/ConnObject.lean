import Verif.Spec.ConnObject

/-!
# C73: settings of a connection are fixed once it is requested
-/

namespace Verif.ConnObj

open Spec
open ConnMgr (St)

theorem stateName_inj {s t : St} (h : stateName s = stateName t) : s = t := by
  cases s <;> cases t <;> first | rfl | (exact absurd h (by decide))

/-! ### One call -/

theorem setField_allowed {o : Obj} (h : o.allowed = "") (n v : String) :
    (setField o n v).2.allowed = "" ∧ (setField o n v).2.state = o.state ∧
    (setField o n v).1 = decide (o.state = .init) ∧
    (∀ k, (setField o n v).2.fields k = if o.state = .init ∧ fieldName n = k then some v else o.fields k) ∧
    (setField o n v).2.fired = (if o.state = .init ∧ fieldName n = "state" then o.fired ++ [v] else o.fired) := by
  have hc : canChange o (fieldName n) = (decide (o.state = .init), o) := by
    unfold canChange
    rw [if_neg (by rw [h]; simp), if_neg (by rw [h]; rintro ⟨_, e⟩; exact absurd e (by decide))]
  unfold setField
  dsimp only
  rw [hc]
  dsimp only
  by_cases hs : o.state = .init
  · rw [if_pos (by simp [hs])]
    refine ⟨h, rfl, by simp [hs], ?_, ?_⟩
    · intro k
      dsimp only
      by_cases e : k = fieldName n
      · rw [if_pos e, if_pos ⟨hs, e.symm⟩]
      · rw [if_neg e, if_neg (by rintro ⟨_, x⟩; exact e x.symm)]
    · dsimp only
      by_cases e : fieldName n = "state"
      · rw [if_pos e, if_pos ⟨hs, e⟩]
      · rw [if_neg e, if_neg (by rintro ⟨_, x⟩; exact e x)]
  · rw [if_neg (by simp [hs])]
    refine ⟨h, rfl, by simp [hs], ?_, ?_⟩
    · intro k; rw [if_neg (by rintro ⟨x, _⟩; exact hs x)]
    · rw [if_neg (by rintro ⟨x, _⟩; exact hs x)]

theorem fieldName_of_ne {n : String} (h : n ≠ "") : fieldName n = n := if_neg h

theorem setForced_facts {o : Obj} {n : String} (hn : n ≠ "") (v : String) :
    (setForced o n v).allowed = "" ∧ (setForced o n v).state = o.state ∧ (setForced o n v).pool = o.pool ∧
    (∀ k, (setForced o n v).fields k = if n = k then some v else o.fields k) ∧
    (setForced o n v).fired = (if n = "state" then o.fired ++ [v] else o.fired) := by
  unfold setForced setField
  dsimp only
  rw [fieldName_of_ne hn]
  have hc : canChange (setAllowed o n) n = (true, { o with allowed := "" }) := by
    unfold canChange
    rw [if_pos ⟨hn, rfl⟩]
    rfl
  rw [hc]
  dsimp only
  rw [if_pos rfl]
  refine ⟨rfl, rfl, rfl, ?_, rfl⟩
  intro k
  show (if k = n then some v else o.fields k) = _
  by_cases e : k = n
  · rw [if_pos e.symm, if_pos e]
  · rw [if_neg e, if_neg (fun x => e x.symm)]

theorem changeState_facts {o : Obj} (h : o.allowed = "") (s : St) (f : Bool) :
    (changeState o s f).allowed = "" ∧
    (changeState o s f).state = (if changes o s f then s else o.state) ∧ (changeState o s f).pool = o.pool ∧
    (∀ k, (changeState o s f).fields k =
      if signals o s f = true ∧ k = "state" then some (stateName s) else o.fields k) ∧
    (changeState o s f).fired = (if signals o s f then o.fired ++ [stateName s] else o.fired) := by
  unfold changeState
  cases hs : signals o s f with
  | true =>
    have h1 : changes o s f = true := by
      unfold signals at hs; simp at hs; exact hs.1
    have h2 : s ≠ .init := by
      unfold signals at hs; simp at hs; exact hs.2
    have hb : changeBegin o s f = { o with state := s, allowed := "%%state%%" } := by
      unfold changeBegin
      rw [if_pos h1, if_pos h2]
    rw [if_pos rfl, hb]
    unfold setField fieldName
    dsimp only
    rw [if_pos rfl]
    have hc : canChange { o with state := s, allowed := "%%state%%" } "state" =
        (true, { o with state := s, allowed := "" }) := by
      unfold canChange
      rw [if_neg (by dsimp only; rintro ⟨_, e⟩; exact absurd e (by decide)), if_pos ⟨rfl, rfl⟩]
    rw [hc]
    dsimp only
    rw [if_pos rfl, h1]
    refine ⟨rfl, rfl, rfl, ?_, rfl⟩
    intro k
    show (if k = "state" then some (stateName s) else o.fields k) = _
    by_cases e : k = "state"
    · rw [if_pos e, if_pos ⟨rfl, e⟩]
    · rw [if_neg e, if_neg (fun x => e x.2)]
  | false =>
    rw [if_neg (by decide)]
    unfold changeBegin
    cases h1 : changes o s f with
    | true =>
      have h2 : s = .init := by
        unfold signals at hs; rw [h1] at hs; simpa using hs
      rw [if_pos rfl, if_pos rfl, if_neg (by simp [h2])]
      exact ⟨h, rfl, rfl, fun k => by rw [if_neg (by rintro ⟨x, _⟩; cases x)], rfl⟩
    | false => exact ⟨h, rfl, rfl, fun k => (if_neg (fun x => by cases x.1)).symm, rfl⟩

theorem changes_state (o : Obj) (s : St) (f : Bool) :
    (if changes o s f then s else o.state) =
      (if s = .pending ∧ f = false then (if o.state = .init then .pending else o.state) else s) := by
  unfold changes
  by_cases h1 : o.state = s
  · rw [if_pos h1, if_neg (by decide)]
    by_cases h2 : s = .pending ∧ f = false
    · rw [if_pos h2, h1, h2.1]; decide
    · rw [if_neg h2, h1]
  · rw [if_neg h1]
    cases f with
    | true => simp
    | false =>
      by_cases h2 : s = .pending
      · by_cases h3 : o.state = .init
        · simp [h2, h3]
        · simp [h2, h3]
      · simp [h2]

/-! ### Histories -/

/-- Forced changes always have a name. -/
def Named (ops : List Op) : Prop := ∀ n v, Op.forced n v ∈ ops → n ≠ ""

theorem step_allowed {o : Obj} (h : o.allowed = "") (op : Op) (hn : ∀ n v, op = .forced n v → n ≠ "") :
    (step o op).allowed = "" := by
  cases op with
  | set n v => exact (setField_allowed h n v).1
  | change s f => exact (changeState_facts h s f).1
  | forced n v => exact (setForced_facts (hn n v rfl) v).1

theorem step_state {o : Obj} (h : o.allowed = "") (op : Op) (hn : ∀ n v, op = .forced n v → n ≠ "") :
    (step o op).state = stateAfter o.state [op] := by
  cases op with
  | set n v => exact (setField_allowed h n v).2.1
  | change s f => exact (changeState_facts h s f).2.1.trans (changes_state o s f)
  | forced n v => exact (setForced_facts (hn n v rfl) v).2.1

theorem stateAfter_cons (s : St) (op : Op) (ops : List Op) :
    stateAfter s (op :: ops) = stateAfter (stateAfter s [op]) ops := by
  cases op <;> rfl

/-- The state is what the calls say: forced changes always count, "pending" without force only from "init". -/
theorem C73_state {o : Obj} (h : o.allowed = "") (ops : List Op) (hn : Named ops) :
    (run o ops).state = stateAfter o.state ops ∧ (run o ops).allowed = "" := by
  induction ops generalizing o with
  | nil => exact ⟨rfl, h⟩
  | cons op ops ih =>
    have h1 := step_allowed h op (fun n v e => hn n v (e ▸ List.mem_cons_self ..))
    have h2 := step_state h op (fun n v e => hn n v (e ▸ List.mem_cons_self ..))
    have := ih h1 (fun n v hm => hn n v (List.mem_cons_of_mem _ hm))
    refine ⟨?_, this.2⟩
    rw [stateAfter_cons, ← h2]
    exact this.1

example : (run {} [.change .pending false, .change .connected true, .change .pending false]).state = .connected := by
  decide

theorem names_iff {k n : String} (hk : k ≠ "") : names k n ↔ fieldName n = k := by
  unfold names fieldName
  by_cases hn : n = ""
  · rw [if_pos hn, hn]
    constructor
    · rintro (h | ⟨_, h⟩)
      · exact absurd h.symm hk
      · exact h.symm
    · intro h
      exact Or.inr ⟨rfl, h.symm⟩
  · rw [if_neg hn]
    constructor
    · rintro (h | ⟨h, _⟩)
      · exact h
      · exact absurd h hn
    · exact Or.inl

/-- Settings: a field has the last value which was set in state init or with permission; all other attempts change
nothing. -/
theorem C73_settings {o : Obj} (h : o.allowed = "") (ops : List Op) (hn : Named ops) (k : String) (hk : k ≠ "")
    (hs : k ≠ "state") : (run o ops).fields k = valueAfter k o.state (o.fields k) ops := by
  induction ops generalizing o with
  | nil => rfl
  | cons op ops ih =>
    have hop : ∀ n v, op = .forced n v → n ≠ "" := fun n v e => hn n v (e ▸ List.mem_cons_self ..)
    have h1 := step_allowed h op hop
    have h2 := step_state h op hop
    have := ih h1 (fun n v hm => hn n v (List.mem_cons_of_mem _ hm))
    show (run (step o op) ops).fields k = _
    rw [this, h2]
    cases op with
    | set n v =>
      show valueAfter k o.state _ ops = valueAfter k o.state _ ops
      congr 1
      rw [show step o (.set n v) = (setField o n v).2 from rfl, (setField_allowed h n v).2.2.2.1 k]
      by_cases e : o.state = .init ∧ names k n
      · rw [if_pos e, if_pos ⟨e.1, (names_iff hk).mp e.2⟩]
      · rw [if_neg e, if_neg (fun x => e ⟨x.1, (names_iff hk).mpr x.2⟩)]
    | forced n v =>
      show valueAfter k o.state _ ops = valueAfter k o.state _ ops
      congr 1
      rw [show step o (.forced n v) = setForced o n v from rfl, (setForced_facts (hop n v rfl) v).2.2.2.1 k]
      have : names k n ↔ n = k := by rw [names_iff hk, fieldName_of_ne (hop n v rfl)]
      by_cases e : n = k
      · rw [if_pos e, if_pos (this.mpr e)]
      · rw [if_neg e, if_neg (fun x => e (this.mp x))]
    | change s f =>
      show valueAfter k _ _ ops = valueAfter k _ _ ops
      congr 1
      rw [show step o (.change s f) = changeState o s f from rfl, (changeState_facts h s f).2.2.2.1 k, if_neg]
      rintro ⟨_, e⟩
      exact hs e

example : (run {} [.set "url" "a", .change .pending false, .set "url" "b", .forced "thread" "t", .set "thread" "u"]).fields
    "url" = some "a" := by decide

/-- As long as the object is not in state init, its value is the name of its state. -/
theorem C73_value {o : Obj} (h : o.allowed = "") (hv : o.state ≠ .init → o.fields "state" = some (stateName o.state))
    (ops : List Op) (hn : ∀ n v, Op.forced n v ∈ ops → n ≠ "" ∧ n ≠ "state") :
    (run o ops).state ≠ .init → (run o ops).fields "state" = some (stateName (run o ops).state) := by
  induction ops generalizing o with
  | nil => exact hv
  | cons op ops ih =>
    have hop : ∀ n v, op = .forced n v → n ≠ "" ∧ n ≠ "state" := fun n v e => hn n v (e ▸ List.mem_cons_self ..)
    refine ih (step_allowed h op fun n v e => (hop n v e).1) ?_ (fun n v hm => hn n v (List.mem_cons_of_mem _ hm))
    cases op with
    | set n v =>
      obtain ⟨_, a, _, b, _⟩ := setField_allowed h n v
      show (setField o n v).2.state ≠ .init → (setField o n v).2.fields "state" = some (stateName (setField o n v).2.state)
      rw [a, b]
      intro hne
      rw [if_neg (fun x => hne x.1)]
      exact hv hne
    | forced n v =>
      obtain ⟨_, a, _, b, _⟩ := setForced_facts (o := o) (hop n v rfl).1 v
      show (setForced o n v).state ≠ .init → (setForced o n v).fields "state" = some (stateName (setForced o n v).state)
      rw [a, b, if_neg (hop n v rfl).2]
      exact hv
    | change s f =>
      obtain ⟨_, a, _, b, _⟩ := changeState_facts h s f
      show (changeState o s f).state ≠ .init →
        (changeState o s f).fields "state" = some (stateName (changeState o s f).state)
      rw [a, b]
      unfold signals
      cases hc : changes o s f with
      | true =>
        rw [if_pos rfl]
        intro hne
        rw [if_pos ⟨by simp [hne], rfl⟩]
      | false =>
        rw [if_neg (by decide), if_neg (by rintro ⟨x, _⟩; simp at x)]
        exact hv

example : ((run {} [.change .pending false, .change .connected true]).fields "state") = some "Connected" := by decide

/-- A change of the state is told exactly once, with the name of the new state, except the change to init, which is
not told at all. -/
theorem C73_told {o : Obj} (h : o.allowed = "") (s : St) (f : Bool) :
    (changeState o s f).fired =
      if (changeState o s f).state ≠ o.state ∧ s ≠ .init then o.fired ++ [stateName s] else o.fired := by
  obtain ⟨_, a, _, _, b⟩ := changeState_facts h s f
  rw [b, a]
  unfold signals
  cases hc : changes o s f with
  | true =>
    have hne : s ≠ o.state := by
      rintro rfl
      unfold changes at hc
      simp at hc
    simp [hne]
  | false => simp

example : (changeState {} .pending false).fired = ["Pending"] := by decide

theorem keep {x : Obj} (hx : x.allowed = "") (hs : x.state = .init) (n v : String) (hn : fieldName n ≠ "state") :
    (setField x n v).2.allowed = "" ∧ (setField x n v).2.state = .init ∧ (setField x n v).2.fired = x.fired ∧
    ∀ k, (setField x n v).2.fields k = if fieldName n = k then some v else x.fields k := by
  obtain ⟨a, b, _, c, d⟩ := setField_allowed hx n v
  refine ⟨a, b.trans hs, by rw [d, if_neg (fun y => hn y.2)], ?_⟩
  intro k
  rw [c]
  by_cases e : fieldName n = k
  · rw [if_pos ⟨hs, e⟩, if_pos e]
  · rw [if_neg (fun y => e y.2), if_neg e]

theorem released {x : Obj} (hx : x.allowed = "") (hs : x.state = .init) :
    (release x).allowed = "" ∧ (release x).state = .pending ∧ (release x).fields "state" = some "Pending" ∧
    (∀ k, k ≠ "state" → (release x).fields k = x.fields k) ∧ (release x).fired = x.fired ++ ["Pending"] := by
  obtain ⟨a, b, _, c, d⟩ := changeState_facts hx .pending false
  have h1 : changes x .pending false = true := by unfold changes; rw [hs]; decide
  have h2 : signals x .pending false = true := by unfold signals; rw [h1]; decide
  rw [h1] at b
  rw [h2] at d
  refine ⟨a, b, ?_, ?_, d⟩
  · rw [show (release x).fields = (changeState x .pending false).fields from rfl, c, if_pos ⟨h2, rfl⟩]
    rfl
  · intro k hk
    rw [show (release x).fields = (changeState x .pending false).fields from rfl, c, if_neg (fun y => hk y.2)]

/-- A request made by `MakeConnReq` has all settings of the port, is pending and was told once; whatever the state of
the object was before. -/
theorem C73_request {o : Obj} (h : o.allowed = "") (c : Cfg) :
    let r := makeReq o c
    r.state = .pending ∧ r.fields "url" = some c.url ∧ r.fields "server" = some c.server ∧
    r.fields "thread" = some c.thread ∧ r.fields "useackn" = some c.useackn ∧ r.fields "optional" = some c.optional ∧
    r.fields "device" = some c.device ∧ r.fields "timeout" = some c.timeout ∧
    r.fields "state" = some "Pending" ∧ r.fired = o.fired ++ ["Pending"] ∧ r.allowed = "" := by
  have f1 := changeState_facts h .init true
  have s1 : (changeState o .init true).state = .init := f1.2.1.trans (changes_state o .init true)
  have g1 : (changeState o .init true).fired = o.fired := by
    rw [f1.2.2.2.2]
    unfold signals
    simp
  unfold makeReq
  dsimp only
  generalize changeState o .init true = x0 at *
  have k1 := keep f1.1 s1 "url" c.url (by decide)
  generalize (setField x0 "url" c.url).2 = x1 at *
  have k2 := keep k1.1 k1.2.1 "server" c.server (by decide)
  generalize (setField x1 "server" c.server).2 = x2 at *
  have k3 := keep k2.1 k2.2.1 "thread" c.thread (by decide)
  generalize (setField x2 "thread" c.thread).2 = x3 at *
  have k4 := keep k3.1 k3.2.1 "useackn" c.useackn (by decide)
  generalize (setField x3 "useackn" c.useackn).2 = x4 at *
  have k5 := keep k4.1 k4.2.1 "optional" c.optional (by decide)
  generalize (setField x4 "optional" c.optional).2 = x5 at *
  have k6 := keep k5.1 k5.2.1 "device" c.device (by decide)
  generalize (setField x5 "device" c.device).2 = x6 at *
  have k7 := keep k6.1 k6.2.1 "timeout" c.timeout (by decide)
  generalize (setField x6 "timeout" c.timeout).2 = x7 at *
  obtain ⟨q1, q2, q3, q4, q5⟩ := released k7.1 k7.2.1
  refine ⟨q2, ?_, ?_, ?_, ?_, ?_, ?_, ?_, q3, ?_, q1⟩
  · rw [q4 _ (by decide), k7.2.2.2, if_neg (by decide), k6.2.2.2, if_neg (by decide), k5.2.2.2, if_neg (by decide),
      k4.2.2.2, if_neg (by decide), k3.2.2.2, if_neg (by decide), k2.2.2.2, if_neg (by decide), k1.2.2.2, if_pos (by decide)]
  · rw [q4 _ (by decide), k7.2.2.2, if_neg (by decide), k6.2.2.2, if_neg (by decide), k5.2.2.2, if_neg (by decide),
      k4.2.2.2, if_neg (by decide), k3.2.2.2, if_neg (by decide), k2.2.2.2, if_pos (by decide)]
  · rw [q4 _ (by decide), k7.2.2.2, if_neg (by decide), k6.2.2.2, if_neg (by decide), k5.2.2.2, if_neg (by decide),
      k4.2.2.2, if_neg (by decide), k3.2.2.2, if_pos (by decide)]
  · rw [q4 _ (by decide), k7.2.2.2, if_neg (by decide), k6.2.2.2, if_neg (by decide), k5.2.2.2, if_neg (by decide),
      k4.2.2.2, if_pos (by decide)]
  · rw [q4 _ (by decide), k7.2.2.2, if_neg (by decide), k6.2.2.2, if_neg (by decide), k5.2.2.2, if_pos (by decide)]
  · rw [q4 _ (by decide), k7.2.2.2, if_neg (by decide), k6.2.2.2, if_pos (by decide)]
  · rw [q4 _ (by decide), k7.2.2.2, if_pos (by decide)]
  · rw [q5, k7.2.2.1, k6.2.2.1, k5.2.2.1, k4.2.2.1, k3.2.2.1, k2.2.2.1, k1.2.2.1, g1]

example : (makeReq { state := .broken } ⟨"u", "true", "t", "true", "false", "d", "10"⟩).fields "device" = some "d" := by
  decide

/-- The configuration of a connection from a node sets, in every state, exactly the attributes which the node has. -/
theorem C73_config {o : Obj} (h : o.allowed = "") (x : Node) :
    let r := setConfig o x
    r.state = o.state ∧ r.allowed = "" ∧ r.fired = o.fired ∧ r.pool = x.pool.getD o.pool ∧
    r.fields "thread" = (x.thread.orElse fun _ => o.fields "thread") ∧
    r.fields "useackn" = (x.useackn.orElse fun _ => o.fields "useackn") ∧
    r.fields "server" = (x.server.orElse fun _ => o.fields "server") ∧
    r.fields "optional" = (x.optional.orElse fun _ => o.fields "optional") ∧
    r.fields "device" = (x.device.orElse fun _ => o.fields "device") ∧
    r.fields "timeout" = (x.timeout.orElse fun _ => o.fields "timeout") ∧
    ∀ k, k ∉ ["thread", "useackn", "server", "optional", "device", "timeout"] → r.fields k = o.fields k := by
  have one : ∀ (o : Obj) (n : String) (v : Option String), n ≠ "" → n ≠ "state" → o.allowed = "" →
      (setAttr o n v).allowed = "" ∧ (setAttr o n v).state = o.state ∧ (setAttr o n v).pool = o.pool ∧
      (setAttr o n v).fired = o.fired ∧
      ∀ k, (setAttr o n v).fields k = if n = k then (v.orElse fun _ => o.fields k) else o.fields k := by
    intro o n v h1 h2 h3
    cases v with
    | none => exact ⟨h3, rfl, rfl, rfl, fun k => by split <;> rfl⟩
    | some v =>
      obtain ⟨a, b, c, d, e⟩ := setForced_facts (o := o) h1 v
      refine ⟨a, b, c, by rw [show setAttr o n (some v) = setForced o n v from rfl, e, if_neg h2], ?_⟩
      intro k
      rw [show setAttr o n (some v) = setForced o n v from rfl, d]
      split <;> rfl
  have k1 := one o "thread" x.thread (by decide) (by decide) h
  have k2 := one _ "useackn" x.useackn (by decide) (by decide) k1.1
  have k3 := one _ "server" x.server (by decide) (by decide) k2.1
  have k4 := one _ "optional" x.optional (by decide) (by decide) k3.1
  let o4 := setAttr (setAttr (setAttr (setAttr o "thread" x.thread) "useackn" x.useackn) "server" x.server)
    "optional" x.optional
  let o5 : Obj := match x.pool with
    | none => o4
    | some p => { o4 with pool := p }
  have h5 : o5.allowed = "" ∧ o5.state = o4.state ∧ o5.fields = o4.fields ∧ o5.fired = o4.fired ∧
      o5.pool = x.pool.getD o4.pool := by
    show Obj.allowed (match x.pool with | none => o4 | some p => { o4 with pool := p }) = "" ∧ _
    simp only [o5]
    cases x.pool <;> exact ⟨k4.1, rfl, rfl, rfl, rfl⟩
  have k6 := one o5 "device" x.device (by decide) (by decide) h5.1
  have k7 := one _ "timeout" x.timeout (by decide) (by decide) k6.1
  have e : setConfig o x = setAttr (setAttr o5 "device" x.device) "timeout" x.timeout := rfl
  have hf : ∀ k, (setConfig o x).fields k =
      if "timeout" = k then (x.timeout.orElse fun _ => o.fields k)
      else if "device" = k then (x.device.orElse fun _ => o.fields k)
      else if "optional" = k then (x.optional.orElse fun _ => o.fields k)
      else if "server" = k then (x.server.orElse fun _ => o.fields k)
      else if "useackn" = k then (x.useackn.orElse fun _ => o.fields k)
      else if "thread" = k then (x.thread.orElse fun _ => o.fields k)
      else o.fields k := by
    intro k
    rw [e, k7.2.2.2.2, k6.2.2.2.2, h5.2.2.1, k4.2.2.2.2, k3.2.2.2.2, k2.2.2.2.2, k1.2.2.2.2]
    by_cases a1 : "timeout" = k
    · subst a1; simp
    · by_cases a2 : "device" = k
      · subst a2; simp
      · by_cases a3 : "optional" = k
        · subst a3; simp
        · by_cases a4 : "server" = k
          · subst a4; simp
          · by_cases a5 : "useackn" = k
            · subst a5; simp
            · simp [a1, a2, a3, a4, a5]
  refine ⟨?_, ?_, ?_, ?_, ?_, ?_, ?_, ?_, ?_, ?_, ?_⟩
  · rw [e, k7.2.1, k6.2.1, h5.2.1, k4.2.1, k3.2.1, k2.2.1, k1.2.1]
  · rw [e]; exact k7.1
  · rw [e, k7.2.2.2.1, k6.2.2.2.1, h5.2.2.2.1, k4.2.2.2.1, k3.2.2.2.1, k2.2.2.2.1, k1.2.2.2.1]
  · rw [e, k7.2.2.1, k6.2.2.1, h5.2.2.2.2, k4.2.2.1, k3.2.2.1, k2.2.2.1, k1.2.2.1]
  · rw [hf]; rfl
  · rw [hf]; rfl
  · rw [hf]; rfl
  · rw [hf]; rfl
  · rw [hf]; rfl
  · rw [hf]; rfl
  · intro k hk
    rw [hf]
    simp only [List.mem_cons, List.not_mem_nil, or_false, not_or] at hk
    obtain ⟨a1, a2, a3, a4, a5, a6⟩ := hk
    rw [if_neg (fun y => a6 y.symm), if_neg (fun y => a5 y.symm), if_neg (fun y => a4 y.symm),
      if_neg (fun y => a3 y.symm), if_neg (fun y => a2 y.symm), if_neg (fun y => a1 y.symm)]

example : (setConfig { state := .connected } { device := some "d" }).fields "device" = some "d" := by decide

/-! ### Several threads -/

theorem canChange_cases (o : Obj) (n : String) :
    ((canChange o n).1 = true ∧ o.allowed ≠ "" ∧ (canChange o n).2.allowed = "" ∧ (canChange o n).2.state = o.state) ∨
    ((canChange o n).1 = decide (o.state = .init) ∧ (canChange o n).2 = o) := by
  unfold canChange
  split
  next h => exact Or.inl ⟨rfl, h.1, rfl, rfl⟩
  · split
    next h => exact Or.inl ⟨rfl, by rw [h.2]; decide, rfl, rfl⟩
    · exact Or.inr ⟨rfl, rfl⟩

/-- Any interleaving of the sections of any threads: outside of state init at most as many changes happen as
permissions were given. -/
theorem C73_permission (o : Obj) (l : List Prim) :
    lateChanges o l ≤ (if o.allowed = "" then 0 else 1) + (l.map permits).sum := by
  induction l generalizing o with
  | nil => simp [lateChanges]
  | cons p l ih =>
    have := ih (prim o p)
    cases p with
    | field n v =>
      show (if o.state ≠ .init ∧ (setField o n v).1 then 1 else 0) + lateChanges (prim o (.field n v)) l ≤ _
      have hs : (setField o n v).1 = (canChange o (fieldName n)).1 ∧
          (prim o (.field n v)).allowed = (canChange o (fieldName n)).2.allowed := by
        show (setField o n v).1 = _ ∧ (setField o n v).2.allowed = _
        unfold setField
        dsimp only
        split
        next h => exact ⟨h.symm, rfl⟩
        next h => exact ⟨by simpa using h, rfl⟩
      have hsum : ((Prim.field n v :: l).map permits).sum = (l.map permits).sum := by simp [permits]
      rw [hsum]
      rw [hs.2] at this
      rcases canChange_cases o (fieldName n) with ⟨_, c, d, _⟩ | ⟨a, b⟩
      · rw [if_pos d] at this
        rw [if_neg c]
        have : (if o.state ≠ .init ∧ (setField o n v).1 = true then 1 else 0) ≤ 1 := by split <;> omega
        omega
      · rw [b] at this
        rw [if_neg (by rw [hs.1, a]; rintro ⟨x, y⟩; simp [x] at y)]
        omega
    | allow n =>
      show 0 + lateChanges (prim o (.allow n)) l ≤ _
      have hsum : ((Prim.allow n :: l).map permits).sum = 1 + (l.map permits).sum := by simp [permits]
      rw [hsum]
      have : (if (prim o (.allow n)).allowed = "" then 0 else 1) ≤ 1 := by split <;> omega
      omega
    | begin s f =>
      show 0 + lateChanges (prim o (.begin s f)) l ≤ _
      have hsum : ((Prim.begin s f :: l).map permits).sum = 1 + (l.map permits).sum := by simp [permits]
      rw [hsum]
      have : (if (prim o (.begin s f)).allowed = "" then 0 else 1) ≤ 1 := by split <;> omega
      omega

example : lateChanges { state := .connected } [.allow "thread", .field "thread" "t", .field "thread" "u"] = 1 := by decide

/-! ### What goes wrong -/

/-- `ManagerRef::Connect` sets the last created device only after the request is pending: no device is ever set. -/
theorem C73_device_counterexample {o : Obj} (h : o.allowed = "") (c : Cfg) (last : String) (hc : c.device = "") :
    (connect o c last).fields "device" = some "" := by
  obtain ⟨hp, _, _, _, _, _, hd, _, _, _, ha⟩ := C73_request h c
  unfold connect
  dsimp only
  rw [if_pos (by rw [hd, hc]; rfl), (setField_allowed ha "device" last).2.2.2.1, hp, if_neg (by rintro ⟨x, _⟩; cases x), hd, hc]

/-- Back in state init the value still shows the state before. -/
theorem C73_init_value_counterexample :
    let o := run {} [.change .pending false, .change .connected true, .change .init true]
    o.state = .init ∧ o.fields "state" = some "Connected" := by decide

/-- Two threads: a setting with permission is lost when the state changes between the two sections. -/
theorem C73_lost_setting_counterexample :
    (prims { state := .connected } [.allow "thread", .begin .broken true, .field "thread" "t", .field "" "Broken"]).fields
      "thread" = none := by decide

/-- Two threads: a change of the state is not told when another permission comes between its two sections; the
connection manager never hears of the broken connection. -/
theorem C73_lost_state_counterexample :
    let o := prims { state := .connected, fields := fun k => if k = "state" then some "Connected" else none }
      [.begin .broken true, .allow "thread", .field "" "Broken", .field "thread" "t"]
    o.state = .broken ∧ o.fired = [] ∧ o.fields "state" = some "Connected" := by decide

end Verif.ConnObj
