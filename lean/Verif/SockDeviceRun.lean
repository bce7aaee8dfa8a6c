import Verif.SockDeviceInv

namespace Verif.SockDevice

open Verif.Bytes Spec

/-! ## Addons -/

theorem proto?_some {s : Dev} {a : Nat} {p : Proto} (h : s.proto? a = some p) : (a, p) ∈ s.protos := by
  simp only [Dev.proto?, Option.map_eq_some_iff] at h
  obtain ⟨x, hx, rfl⟩ := h
  have h1 := List.mem_of_find?_eq_some hx
  have h2 := List.find?_some hx
  simp only [beq_iff_eq] at h2
  rw [← h2]
  exact h1

theorem proto?_none {s : Dev} {a : Nat} (h : s.proto? a = none) : ∀ q ∈ s.protos, q.1 ≠ a := by
  simp only [Dev.proto?, Option.map_eq_none_iff, List.find?_eq_none, beq_iff_eq] at h
  exact h

theorem proto?_isNone {s : Dev} {a : Nat} (h : ¬ (s.proto? a).isSome = true) : s.proto? a = none := by
  cases h' : s.proto? a with
  | none => rfl
  | some x => rw [h'] at h; exact absurd rfl h

theorem mem_setProto {s : Dev} {a : Nat} {p : Proto} {q : Nat × Proto}
    (h : q ∈ (s.setProto a p).protos) : q = (a, p) ∨ (q ∈ s.protos ∧ q.1 ≠ a) := by
  obtain ⟨x, hx, rfl⟩ := List.mem_map.mp h
  by_cases hxa : x.1 = a
  · exact Or.inl (if_pos hxa)
  · rw [if_neg hxa]
    exact Or.inr ⟨hx, hxa⟩

/-- The effect of `ServerProtocolRequest`: the addon answers, either positively with the record of
the id of the message, or negatively. -/
theorem serverRequest_cases (s : Dev) (a : Nat) (msg : List Byte) :
    (∃ id pr, AsksFor msg id ∧ s.find id = some pr ∧
      s.serverRequest a msg =
        { s.setProto a ⟨some pr.1, .answer, id⟩ with
          sends := s.sends ++ [(a, true)], list := s.list.erase a }) ∨
    (∃ b, s.serverRequest a msg =
        { s.setProto a ⟨none, .answer, []⟩ with sends := s.sends ++ [(a, false)], bad := b } ∧
      (b = s.bad ∨ ¬ Terminated msg)) := by
  unfold Dev.serverRequest
  by_cases h : dec (msg.take 4) = headerConnect
  · rw [if_neg (fun h' => h' h)]
    cases hc : cstr (msg.drop 4) with
    | none => exact Or.inr ⟨_, rfl, Or.inr (cstr_none.mp hc)⟩
    | some id =>
      dsimp only
      cases hf : s.find id with
      | none => exact Or.inr ⟨_, rfl, Or.inl rfl⟩
      | some pr =>
        obtain ⟨h0, r, hr⟩ := cstr_some hc
        exact Or.inl ⟨id, pr, ⟨r, hr, h0, h⟩, hf, rfl⟩
  · rw [if_pos h]
    exact Or.inr ⟨_, rfl, Or.inl rfl⟩

/-- The effect of `ProtocolCompleted`. -/
theorem completed_cases (s : Dev) (a : Nat) (p : Proto) (res ok : Bool) :
    (s.completed a p res ok = { s.delProto a with list := s.list.erase a } ∧
      (p.ptr = none ∨ ∃ q, p.ptr = some q ∧ s.rec? q = none)) ∨
    (∃ q r, p.ptr = some q ∧ s.rec? q = some r ∧
      s.completed a p res ok =
        { s.delProto a with
          recs := s.recs.filter fun x => x.1 != q
          replies := s.replies ++ [(r.cmd, res && ok)]
          made := if res && ok then s.made ++ [⟨r.cmd, r.id, a, p.key⟩] else s.made }) := by
  unfold Dev.completed
  cases hp : p.ptr with
  | none => exact Or.inl ⟨rfl, Or.inl rfl⟩
  | some q =>
    dsimp only
    cases hr : s.rec? q with
    | none => exact Or.inl ⟨rfl, Or.inr ⟨q, rfl, hr⟩⟩
    | some r =>
      refine Or.inr ⟨q, r, rfl, hr, ?_⟩
      rcases Bool.eq_false_or_eq_true (res && ok) with hb | hb
      · have hr' : ({ s with made := s.made ++ [⟨r.cmd, r.id, a, p.key⟩] } : Dev).rec? q = some r := hr
        simp only [hb, if_true, Dev.removeProtocol, hr']
        rfl
      · simp only [hb, Bool.false_eq_true, if_false, Dev.removeProtocol, hr]
        rfl

theorem removeProtocol_protos (s : Dev) (a : Nat) (q : Option Nat) (b : Bool) :
    (s.removeProtocol a q b).protos = s.protos ∧ (s.removeProtocol a q b).made = s.made ∧
      (s.removeProtocol a q b).sends = s.sends ∧
      (∀ x ∈ (s.removeProtocol a q b).recs, x ∈ s.recs) := by
  unfold Dev.removeProtocol
  split
  · exact ⟨rfl, rfl, rfl, fun x h => h⟩
  · split
    · exact ⟨rfl, rfl, rfl, fun x h => (List.mem_filter.mp h).1⟩
    · exact ⟨rfl, rfl, rfl, fun x h => h⟩

/-! ## Which socket a transport uses -/

/-- On addon `a` a request for the connection `id` came. -/
def Asked (all : List Op) (a : Nat) (id : Id) : Prop :=
  ∃ msg, ((∃ ok, Op.recv a msg ok ∈ all) ∨ Op.redirect a msg ∈ all) ∧ AsksFor msg id

/-- The history `all` explains the state. -/
structure Expl (all : List Op) (s : Dev) : Prop where
  recs : ∀ x ∈ s.recs, ∃ tm, Op.request x.2.id tm x.1 x.2.cmd true ∈ all
  wait : ∀ x ∈ s.protos, x.2.phase = .wait → x.2.ptr = none
  answer : ∀ x ∈ s.protos, x.2.phase = .answer → x.2.ptr ≠ none →
    Asked all x.1 x.2.key ∧ (x.1, true) ∈ s.sends
  ask : ∀ x ∈ s.protos, x.2.phase = .ask → Op.clientUp x.2.key x.1 ∈ all
  made : ∀ m ∈ s.made, (∃ tm addr, Op.request m.id tm addr m.cmd true ∈ all) ∧
    ((Asked all m.addon m.key ∧ (m.addon, true) ∈ s.sends) ∨
      (Op.clientUp m.key m.addon ∈ all ∧ ∃ msg ok, Op.recv m.addon msg ok ∈ all ∧ isAccepted msg = true))

theorem expl_init (all : List Op) : Expl all {} :=
  ⟨fun _ h => by simp at h, fun _ h => by simp at h, fun _ h => by simp at h,
    fun _ h => by simp at h, fun _ h => by simp at h⟩

theorem serverRequest_expl {all : List Op} {s : Dev} (h : Expl all s) (a : Nat) (msg : List Byte)
    (hm : (∃ ok, Op.recv a msg ok ∈ all) ∨ Op.redirect a msg ∈ all) :
    Expl all (s.serverRequest a msg) := by
  rcases serverRequest_cases s a msg with ⟨id, pr, h1, h2, he⟩ | ⟨b, he, _⟩
  · rw [he]
    refine ⟨h.recs, ?_, ?_, ?_, ?_⟩
    · intro x hx hp
      rcases mem_setProto hx with rfl | ⟨hx', _⟩
      · simp at hp
      · exact h.wait x hx' hp
    · intro x hx hp hn
      rcases mem_setProto hx with rfl | ⟨hx', _⟩
      · exact ⟨⟨msg, hm, h1⟩, by simp⟩
      · obtain ⟨h3, h4⟩ := h.answer x hx' hp hn
        exact ⟨h3, List.mem_append_left _ h4⟩
    · intro x hx hp
      rcases mem_setProto hx with rfl | ⟨hx', _⟩
      · simp at hp
      · exact h.ask x hx' hp
    · intro m hmm
      obtain ⟨h3, h4⟩ := h.made m hmm
      refine ⟨h3, ?_⟩
      rcases h4 with ⟨h5, h6⟩ | h4
      · exact Or.inl ⟨h5, List.mem_append_left _ h6⟩
      · exact Or.inr h4
  · rw [he]
    refine ⟨h.recs, ?_, ?_, ?_, ?_⟩
    · intro x hx hp
      rcases mem_setProto hx with rfl | ⟨hx', _⟩
      · rfl
      · exact h.wait x hx' hp
    · intro x hx hp hn
      rcases mem_setProto hx with rfl | ⟨hx', _⟩
      · exact absurd rfl hn
      · obtain ⟨h3, h4⟩ := h.answer x hx' hp hn
        exact ⟨h3, List.mem_append_left _ h4⟩
    · intro x hx hp
      rcases mem_setProto hx with rfl | ⟨hx', _⟩
      · simp at hp
      · exact h.ask x hx' hp
    · intro m hmm
      obtain ⟨h3, h4⟩ := h.made m hmm
      refine ⟨h3, ?_⟩
      rcases h4 with ⟨h5, h6⟩ | h4
      · exact Or.inl ⟨h5, List.mem_append_left _ h6⟩
      · exact Or.inr h4

theorem mem_delProto {s : Dev} {a : Nat} {q : Nat × Proto} (h : q ∈ (s.delProto a).protos) :
    q ∈ s.protos ∧ q.1 ≠ a := by
  obtain ⟨h1, h2⟩ := List.mem_filter.mp h
  exact ⟨h1, by simpa using h2⟩

/-- Fewer records and fewer addons need no more explanation. -/
theorem Expl.less {all : List Op} {s t : Dev} (h : Expl all s) (h1 : ∀ x ∈ t.recs, ∃ y ∈ s.recs, y.1 = x.1 ∧ y.2.id = x.2.id ∧ y.2.cmd = x.2.cmd)
    (h2 : ∀ x ∈ t.protos, x ∈ s.protos) (h3 : t.sends = s.sends)
    (h4 : ∀ m ∈ t.made, m ∈ s.made ∨ ((∃ tm addr, Op.request m.id tm addr m.cmd true ∈ all) ∧
      ((Asked all m.addon m.key ∧ (m.addon, true) ∈ s.sends) ∨
      (Op.clientUp m.key m.addon ∈ all ∧ ∃ msg ok, Op.recv m.addon msg ok ∈ all ∧ isAccepted msg = true)))) :
    Expl all t := by
  refine ⟨?_, fun x hx => h.wait x (h2 x hx), ?_, fun x hx => h.ask x (h2 x hx), ?_⟩
  · intro x hx
    obtain ⟨y, hy, e1, e2, e3⟩ := h1 x hx
    rw [← e1, ← e2, ← e3]
    exact h.recs y hy
  · rw [h3]
    exact fun x hx => h.answer x (h2 x hx)
  · rw [h3]
    intro m hm
    rcases h4 m hm with h5 | h5
    · exact h.made m h5
    · exact h5

theorem completed_expl {all : List Op} {s : Dev} (h : Expl all s) {a : Nat} {p : Proto} {res ok : Bool}
    (hj : res = true → p.ptr ≠ none → (Asked all a p.key ∧ (a, true) ∈ s.sends) ∨
      (Op.clientUp p.key a ∈ all ∧ ∃ msg ok, Op.recv a msg ok ∈ all ∧ isAccepted msg = true)) :
    Expl all (s.completed a p res ok) := by
  rcases completed_cases s a p res ok with ⟨he, _⟩ | ⟨q, r, h1, h2, he⟩
  · rw [he]
    exact h.less (fun x hx => ⟨x, hx, rfl, rfl, rfl⟩) (fun x hx => (mem_delProto hx).1) rfl
      (fun m hm => Or.inl hm)
  · rw [he]
    refine h.less (fun x hx => ⟨x, (List.mem_filter.mp hx).1, rfl, rfl, rfl⟩)
      (fun x hx => (mem_delProto (s := s) hx).1) rfl ?_
    intro m hm
    rcases Bool.eq_false_or_eq_true (res && ok) with hb | hb
    · simp only [hb, if_true, List.mem_append, List.mem_singleton] at hm
      rcases hm with hm | rfl
      · exact Or.inl hm
      · refine Or.inr ⟨?_, hj (by simp at hb; exact hb.1) (by rw [h1]; simp)⟩
        obtain ⟨tm, ht⟩ := h.recs _ (rec?_some h2)
        exact ⟨tm, q, ht⟩
    · simp only [hb, Bool.false_eq_true, if_false] at hm
      exact Or.inl hm

theorem step_expl {all : List Op} {s : Dev} (h : Expl all s) (o : Op) (ho : o ∈ all) :
    Expl all (s.step o) := by
  cases o with
  | request id tm addr cmd ok =>
    cases ok
    · exact h.less (fun x hx => ⟨x, hx, rfl, rfl, rfl⟩) (fun x hx => hx) rfl (fun m hm => Or.inl hm)
    · simp only [Dev.step, if_true]
      split
      · exact h
      · refine ⟨?_, h.wait, h.answer, h.ask, h.made⟩
        intro x hx
        rcases List.mem_append.mp hx with hx | hx
        · exact h.recs x hx
        · rw [List.mem_singleton.mp hx]
          exact ⟨tm, ho⟩
  | incoming a =>
    simp only [Dev.step]
    split
    · exact h
    · refine ⟨h.recs, ?_, ?_, ?_, h.made⟩
      · intro x hx hp
        rcases List.mem_append.mp hx with hx | hx
        · exact h.wait x hx hp
        · rw [List.mem_singleton.mp hx]
      · intro x hx hp
        rcases List.mem_append.mp hx with hx | hx
        · exact h.answer x hx hp
        · rw [List.mem_singleton.mp hx] at hp
          simp at hp
      · intro x hx hp
        rcases List.mem_append.mp hx with hx | hx
        · exact h.ask x hx hp
        · rw [List.mem_singleton.mp hx] at hp
          simp at hp
  | redirect a msg =>
    simp only [Dev.step]
    split
    · exact h
    · have h' : Expl all { s with protos := s.protos ++ [(a, ⟨none, .wait, []⟩)] } := by
        refine ⟨h.recs, ?_, ?_, ?_, h.made⟩
        · intro x hx hp
          rcases List.mem_append.mp hx with hx | hx
          · exact h.wait x hx hp
          · rw [List.mem_singleton.mp hx]
        · intro x hx hp
          rcases List.mem_append.mp hx with hx | hx
          · exact h.answer x hx hp
          · rw [List.mem_singleton.mp hx] at hp
            simp at hp
        · intro x hx hp
          rcases List.mem_append.mp hx with hx | hx
          · exact h.ask x hx hp
          · rw [List.mem_singleton.mp hx] at hp
            simp at hp
      have h2 := serverRequest_expl h' a msg (Or.inr ho)
      exact ⟨h2.recs, h2.wait, h2.answer, h2.ask, h2.made⟩
  | clientUp id a =>
    simp only [Dev.step]
    split
    · exact h
    · split
      · exact h
      · rename_i pr hpr
        refine ⟨h.recs, ?_, ?_, ?_, h.made⟩
        · intro x hx hp
          rcases List.mem_append.mp hx with hx | hx
          · exact h.wait x hx hp
          · rw [List.mem_singleton.mp hx] at hp
            simp at hp
        · intro x hx hp
          rcases List.mem_append.mp hx with hx | hx
          · exact h.answer x hx hp
          · rw [List.mem_singleton.mp hx] at hp
            simp at hp
        · intro x hx hp
          rcases List.mem_append.mp hx with hx | hx
          · exact h.ask x hx hp
          · rw [List.mem_singleton.mp hx, (find_some hpr).2]
            exact ho
  | clientErr id =>
    simp only [Dev.step]
    split
    · exact h
    · exact h.less (fun x hx => ⟨x, (List.mem_filter.mp hx).1, rfl, rfl, rfl⟩) (fun x hx => hx) rfl
        (fun m hm => Or.inl hm)
  | recv a msg ok =>
    simp only [Dev.step]
    split
    · exact h
    · rename_i p hp
      split
      · exact serverRequest_expl h a msg (Or.inl ⟨ok, ho⟩)
      · exact h
      · rename_i hph
        exact completed_expl h (fun hr _ => Or.inr ⟨h.ask _ (proto?_some hp) hph, msg, ok, ho, hr⟩)
  | sent a ok =>
    simp only [Dev.step]
    split
    · exact h
    · rename_i p hp
      split
      · rename_i hph
        exact completed_expl h (fun _ hn => Or.inl (h.answer _ (proto?_some hp) hph hn))
      · exact h
      · exact h
  | err a =>
    simp only [Dev.step]
    split
    · exact h
    · rename_i p hp
      obtain ⟨h1, h2, h3, h4⟩ := removeProtocol_protos s a p.ptr false
      refine h.less (fun x hx => ⟨x, h4 x hx, rfl, rfl, rfl⟩) ?_ h3 ?_
      · intro x hx
        have := (mem_delProto hx).1
        rw [h1] at this
        exact this
      · intro m hm
        have hm' : m ∈ (s.removeProtocol a p.ptr false).made := hm
        rw [h2] at hm'
        exact Or.inl hm'
  | timeout d =>
    refine h.less ?_ (fun x hx => hx) rfl (fun m hm => Or.inl hm)
    intro x hx
    obtain ⟨y, hy, rfl⟩ := List.mem_map.mp hx
    exact ⟨y, (List.mem_filter.mp hy).1, rfl, rfl, rfl⟩

theorem run_expl {all : List Op} {s : Dev} (h : Expl all s) (ops : List Op) (ho : ∀ o ∈ ops, o ∈ all) :
    Expl all (s.run ops) := by
  induction ops generalizing s with
  | nil => exact h
  | cons o ops ih =>
    exact ih (step_expl h o (ho o (by simp))) (fun o' h' => ho o' (List.mem_cons_of_mem _ h'))

/-! ## Without reuse of addresses -/

/-- Every addon which refers to a living record refers to one with its connection id. -/
structure Match (used : List Nat) (s : Dev) : Prop where
  recs : ∀ x ∈ s.recs, x.1 ∈ used
  ptrs : ∀ x ∈ s.protos, ∀ q, x.2.ptr = some q → q ∈ used
  same : ∀ x ∈ s.protos, ∀ q, x.2.ptr = some q → ∀ r, (q, r) ∈ s.recs → r.id = x.2.key
  made : ∀ m ∈ s.made, m.id = m.key

theorem Match.less {used : List Nat} {s t : Dev} (h : Match used s)
    (h1 : ∀ x ∈ t.recs, ∃ y ∈ s.recs, y.1 = x.1 ∧ y.2.id = x.2.id)
    (h2 : ∀ x ∈ t.protos, x ∈ s.protos)
    (h3 : ∀ m ∈ t.made, m ∈ s.made ∨ m.id = m.key) : Match used t := by
  refine ⟨?_, fun x hx => h.ptrs x (h2 x hx), ?_, ?_⟩
  · intro x hx
    obtain ⟨y, hy, e, _⟩ := h1 x hx
    rw [← e]
    exact h.recs y hy
  · intro x hx q hq r hr
    obtain ⟨⟨yp, yr⟩, hy, e1, e2⟩ := h1 _ hr
    simp only at e1 e2
    rw [← e2]
    rw [e1] at hy
    exact h.same x (h2 x hx) q hq yr hy
  · intro m hm
    rcases h3 m hm with h4 | h4
    · exact h.made m h4
    · exact h4

theorem serverRequest_match {used : List Nat} {s : Dev} (hk : Keys s) (h : Match used s) (a : Nat) (msg : List Byte) :
    Match used (s.serverRequest a msg) := by
  rcases serverRequest_cases s a msg with ⟨id, pr, _, h2, he⟩ | ⟨b, he, _⟩
  · rw [he]
    obtain ⟨hpr, hid⟩ := find_some h2
    refine ⟨h.recs, ?_, ?_, h.made⟩
    · intro x hx q hq
      rcases mem_setProto hx with rfl | ⟨hx', _⟩
      · simp only [Option.some.injEq] at hq
        rw [← hq]
        exact h.recs pr hpr
      · exact h.ptrs x hx' q hq
    · intro x hx q hq r hr
      rcases mem_setProto hx with rfl | ⟨hx', _⟩
      · simp only [Option.some.injEq] at hq
        have e1 := rec?_of_mem hk (p := q) (r := r) hr
        have e2 := rec?_of_mem hk (p := pr.1) (r := pr.2) hpr
        rw [hq, e1] at e2
        rw [Option.some.inj e2]
        exact hid
      · exact h.same x hx' q hq r hr
  · rw [he]
    refine ⟨h.recs, ?_, ?_, h.made⟩
    · intro x hx q hq
      rcases mem_setProto hx with rfl | ⟨hx', _⟩
      · simp at hq
      · exact h.ptrs x hx' q hq
    · intro x hx q hq r hr
      rcases mem_setProto hx with rfl | ⟨hx', _⟩
      · simp at hq
      · exact h.same x hx' q hq r hr

theorem completed_match {used : List Nat} {s : Dev} (h : Match used s) {a : Nat} {p : Proto}
    (hp : s.proto? a = some p) (res ok : Bool) : Match used (s.completed a p res ok) := by
  rcases completed_cases s a p res ok with ⟨he, _⟩ | ⟨q, r, h1, h2, he⟩
  · rw [he]
    exact h.less (fun x hx => ⟨x, hx, rfl, rfl⟩) (fun x hx => (mem_delProto hx).1) (fun m hm => Or.inl hm)
  · rw [he]
    refine h.less (fun x hx => ⟨x, (List.mem_filter.mp hx).1, rfl, rfl⟩)
      (fun x hx => (mem_delProto (s := s) hx).1) ?_
    intro m hm
    rcases Bool.eq_false_or_eq_true (res && ok) with hb | hb
    · simp only [hb, if_true, List.mem_append, List.mem_singleton] at hm
      rcases hm with hm | rfl
      · exact Or.inl hm
      · exact Or.inr (h.same _ (proto?_some hp) q h1 r (rec?_some h2))
    · simp only [hb, Bool.false_eq_true, if_false] at hm
      exact Or.inl hm

theorem Match.more {used : List Nat} {s : Dev} (h : Match used s) (l : List Nat) : Match (used ++ l) s :=
  ⟨fun x hx => List.mem_append_left _ (h.recs x hx),
    fun x hx q hq => List.mem_append_left _ (h.ptrs x hx q hq), h.same, h.made⟩

theorem step_match {used : List Nat} {s : Dev} (hk : Keys s) (h : Match used s) (o : Op)
    (hn : ∀ x ∈ addresses [o], x ∉ used) : Match (used ++ addresses [o]) (s.step o) := by
  cases o with
  | request id tm addr cmd ok =>
    simp only [Dev.step]
    split
    · split
      · exact h.more _
      · refine ⟨?_, (h.more _).ptrs, ?_, h.made⟩
        · intro x hx
          rcases List.mem_append.mp hx with hx | hx
          · exact (h.more _).recs x hx
          · rw [List.mem_singleton.mp hx]
            simp [addresses]
        · intro x hx q hq r hr
          rcases List.mem_append.mp hr with hr | hr
          · exact h.same x hx q hq r hr
          · exfalso
            have e := List.mem_singleton.mp hr
            have h1 := h.ptrs x hx q hq
            simp only [Prod.mk.injEq] at e
            rw [e.1] at h1
            exact hn addr (by simp [addresses]) h1
    · exact ⟨(h.more _).recs, (h.more _).ptrs, h.same, h.made⟩
  | incoming a =>
    simp only [Dev.step]
    have h := h.more (addresses [.incoming a])
    split
    · exact h
    · refine ⟨h.recs, ?_, ?_, h.made⟩
      · intro x hx q hq
        rcases List.mem_append.mp hx with hx | hx
        · exact h.ptrs x hx q hq
        · rw [List.mem_singleton.mp hx] at hq
          simp at hq
      · intro x hx q hq
        rcases List.mem_append.mp hx with hx | hx
        · exact h.same x hx q hq
        · rw [List.mem_singleton.mp hx] at hq
          simp at hq
  | redirect a msg =>
    simp only [Dev.step]
    have h := h.more (addresses [.redirect a msg])
    split
    · exact h
    · have h' : Match (used ++ addresses [.redirect a msg]) { s with protos := s.protos ++ [(a, ⟨none, .wait, []⟩)] } := by
        refine ⟨h.recs, ?_, ?_, h.made⟩
        · intro x hx q hq
          rcases List.mem_append.mp hx with hx | hx
          · exact h.ptrs x hx q hq
          · rw [List.mem_singleton.mp hx] at hq
            simp at hq
        · intro x hx q hq
          rcases List.mem_append.mp hx with hx | hx
          · exact h.same x hx q hq
          · rw [List.mem_singleton.mp hx] at hq
            simp at hq
      have h2 := serverRequest_match (s := { s with protos := s.protos ++ [(a, ⟨none, .wait, []⟩)] }) hk h' a msg
      exact ⟨h2.recs, h2.ptrs, h2.same, h2.made⟩
  | clientUp id a =>
    simp only [Dev.step]
    have h := h.more (addresses [.clientUp id a])
    split
    · exact h
    · split
      · exact h
      · rename_i pr hpr
        obtain ⟨hm, hid⟩ := find_some hpr
        refine ⟨h.recs, ?_, ?_, h.made⟩
        · intro x hx q hq
          rcases List.mem_append.mp hx with hx | hx
          · exact h.ptrs x hx q hq
          · rw [List.mem_singleton.mp hx] at hq
            simp only [Option.some.injEq] at hq
            rw [← hq]
            exact h.recs pr hm
        · intro x hx q hq r hr
          rcases List.mem_append.mp hx with hx | hx
          · exact h.same x hx q hq r hr
          · rw [List.mem_singleton.mp hx] at hq ⊢
            simp only [Option.some.injEq] at hq
            have e1 := rec?_of_mem hk (p := q) (r := r) hr
            have e2 := rec?_of_mem hk (p := pr.1) (r := pr.2) hm
            rw [hq, e1] at e2
            rw [Option.some.inj e2]
  | clientErr id =>
    simp only [Dev.step]
    have h := h.more (addresses [.clientErr id])
    split
    · exact h
    · exact h.less (fun x hx => ⟨x, (List.mem_filter.mp hx).1, rfl, rfl⟩) (fun x hx => hx)
        (fun m hm => Or.inl hm)
  | recv a msg ok =>
    simp only [Dev.step]
    have h := h.more (addresses [.recv a msg ok])
    split
    · exact h
    · rename_i p hp
      split
      · exact serverRequest_match hk h a msg
      · exact h
      · exact completed_match h hp _ _
  | sent a ok =>
    simp only [Dev.step]
    have h := h.more (addresses [.sent a ok])
    split
    · exact h
    · rename_i p hp
      split
      · exact completed_match h hp _ _
      · exact h
      · exact h
  | err a =>
    simp only [Dev.step]
    have h := h.more (addresses [.err a])
    split
    · exact h
    · rename_i p hp
      obtain ⟨h1, h2, h3, h4⟩ := removeProtocol_protos s a p.ptr false
      refine h.less (fun x hx => ⟨x, h4 x hx, rfl, rfl⟩) ?_ ?_
      · intro x hx
        have := (mem_delProto hx).1
        rw [h1] at this
        exact this
      · intro m hm
        have hm' : m ∈ (s.removeProtocol a p.ptr false).made := hm
        rw [h2] at hm'
        exact Or.inl hm'
  | timeout d =>
    have h := h.more (addresses [.timeout d])
    refine h.less ?_ (fun x hx => hx) (fun m hm => Or.inl hm)
    intro x hx
    obtain ⟨y, hy, rfl⟩ := List.mem_map.mp hx
    exact ⟨y, (List.mem_filter.mp hy).1, rfl, rfl⟩

theorem addresses_cons (o : Op) (ops : List Op) : addresses (o :: ops) = addresses [o] ++ addresses ops := by
  cases o <;> simp [addresses]

theorem run_match {used : List Nat} {s : Dev} (hk : Keys s) (h : Match used s) (ops : List Op)
    (hn : (used ++ addresses ops).Nodup) : Match (used ++ addresses ops) (s.run ops) := by
  induction ops generalizing s used with
  | nil => exact h.more _
  | cons o ops ih =>
    rw [addresses_cons, ← List.append_assoc] at hn ⊢
    refine ih (step_keys hk o) (step_match hk h o ?_) hn
    intro x hx hu
    have := (List.nodup_append.mp (List.nodup_append.mp hn).1).2.2 x hu x hx
    exact this rfl

theorem match_init : Match [] {} :=
  ⟨fun _ h => by simp at h, fun _ h => by simp at h, fun _ h => by simp at h, fun _ h => by simp at h⟩

end Verif.SockDevice
