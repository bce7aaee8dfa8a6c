import Verif.SockDeviceLemmas

namespace Verif.SockDevice

open Verif.Bytes Spec

/-! ## What the parts of an operation change -/

theorem setProto_recs (s : Dev) (a : Nat) (p : Proto) : (s.setProto a p).recs = s.recs := rfl

theorem serverRequest_same (s : Dev) (a : Nat) (msg : List Byte) :
    (s.serverRequest a msg).recs = s.recs ∧ (s.serverRequest a msg).replies = s.replies ∧
      (s.serverRequest a msg).made = s.made := by
  unfold Dev.serverRequest
  split
  · exact ⟨rfl, rfl, rfl⟩
  · split
    · exact ⟨rfl, rfl, rfl⟩
    · split <;> exact ⟨rfl, rfl, rfl⟩

theorem destroy_keys {s : Dev} (hk : Keys s) (p : Nat) (r : Rec) (b : Bool) :
    Keys (s.destroy p r b) :=
  List.Nodup.sublist (List.Sublist.map _ List.filter_sublist) hk

theorem removeProtocol_keys {s : Dev} (hk : Keys s) (a : Nat) (q : Option Nat) (b : Bool) :
    Keys (s.removeProtocol a q b) := by
  unfold Dev.removeProtocol
  split
  · exact hk
  · split
    · exact destroy_keys hk _ _ _
    · exact hk

theorem completed_keys {s : Dev} (hk : Keys s) (a : Nat) (p : Proto) (res ok : Bool) :
    Keys (s.completed a p res ok) := by
  unfold Dev.completed
  split
  · exact hk
  · split
    · exact hk
    · refine removeProtocol_keys (s := if (res && ok) = true then _ else s) ?_ a _ _
      split <;> exact hk

theorem cleanup_keys {s : Dev} (hk : Keys s) (d : Int) : Keys (s.cleanup d) := by
  show (List.map Prod.fst (List.map _ _)).Nodup
  rw [List.map_map]
  exact List.Nodup.sublist (List.Sublist.map Prod.fst List.filter_sublist) hk

theorem step_keys {s : Dev} (hk : Keys s) (o : Op) : Keys (s.step o) := by
  cases o with
  | request id tm addr cmd ok =>
    simp only [Dev.step]
    split
    · split
      · exact hk
      · rename_i h
        have hn : s.rec? addr = none := by
          cases h' : s.rec? addr with
          | none => rfl
          | some x => rw [h'] at h; exact absurd rfl h
        show (List.map Prod.fst (s.recs ++ _)).Nodup
        rw [List.map_append, List.nodup_append]
        refine ⟨hk, by simp, ?_⟩
        intro x hx y hy
        simp only [List.map_cons, List.map_nil, List.mem_singleton] at hy
        obtain ⟨q, hq, rfl⟩ := List.mem_map.mp hx
        rw [hy]
        exact rec?_none hn q hq
    · exact hk
  | incoming a => simp only [Dev.step]; split <;> exact hk
  | redirect a msg =>
    simp only [Dev.step]
    split
    · exact hk
    · show (List.map Prod.fst (Dev.serverRequest _ _ _).recs).Nodup
      rw [(serverRequest_same _ _ _).1]
      exact hk
  | clientUp id a =>
    simp only [Dev.step]
    split
    · exact hk
    · split <;> exact hk
  | clientErr id =>
    simp only [Dev.step]
    split
    · exact hk
    · exact destroy_keys hk _ _ _
  | recv a msg ok =>
    simp only [Dev.step]
    split
    · exact hk
    · split
      · show (List.map Prod.fst (Dev.serverRequest _ _ _).recs).Nodup
        rw [(serverRequest_same _ _ _).1]
        exact hk
      · exact hk
      · exact completed_keys hk _ _ _ _
  | sent a ok =>
    simp only [Dev.step]
    split
    · exact hk
    · split
      · exact completed_keys hk _ _ _ _
      · exact hk
      · exact hk
  | err a =>
    simp only [Dev.step]
    split
    · exact hk
    · exact removeProtocol_keys hk _ _ _
  | timeout d => exact cleanup_keys hk d

theorem run_keys {s : Dev} (hk : Keys s) (ops : List Op) : Keys (s.run ops) := by
  induction ops generalizing s with
  | nil => exact hk
  | cons o ops ih => exact ih (step_keys hk o)

theorem init_keys : Keys {} := by simp [Keys]

theorem run_append (s : Dev) (a b : List Op) : s.run (a ++ b) = (s.run a).run b := by
  induction a generalizing s with
  | nil => rfl
  | cons o a ih => exact ih _

/-! ## Every command is answered once -/

/-- Answers and waiting records together. -/
def tot (s : Dev) (c : Nat) : Nat := answered s c + waits s c

theorem destroy_tot {s : Dev} (hk : Keys s) {p : Nat} {r : Rec} (h : (p, r) ∈ s.recs) (b : Bool)
    (c : Nat) : tot (s.destroy p r b) c = tot s c := by
  have := countP_remove (fun q => q.2.cmd == c) hk h
  simp only [tot, answered, waits, Dev.destroy, List.countP_append, List.countP_cons,
    List.countP_nil] at this ⊢
  omega

theorem removeProtocol_tot {s : Dev} (hk : Keys s) (a : Nat) (q : Option Nat) (b : Bool) (c : Nat) :
    tot (s.removeProtocol a q b) c = tot s c := by
  unfold Dev.removeProtocol
  split
  · rfl
  · split
    · rename_i r hr
      exact destroy_tot hk (rec?_some hr) b c
    · rfl

theorem completed_tot {s : Dev} (hk : Keys s) (a : Nat) (p : Proto) (res ok : Bool) (c : Nat) :
    tot (s.completed a p res ok) c = tot s c := by
  unfold Dev.completed
  split
  · rfl
  · split
    · rfl
    · rename_i q hq _ r hr
      have h2 : ∀ t : Dev, t.recs = s.recs → t.replies = s.replies →
          tot ((t.removeProtocol a (some q) (res && ok)).delProto a) c = tot s c := by
        intro t h3 h4
        have hkt : Keys t := by unfold Keys; rw [h3]; exact hk
        show tot (t.removeProtocol a (some q) (res && ok)) c = _
        rw [removeProtocol_tot hkt]
        simp only [tot, answered, waits, h3, h4]
      refine h2 (if (res && ok) = true then _ else s) ?_ ?_
      · split <;> rfl
      · split <;> rfl

theorem countP_split (f : Nat × Rec → Bool) (e : Nat × Rec → Bool) (l : List (Nat × Rec)) :
    (l.filter e).countP f + (l.filter fun q => !e q).countP f = l.countP f := by
  induction l with
  | nil => rfl
  | cons x l ih =>
    by_cases h : e x = true
    · rw [List.filter_cons_of_pos h, List.filter_cons_of_neg (by simp [h]), List.countP_cons,
        List.countP_cons]
      omega
    · rw [List.filter_cons_of_neg h, List.filter_cons_of_pos (by simpa using h), List.countP_cons,
        List.countP_cons]
      omega

theorem cleanup_tot (s : Dev) (d : Int) (c : Nat) : tot (s.cleanup d) c = tot s c := by
  have := countP_split (fun q => q.2.cmd == c) (fun q => expires d q.2) s.recs
  have e1 : (List.map (fun q : Nat × Rec => (q.2.cmd, false)) (s.recs.filter fun q => expires d q.2)).countP
      (fun r => r.1 == c) = (s.recs.filter fun q => expires d q.2).countP (fun q => q.2.cmd == c) := by
    rw [List.countP_map]; rfl
  have e2 : (s.cleanup d).recs.countP (fun q => q.2.cmd == c) =
      (s.recs.filter fun q => !expires d q.2).countP (fun q => q.2.cmd == c) := by
    show List.countP _ (List.map _ _) = _
    rw [List.countP_map]; rfl
  have e3 : (s.cleanup d).replies.countP (fun r => r.1 == c) =
      s.replies.countP (fun r => r.1 == c) +
      (s.recs.filter fun q => expires d q.2).countP (fun q => q.2.cmd == c) := by
    show List.countP _ (_ ++ _) = _
    rw [List.countP_append, e1]
  simp only [tot, answered, waits]
  omega

theorem serverRequest_tot (s : Dev) (a : Nat) (msg : List Byte) (c : Nat) :
    tot (s.serverRequest a msg) c = tot s c := by
  obtain ⟨h1, h2, _⟩ := serverRequest_same s a msg
  simp only [tot, answered, waits, h1, h2]

theorem step_tot {s : Dev} (hk : Keys s) (o : Op) (ops : List Op) (ha : Alloc s (o :: ops)) (c : Nat) :
    tot (s.step o) c = tot s c + came c [o] := by
  cases o with
  | request id tm addr cmd ok =>
    cases ok
    · simp only [Dev.step, tot, answered, waits, came, List.countP_append, List.countP_cons,
        List.countP_nil, beq_iff_eq, Bool.false_eq_true, if_false]
      omega
    · have h1 : s.rec? addr = none := by
        cases h' : s.rec? addr with
        | none => rfl
        | some x => exact absurd rfl (ha.1 _ (rec?_some h'))
      simp only [Dev.step, h1, tot, answered, waits, came, List.countP_append, List.countP_cons,
        List.countP_nil, beq_iff_eq, Option.isSome_none, Bool.false_eq_true, if_false, if_true]
      omega
  | incoming a => simp only [Dev.step]; split <;> rfl
  | redirect a msg =>
    simp only [Dev.step]
    split
    · rfl
    · exact serverRequest_tot ({ s with protos := _ } : Dev) a msg c
  | clientUp id a =>
    simp only [Dev.step]
    split
    · rfl
    · split <;> rfl
  | clientErr id =>
    simp only [Dev.step]
    split
    · rfl
    · rename_i pr hpr
      exact destroy_tot hk (find_some hpr).1 _ c
  | recv a msg ok =>
    simp only [Dev.step]
    split
    · rfl
    · split
      · exact serverRequest_tot _ _ _ _
      · rfl
      · exact completed_tot hk _ _ _ _ _
  | sent a ok =>
    simp only [Dev.step]
    split
    · rfl
    · split
      · exact completed_tot hk _ _ _ _ _
      · rfl
      · rfl
  | err a =>
    simp only [Dev.step]
    split
    · rfl
    · exact removeProtocol_tot hk _ _ _ _
  | timeout d => exact cleanup_tot s d c

theorem came_cons (c : Nat) (o : Op) (ops : List Op) : came c (o :: ops) = came c [o] + came c ops := by
  cases o <;> simp [came]

theorem came_append (c : Nat) (a b : List Op) : came c (a ++ b) = came c a + came c b := by
  induction a with
  | nil => simp [came]
  | cons o a ih => rw [List.cons_append, came_cons, ih, came_cons c o a]; omega

theorem run_tot {s : Dev} (hk : Keys s) (ops : List Op) (ha : Alloc s ops) (c : Nat) :
    tot (s.run ops) c = tot s c + came c ops := by
  induction ops generalizing s with
  | nil => rfl
  | cons o ops ih =>
    have h1 := step_tot hk o ops ha c
    have h2 := ih (step_keys hk o) ha.2
    rw [came_cons]
    show tot ((s.step o).run ops) c = _
    omega

/-! ## A positive answer means a transport -/

/-- Positive answers and transports agree. -/
def Conf (s : Dev) : Prop := ∀ c, confirmed s c = transports s c

theorem destroy_false_conf {s : Dev} (h : Conf s) (p : Nat) (r : Rec) : Conf (s.destroy p r false) := by
  intro c
  have := h c
  simp only [confirmed, transports, Dev.destroy, List.countP_append, List.countP_cons,
    List.countP_nil, Bool.and_false, Bool.false_eq_true, if_false] at this ⊢
  omega

theorem removeProtocol_false_conf {s : Dev} (h : Conf s) (a : Nat) (q : Option Nat) :
    Conf (s.removeProtocol a q false) := by
  unfold Dev.removeProtocol
  split
  · exact h
  · split
    · exact destroy_false_conf h _ _
    · exact h

theorem completed_conf {s : Dev} (h : Conf s) (a : Nat) (p : Proto) (res ok : Bool) :
    Conf (s.completed a p res ok) := by
  unfold Dev.completed
  split
  · exact h
  · split
    · exact h
    · rename_i q hq _ r hr
      rcases Bool.eq_false_or_eq_true (res && ok) with hb | hb
      · simp only [hb, if_true]
        intro c
        have hr' : ({ s with made := s.made ++ [⟨r.cmd, r.id, a, p.key⟩] } : Dev).rec? q = some r := hr
        have := h c
        simp only [Dev.removeProtocol, hr', Dev.destroy, Dev.delProto, confirmed, transports,
          List.countP_append, List.countP_cons, List.countP_nil, Bool.and_true] at this ⊢
        omega
      · simp only [hb, Bool.false_eq_true, if_false]
        exact removeProtocol_false_conf h _ _

theorem serverRequest_conf {s : Dev} (h : Conf s) (a : Nat) (msg : List Byte) :
    Conf (s.serverRequest a msg) := by
  obtain ⟨_, h1, h2⟩ := serverRequest_same s a msg
  intro c
  have := h c
  simp only [confirmed, transports, h1, h2] at this ⊢
  exact this

theorem step_conf {s : Dev} (h : Conf s) (o : Op) : Conf (s.step o) := by
  cases o with
  | request id tm addr cmd ok =>
    simp only [Dev.step]
    split
    · split <;> exact h
    · intro c
      have := h c
      simp only [confirmed, transports, List.countP_append, List.countP_cons,
        List.countP_nil, Bool.and_false, Bool.false_eq_true, if_false] at this ⊢
      omega
  | incoming a => simp only [Dev.step]; split <;> exact h
  | redirect a msg =>
    simp only [Dev.step]
    split
    · exact h
    · exact serverRequest_conf (s := { s with protos := s.protos ++ [(a, ⟨none, .wait, []⟩)] }) h a msg
  | clientUp id a =>
    simp only [Dev.step]
    split
    · exact h
    · split <;> exact h
  | clientErr id =>
    simp only [Dev.step]
    split
    · exact h
    · exact destroy_false_conf h _ _
  | recv a msg ok =>
    simp only [Dev.step]
    split
    · exact h
    · split
      · exact serverRequest_conf h _ _
      · exact h
      · exact completed_conf h _ _ _ _
  | sent a ok =>
    simp only [Dev.step]
    split
    · exact h
    · split
      · exact completed_conf h _ _ _ _
      · exact h
      · exact h
  | err a =>
    simp only [Dev.step]
    split
    · exact h
    · exact removeProtocol_false_conf h _ _
  | timeout d =>
    intro c
    have := h c
    have e1 : (List.map (fun q : Nat × Rec => (q.2.cmd, false)) (s.recs.filter fun q => expires d q.2)).countP
        (fun r => r.1 == c && r.2) = 0 := by
      rw [List.countP_map, List.countP_eq_zero]
      intro x _
      simp
    simp only [confirmed, transports, Dev.step, Dev.cleanup, List.countP_append] at this ⊢
    omega

theorem run_conf {s : Dev} (h : Conf s) (ops : List Op) : Conf (s.run ops) := by
  induction ops generalizing s with
  | nil => exact h
  | cons o ops ih => exact ih (step_conf h o)

end Verif.SockDevice
