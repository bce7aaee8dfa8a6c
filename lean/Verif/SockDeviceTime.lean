import Verif.SockDeviceRun

namespace Verif.SockDevice

open Verif.Bytes Spec

/-! ## Time -/

/-- All records of the command `c` end within `B`. -/
def Within (c : Nat) (B : Int) (s : Dev) : Prop :=
  ∀ x ∈ s.recs, x.2.cmd = c → 0 ≤ x.2.tm ∧ x.2.tm ≤ B

theorem Within.less {c : Nat} {B : Int} {s t : Dev} (h : Within c B s) (h1 : ∀ x ∈ t.recs, x ∈ s.recs) :
    Within c B t := fun x hx => h x (h1 x hx)

theorem completed_recs (s : Dev) (a : Nat) (p : Proto) (res ok : Bool) :
    ∀ x ∈ (s.completed a p res ok).recs, x ∈ s.recs := by
  rcases completed_cases s a p res ok with ⟨he, _⟩ | ⟨q, r, _, _, he⟩
  · rw [he]; exact fun x hx => hx
  · rw [he]; exact fun x hx => (List.mem_filter.mp hx).1

theorem elapsed_cons (o : Op) (ops : List Op) : elapsed (o :: ops) = elapsed [o] + elapsed ops := by
  cases o <;> simp [elapsed]

theorem step_within {c : Nat} {B : Int} {s : Dev} (h : Within c B s) (o : Op) (hc : came c [o] = 0) :
    Within c (B - elapsed [o]) (s.step o) := by
  cases o with
  | request id tm addr cmd ok =>
    have hcmd : cmd ≠ c := by
      intro e
      simp [came, e] at hc
    have e0 : B - elapsed [.request id tm addr cmd ok] = B := by simp [elapsed]
    rw [e0]
    simp only [Dev.step]
    split
    · split
      · exact h
      · intro x hx hxc
        rcases List.mem_append.mp hx with hx | hx
        · exact h x hx hxc
        · rw [List.mem_singleton.mp hx] at hxc
          exact absurd hxc hcmd
    · exact h
  | incoming a =>
    have e0 : B - elapsed [.incoming a] = B := by simp [elapsed]
    rw [e0]
    refine h.less ?_
    simp only [Dev.step]
    split <;> exact fun x hx => hx
  | redirect a msg =>
    have e0 : B - elapsed [.redirect a msg] = B := by simp [elapsed]
    rw [e0]
    refine h.less ?_
    simp only [Dev.step]
    split
    · exact fun x hx => hx
    · intro x hx
      have hx' : x ∈ (Dev.serverRequest { s with protos := s.protos ++ [(a, ⟨none, .wait, []⟩)] } a msg).recs := hx
      rw [(serverRequest_same _ _ _).1] at hx'
      exact hx'
  | clientUp id a =>
    have e0 : B - elapsed [.clientUp id a] = B := by simp [elapsed]
    rw [e0]
    refine h.less ?_
    simp only [Dev.step]
    split
    · exact fun x hx => hx
    · split <;> exact fun x hx => hx
  | clientErr id =>
    have e0 : B - elapsed [.clientErr id] = B := by simp [elapsed]
    rw [e0]
    refine h.less ?_
    simp only [Dev.step]
    split
    · exact fun x hx => hx
    · exact fun x hx => (List.mem_filter.mp hx).1
  | recv a msg ok =>
    have e0 : B - elapsed [.recv a msg ok] = B := by simp [elapsed]
    rw [e0]
    refine h.less ?_
    simp only [Dev.step]
    split
    · exact fun x hx => hx
    · split
      · intro x hx
        rw [(serverRequest_same _ _ _).1] at hx
        exact hx
      · exact fun x hx => hx
      · exact completed_recs _ _ _ _ _
  | sent a ok =>
    have e0 : B - elapsed [.sent a ok] = B := by simp [elapsed]
    rw [e0]
    refine h.less ?_
    simp only [Dev.step]
    split
    · exact fun x hx => hx
    · split
      · exact completed_recs _ _ _ _ _
      · exact fun x hx => hx
      · exact fun x hx => hx
  | err a =>
    have e0 : B - elapsed [.err a] = B := by simp [elapsed]
    rw [e0]
    refine h.less ?_
    simp only [Dev.step]
    split
    · exact fun x hx => hx
    · exact (removeProtocol_protos _ _ _ _).2.2.2
  | timeout d =>
    have e0 : B - elapsed [.timeout d] = B - d := by simp [elapsed]
    rw [e0]
    intro x hx hxc
    obtain ⟨y, hy, rfl⟩ := List.mem_map.mp hx
    obtain ⟨hy1, hy2⟩ := List.mem_filter.mp hy
    have := h y hy1 hxc
    simp only [expires, Bool.not_eq_true', Bool.or_eq_false_iff, decide_eq_false_iff_not] at hy2
    show 0 ≤ y.2.tm - d ∧ y.2.tm - d ≤ B - d
    omega

theorem run_within {c : Nat} {B : Int} {s : Dev} (h : Within c B s) (ops : List Op) (hc : came c ops = 0) :
    Within c (B - elapsed ops) (s.run ops) := by
  induction ops generalizing s B with
  | nil =>
    rw [show B - elapsed [] = B by simp [elapsed]]
    exact h
  | cons o ops ih =>
    rw [came_cons] at hc
    have h1 := step_within h o (by omega)
    have h2 := ih h1 (by omega)
    rw [elapsed_cons, show B - (elapsed [o] + elapsed ops) = B - elapsed [o] - elapsed ops by omega]
    exact h2

theorem waits_zero {s : Dev} {c : Nat} {B : Int} (h : Within c B s) (hB : B < 0) : waits s c = 0 := by
  simp only [waits, List.countP_eq_zero, beq_iff_eq]
  intro x hx hc
  have := h x hx hc
  omega

theorem mem_waits {s : Dev} {c : Nat} (h : waits s c = 0) : ∀ x ∈ s.recs, x.2.cmd ≠ c := by
  simp only [waits, List.countP_eq_zero, beq_iff_eq] at h
  exact h

/-! ## Records which stay -/

/-- Operations which end no record (apart from the time). -/
def Quiet : Op → Prop
  | .clientErr _ | .recv .. | .sent .. | .err _ => False
  | _ => True

theorem step_stays {s : Dev} {x : Nat × Rec} (hx : x ∈ s.recs) (o : Op) (hq : Quiet o)
    (hf : 0 ≤ elapsed [o]) (ht : elapsed [o] ≤ x.2.tm) :
    (x.1, { x.2 with tm := x.2.tm - elapsed [o] }) ∈ (s.step o).recs := by
  have triv : ∀ t : Dev, (∀ y ∈ s.recs, y ∈ t.recs) → elapsed [o] = 0 →
      (x.1, { x.2 with tm := x.2.tm - elapsed [o] }) ∈ t.recs := by
    intro t h1 h2
    rw [h2, Int.sub_zero]
    exact h1 x hx
  cases o with
  | request id tm addr cmd ok =>
    refine triv _ ?_ rfl
    simp only [Dev.step]
    split
    · split
      · exact fun y hy => hy
      · exact fun y hy => List.mem_append_left _ hy
    · exact fun y hy => hy
  | incoming a =>
    refine triv _ ?_ rfl
    simp only [Dev.step]
    split <;> exact fun y hy => hy
  | redirect a msg =>
    refine triv _ ?_ rfl
    simp only [Dev.step]
    split
    · exact fun y hy => hy
    · intro y hy
      show y ∈ (Dev.serverRequest { s with protos := s.protos ++ [(a, ⟨none, .wait, []⟩)] } a msg).recs
      rw [(serverRequest_same _ _ _).1]
      exact hy
  | clientUp id a =>
    refine triv _ ?_ rfl
    simp only [Dev.step]
    split
    · exact fun y hy => hy
    · split <;> exact fun y hy => hy
  | clientErr id => exact hq.elim
  | recv a msg ok => exact hq.elim
  | sent a ok => exact hq.elim
  | err a => exact hq.elim
  | timeout d =>
    have e : elapsed [.timeout d] = d := by simp [elapsed]
    rw [e] at hf ht ⊢
    refine List.mem_map.mpr ⟨x, List.mem_filter.mpr ⟨hx, ?_⟩, rfl⟩
    simp only [expires, Bool.not_eq_true', Bool.or_eq_false_iff, decide_eq_false_iff_not]
    omega

theorem run_stays {s : Dev} {x : Nat × Rec} (hx : x ∈ s.recs) (ops : List Op) (hq : ∀ o ∈ ops, Quiet o)
    (hf : Forward ops) (ht : elapsed ops ≤ x.2.tm) :
    (x.1, { x.2 with tm := x.2.tm - elapsed ops }) ∈ (s.run ops).recs := by
  induction ops generalizing s x with
  | nil => simpa [elapsed, Dev.run] using hx
  | cons o ops ih =>
    have hpos : ∀ l : List Op, Forward l → 0 ≤ elapsed l := by
      intro l
      induction l with
      | nil => intro _; simp [elapsed]
      | cons o l ih =>
        intro hl
        rw [elapsed_cons]
        have h1 := ih (fun d hd => hl d (List.mem_cons_of_mem _ hd))
        cases o with
        | timeout d =>
          have := hl d (by simp)
          simp only [elapsed] at *
          omega
        | _ => simp only [elapsed]; omega
    have h1 : 0 ≤ elapsed [o] := hpos [o] (fun d hd => hf d (by simp at hd; simp [hd]))
    have hf2 : Forward ops := fun d hd => hf d (List.mem_cons_of_mem _ hd)
    have h2 := hpos ops hf2
    rw [elapsed_cons] at ht
    have h3 := step_stays hx o (hq o (by simp)) h1 (by omega)
    have h4 := ih h3 (fun o' h' => hq o' (List.mem_cons_of_mem _ h')) hf2
      (by show elapsed ops ≤ x.2.tm - elapsed [o]; omega)
    rw [elapsed_cons, show x.2.tm - (elapsed [o] + elapsed ops) = x.2.tm - elapsed [o] - elapsed ops by omega]
    exact h4

/-! ## Memory -/

/-- No socket error, and all requests are terminated. -/
def Safe : Op → Prop
  | .err _ => False
  | .recv _ msg _ => Terminated msg
  | .redirect _ msg => Terminated msg
  | _ => True

theorem serverRequest_bad {s : Dev} (h : s.bad = false) (a : Nat) (msg : List Byte) (ht : Terminated msg) :
    (s.serverRequest a msg).bad = false := by
  rcases serverRequest_cases s a msg with ⟨id, pr, _, _, he⟩ | ⟨b, he, hb⟩
  · rw [he]; exact h
  · rw [he]
    rcases hb with hb | hb
    · exact hb.trans h
    · exact absurd ht hb

theorem completed_bad {s : Dev} (h : s.bad = false) (a : Nat) (p : Proto) (res ok : Bool) :
    (s.completed a p res ok).bad = false := by
  rcases completed_cases s a p res ok with ⟨he, _⟩ | ⟨q, r, _, _, he⟩
  · rw [he]; exact h
  · rw [he]; exact h

theorem step_bad {s : Dev} (h : s.bad = false) (o : Op) (hs : Safe o) : (s.step o).bad = false := by
  cases o with
  | request id tm addr cmd ok =>
    simp only [Dev.step]
    split
    · split <;> exact h
    · exact h
  | incoming a => simp only [Dev.step]; split <;> exact h
  | redirect a msg =>
    simp only [Dev.step]
    split
    · exact h
    · exact serverRequest_bad (s := { s with protos := s.protos ++ [(a, ⟨none, .wait, []⟩)] }) h a msg hs
  | clientUp id a =>
    simp only [Dev.step]
    split
    · exact h
    · split <;> exact h
  | clientErr id => simp only [Dev.step]; split <;> exact h
  | recv a msg ok =>
    simp only [Dev.step]
    split
    · exact h
    · split
      · exact serverRequest_bad h a msg hs
      · exact h
      · exact completed_bad h _ _ _ _
  | sent a ok =>
    simp only [Dev.step]
    split
    · exact h
    · split
      · exact completed_bad h _ _ _ _
      · exact h
      · exact h
  | err a => exact hs.elim
  | timeout d => exact h

theorem run_bad {s : Dev} (h : s.bad = false) (ops : List Op) (hs : ∀ o ∈ ops, Safe o) :
    (s.run ops).bad = false := by
  induction ops generalizing s with
  | nil => exact h
  | cons o ops ih =>
    exact ih (step_bad h o (hs o (by simp))) (fun o' h' => hs o' (List.mem_cons_of_mem _ h'))

/-! ## The list of addons -/

/-- `fProtocols` holds only living addons. -/
structure Listed (s : Dev) : Prop where
  nodup : s.list.Nodup
  keys : (s.protos.map Prod.fst).Nodup
  live : ∀ a ∈ s.list, ∃ p, (a, p) ∈ s.protos
  free : ∀ x ∈ s.protos, x.2.ptr ≠ none → x.1 ∉ s.list
  wait : ∀ x ∈ s.protos, x.2.phase = .wait → x.2.ptr = none

def Direct : Op → Prop
  | .redirect .. => False
  | _ => True

theorem setProto_map (s : Dev) (a : Nat) (p : Proto) :
    (s.setProto a p).protos.map Prod.fst = s.protos.map Prod.fst := by
  show List.map Prod.fst (List.map _ _) = _
  rw [List.map_map]
  refine List.map_congr_left ?_
  intro x _
  show (if x.1 = a then (a, p) else x).1 = x.1
  split
  · rename_i h; exact h.symm
  · rfl

theorem setProto_live {s : Dev} {a : Nat} {p : Proto} {b : Nat} {q : Proto} (h : (b, q) ∈ s.protos) :
    ∃ q', (b, q') ∈ (s.setProto a p).protos := by
  by_cases hb : b = a
  · exact ⟨p, List.mem_map.mpr ⟨(b, q), h, by rw [if_pos (show (b, q).1 = a from hb), hb]⟩⟩
  · exact ⟨q, List.mem_map.mpr ⟨(b, q), h, by rw [if_neg (show ¬ (b, q).1 = a from hb)]⟩⟩

theorem serverRequest_listed {s : Dev} (h : Listed s) (a : Nat) (msg : List Byte) :
    Listed (s.serverRequest a msg) := by
  rcases serverRequest_cases s a msg with ⟨id, pr, _, _, he⟩ | ⟨b, he, _⟩
  · rw [he]
    refine ⟨h.nodup.erase a, ?_, ?_, ?_, ?_⟩
    · show (List.map Prod.fst (s.setProto a _).protos).Nodup
      rw [setProto_map]; exact h.keys
    · intro b hb
      obtain ⟨q, hq⟩ := h.live b (List.mem_of_mem_erase hb)
      exact setProto_live hq
    · intro x hx hn
      rcases mem_setProto hx with rfl | ⟨hx', _⟩
      · intro hm
        exact (h.nodup.mem_erase_iff.mp hm).1 rfl
      · exact fun hm => h.free x hx' hn (List.mem_of_mem_erase hm)
    · intro x hx hp
      rcases mem_setProto hx with rfl | ⟨hx', _⟩
      · simp at hp
      · exact h.wait x hx' hp
  · rw [he]
    refine ⟨h.nodup, ?_, ?_, ?_, ?_⟩
    · show (List.map Prod.fst (s.setProto a _).protos).Nodup
      rw [setProto_map]; exact h.keys
    · intro b hb
      obtain ⟨q, hq⟩ := h.live b hb
      exact setProto_live hq
    · intro x hx hn
      rcases mem_setProto hx with rfl | ⟨hx', _⟩
      · exact absurd rfl hn
      · exact h.free x hx' hn
    · intro x hx hp
      rcases mem_setProto hx with rfl | ⟨hx', _⟩
      · rfl
      · exact h.wait x hx' hp

/-- Removing an addon together with its place in the list. -/
theorem Listed.del {s t : Dev} (h : Listed s) (a : Nat) (h1 : t.protos = (s.delProto a).protos)
    (h2 : t.list = s.list.erase a ∨ (t.list = s.list ∧ a ∉ s.list)) : Listed t := by
  have hl : ∀ b ∈ t.list, b ∈ s.list ∧ b ≠ a := by
    intro b hb
    rcases h2 with h2 | ⟨h2, h3⟩
    · rw [h2] at hb
      exact ⟨List.mem_of_mem_erase hb, (h.nodup.mem_erase_iff.mp hb).1⟩
    · rw [h2] at hb
      exact ⟨hb, fun e => h3 (e ▸ hb)⟩
  refine ⟨?_, ?_, ?_, ?_, ?_⟩
  · rcases h2 with h2 | ⟨h2, _⟩
    · rw [h2]; exact h.nodup.erase a
    · rw [h2]; exact h.nodup
  · rw [h1]
    exact List.Nodup.sublist (List.Sublist.map _ List.filter_sublist) h.keys
  · intro b hb
    obtain ⟨hb1, hb2⟩ := hl b hb
    obtain ⟨p, hp⟩ := h.live b hb1
    refine ⟨p, ?_⟩
    rw [h1]
    exact List.mem_filter.mpr ⟨hp, by simpa using hb2⟩
  · intro x hx hn hm
    rw [h1] at hx
    exact h.free x (mem_delProto hx).1 hn (hl _ hm).1
  · intro x hx
    rw [h1] at hx
    exact h.wait x (mem_delProto hx).1

theorem completed_listed {s : Dev} (h : Listed s) {a : Nat} {p : Proto} (hp : s.proto? a = some p)
    (res ok : Bool) : Listed (s.completed a p res ok) := by
  rcases completed_cases s a p res ok with ⟨he, _⟩ | ⟨q, r, h1, _, he⟩
  · rw [he]
    exact h.del a rfl (Or.inl rfl)
  · rw [he]
    exact h.del a rfl (Or.inr ⟨rfl, h.free _ (proto?_some hp) (by rw [h1]; simp)⟩)

theorem Listed.add {s : Dev} (h : Listed s) {a : Nat} (hn : s.proto? a = none) (p : Proto) (b : Bool)
    (hp : p.phase = .wait → p.ptr = none) (hb : b = true → p.ptr = none) :
    Listed { s with protos := s.protos ++ [(a, p)], list := if b then s.list ++ [a] else s.list } := by
  have hna : a ∉ s.list := by
    intro hm
    obtain ⟨q, hq⟩ := h.live a hm
    exact proto?_none hn _ hq rfl
  refine ⟨?_, ?_, ?_, ?_, ?_⟩
  · show (if b then s.list ++ [a] else s.list).Nodup
    split
    · rw [List.nodup_append]
      refine ⟨h.nodup, by simp, ?_⟩
      intro x hx y hy e
      rw [List.mem_singleton.mp hy] at e
      exact hna (e ▸ hx)
    · exact h.nodup
  · show (List.map Prod.fst (s.protos ++ [(a, p)])).Nodup
    rw [List.map_append, List.nodup_append]
    refine ⟨h.keys, by simp, ?_⟩
    intro x hx y hy e
    simp only [List.map_cons, List.map_nil, List.mem_singleton] at hy
    obtain ⟨q, hq, rfl⟩ := List.mem_map.mp hx
    exact proto?_none hn q hq (e.trans hy)
  · intro c hc
    have hc' : c ∈ s.list ∨ c = a := by
      have : c ∈ (if b then s.list ++ [a] else s.list) := hc
      split at this
      · simpa using this
      · exact Or.inl this
    rcases hc' with hc' | rfl
    · obtain ⟨q, hq⟩ := h.live c hc'
      exact ⟨q, List.mem_append_left _ hq⟩
    · exact ⟨p, by simp⟩
  · intro x hx hnn hm
    have hm' : x.1 ∈ (if b then s.list ++ [a] else s.list) := hm
    rcases List.mem_append.mp hx with hx | hx
    · split at hm'
      · rcases List.mem_append.mp hm' with hm' | hm'
        · exact h.free x hx hnn hm'
        · exact proto?_none hn x hx (List.mem_singleton.mp hm')
      · exact h.free x hx hnn hm'
    · rw [List.mem_singleton.mp hx] at hnn hm'
      split at hm'
      · rename_i hbt
        exact hnn (hb hbt)
      · exact hna hm'
  · intro x hx hpp
    rcases List.mem_append.mp hx with hx | hx
    · exact h.wait x hx hpp
    · rw [List.mem_singleton.mp hx] at hpp ⊢
      exact hp hpp

theorem step_listed {s : Dev} (h : Listed s) (o : Op) (hd : Direct o) : Listed (s.step o) := by
  cases o with
  | request id tm addr cmd ok =>
    simp only [Dev.step]
    split
    · split
      · exact h
      · exact ⟨h.nodup, h.keys, h.live, h.free, h.wait⟩
    · exact ⟨h.nodup, h.keys, h.live, h.free, h.wait⟩
  | incoming a =>
    simp only [Dev.step]
    split
    · exact h
    · rename_i hn
      exact h.add (proto?_isNone hn) ⟨none, .wait, []⟩ true (fun _ => rfl) (fun _ => rfl)
  | redirect a msg => exact hd.elim
  | clientUp id a =>
    simp only [Dev.step]
    split
    · exact h
    · rename_i hn
      split
      · exact h
      · exact h.add (proto?_isNone hn) _ false (fun e => by simp at e) (fun e => by simp at e)
  | clientErr id =>
    simp only [Dev.step]
    split
    · exact h
    · exact ⟨h.nodup, h.keys, h.live, h.free, h.wait⟩
  | recv a msg ok =>
    simp only [Dev.step]
    split
    · exact h
    · rename_i p hp
      split
      · exact serverRequest_listed h a msg
      · exact h
      · exact completed_listed h hp _ _
  | sent a ok =>
    simp only [Dev.step]
    split
    · exact h
    · rename_i p hp
      split
      · exact completed_listed h hp _ _
      · exact h
      · exact h
  | err a =>
    simp only [Dev.step]
    split
    · exact h
    · rename_i p hp
      unfold Dev.removeProtocol
      split
      · exact h.del a rfl (Or.inl rfl)
      · rename_i q hq
        have hf := h.free _ (proto?_some hp) (by rw [hq]; simp)
        split
        · exact h.del a rfl (Or.inr ⟨rfl, hf⟩)
        · exact h.del a rfl (Or.inr ⟨rfl, hf⟩)
  | timeout d => exact ⟨h.nodup, h.keys, h.live, h.free, h.wait⟩

theorem run_listed {s : Dev} (h : Listed s) (ops : List Op) (hd : ∀ o ∈ ops, Direct o) :
    Listed (s.run ops) := by
  induction ops generalizing s with
  | nil => exact h
  | cons o ops ih =>
    exact ih (step_listed h o (hd o (by simp))) (fun o' h' => hd o' (List.mem_cons_of_mem _ h'))

theorem listed_init : Listed {} :=
  ⟨by simp, by simp, fun _ h => by simp at h, fun _ h => by simp at h, fun _ h => by simp at h⟩

end Verif.SockDevice
