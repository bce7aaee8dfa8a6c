import Verif.Spec.TdcRetr
/-! # C124: calibration sends every buffer once, in order, with its subevents -/

namespace Verif.TdcRetr
open Verif.Bytes

theorem results_append {t : Sub → Nat → List Byte} {room : Nat} {u : List Sub} {d : List Byte}
    (h : Results t room u d) : ∀ {v : List Sub} {e : List Byte}, Results t (room - d.length) v e →
    Results t room (u ++ v) (d ++ e) := by
  induction h with
  | nil => intro v e he; simpa using he
  | cons h1 h2 _ ih =>
    intro v e he
    rw [List.cons_append, List.append_assoc]
    refine .cons h1 h2 (ih ?_)
    rw [List.length_append, ← Nat.sub_sub] at he
    exact he

theorem block_spec {c : Conf} (hd : c.dummy = false) : ∀ (l : List Sub) {room : Nat}
    {r : Nat × List Byte}, copyBlock c room l = some r →
    ∃ u, Usable l u ∧ Results c.transform room u r.2 ∧ r.1 = room - r.2.length
  | [], room, r, h => by
    cases h
    exact ⟨[], .nil, .nil, rfl⟩
  | s :: l, room, r, h => by
    have hw : ∀ room, write c s room = c.transform s room := fun room => by simp [write, hd]
    simp only [copyBlock, hw] at h
    split at h
    · rename_i hf
      cases h
      exact ⟨[], .bad (by simpa using hf), .nil, rfl⟩
    · rename_i hf
      split at h
      · cases h
      · split at h
        · cases h
        · split at h
          · cases h
          · obtain ⟨r', h1, rfl⟩ := Option.map_eq_some_iff.mp h
            obtain ⟨u, e1, e2, e3⟩ := block_spec hd l h1
            refine ⟨s :: u, .cons (by simpa using hf) e1, .cons (by omega) (by omega) e2, ?_⟩
            show r'.1 = room - (c.transform s room ++ r'.2).length
            rw [e3, List.length_append, Nat.sub_sub]

theorem blocks_spec {c : Conf} (hd : c.dummy = false) : ∀ (l : List (List Sub)) {room : Nat}
    {d : List Byte}, copyBlocks c room l = some d →
    ∃ u, UsableAll l u ∧ Results c.transform room u d
  | [], room, d, h => by
    cases h
    exact ⟨[], .nil, .nil⟩
  | b :: l, room, d, h => by
    obtain ⟨r, h1, h2⟩ := Option.bind_eq_some_iff.mp h
    obtain ⟨d', h3, rfl⟩ := Option.map_eq_some_iff.mp h2
    obtain ⟨u, e1, e2, e3⟩ := block_spec hd b h1
    rw [e3] at h3
    obtain ⟨us, e4, e5⟩ := blocks_spec hd l h3
    exact ⟨u ++ us, .cons e1 e4, results_append e2 e5⟩

theorem place_spec {c : Conf} : ∀ (l : List Sub) {r : List Sub}, placeBlock c l = some r →
    Placed c.inPlace l r
  | [], r, h => by
    cases h
    exact .nil
  | s :: l, r, h => by
    simp only [placeBlock] at h
    split at h
    · rename_i hf
      cases h
      exact .bad (by simpa using hf)
    · rename_i hf
      split at h
      · cases h
      · obtain ⟨r', h1, rfl⟩ := Option.map_eq_some_iff.mp h
        exact .cons (by simpa using hf) (place_spec l h1)

theorem places_spec {c : Conf} : ∀ (l : List (List Sub)) {r : List (List Sub)},
    placeBlocks c l = some r → PlacedAll c.inPlace l r
  | [], r, h => by
    cases h
    exact .nil
  | b :: l, r, h => by
    obtain ⟨b', h1, h2⟩ := Option.bind_eq_some_iff.mp h
    obtain ⟨r', h3, rfl⟩ := Option.map_eq_some_iff.mp h2
    exact .cons (place_spec b h1) (places_spec l h3)

theorem convert_spec {c : Conf} (hd : c.dummy = false) {b : Buf} {o : Option Buf}
    (h : convert c b = some o) : Sends c b o := by
  cases b with
  | other t d =>
    cases h
    exact .other
  | subs d =>
    cases h
    exact .subs
  | data t l =>
    simp only [convert] at h
    split at h
    · rename_i hp
      cases h
      exact .noProc (by simpa using hp)
    · rename_i hp
      have hp : c.proc = true := by simpa using hp
      split at h
      · rename_i hr
        obtain ⟨l', h1, rfl⟩ := Option.map_eq_some_iff.mp h
        exact .placed hp hr (places_spec l h1)
      · rename_i hr
        have hr : c.replace = false := by simpa using hr
        obtain ⟨d, h1, h2⟩ := Option.map_eq_some_iff.mp h
        obtain ⟨u, e1, e2⟩ := blocks_spec hd l h1
        split at h2
        · rename_i h0
          subst h0
          subst h2
          exact .nothing hp hr e1 e2
        · rename_i h0
          subst h2
          exact .copied hp hr e1 e2 h0

theorem sends_append {c : Conf} {l l' : List Buf} (h : SendsAll c l l') {b : Buf} {o : Option Buf}
    (hb : Sends c b o) : SendsAll c (l ++ [b]) (l' ++ o.toList) := by
  induction h with
  | nil =>
    cases o with
    | none => exact .none hb .nil
    | some b' => exact .some hb .nil
  | some h1 _ ih => exact .some h1 ih
  | none h1 _ ih => exact .none h1 ih

/-- Relation of the state with what arrived. -/
def Inv (c : Conf) (s : State) (arr : List Buf) : Prop :=
  ∃ taken, arr = taken ++ s.inp ∧ SendsAll c taken s.sent

theorem call_inv {c : Conf} (hd : c.dummy = false) {s s' : State} {arr : List Buf} {x y b : Bool}
    (h : Inv c s arr) (hc : retransmit c x y s = .ok s' b) : Inv c s' arr := by
  obtain ⟨taken, h1, h2⟩ := h
  unfold retransmit at hc
  split at hc
  · cases hc
    exact ⟨taken, h1, h2⟩
  · rename_i q l hq
    rw [hq] at h1
    split at hc
    · cases hc
      exact ⟨taken, by rw [hq]; exact h1, h2⟩
    · split at hc
      · cases hc
        exact ⟨taken, by rw [hq]; exact h1, h2⟩
      · split at hc
        · cases hc
        · rename_i e
          cases hc
          refine ⟨taken ++ [q], by simpa using h1, ?_⟩
          simpa using sends_append h2 (convert_spec hd e)
        · rename_i e
          cases hc
          refine ⟨taken ++ [q], by simpa using h1, ?_⟩
          simpa using sends_append h2 (convert_spec hd e)

theorem run_inv {c : Conf} (hd : c.dummy = false) : ∀ (ops : List Op) {s s' : State}
    {arr : List Buf}, Inv c s arr → run c s ops = some s' → Inv c s' (arr ++ arrived ops)
  | [], s, s', arr, h, hr => by
    cases hr
    simpa [arrived] using h
  | o :: ops, s, s', arr, h, hr => by
    obtain ⟨s1, h1, h2⟩ := Option.bind_eq_some_iff.mp hr
    cases o with
    | arrive b =>
      cases h1
      obtain ⟨taken, e1, e2⟩ := h
      have hi : Inv c { s with inp := s.inp ++ [b] } (arr ++ [b]) :=
        ⟨taken, by simp [e1], e2⟩
      have := run_inv hd ops hi h2
      simpa [arrived] using this
    | call x y =>
      simp only [step] at h1
      split at h1
      · rename_i e
        cases h1
        exact run_inv hd ops (call_inv hd h e) h2
      · cases h1

/-- At any time the sent buffers are those for the first buffers which arrived, in order and each
at most once, with the results of their usable subevents; all others wait in the input queue.
Partial: without emulation. -/
theorem C124_in_order_partial {c : Conf} (hd : c.dummy = false) {ops : List Op} {s : State}
    (h : run c ⟨[], []⟩ ops = some s) :
    ∃ taken, arrived ops = taken ++ s.inp ∧ SendsAll c taken s.sent := by
  have := run_inv hd ops (arr := []) ⟨[], rfl, .nil⟩ h
  simpa [Inv] using this

/-- Nothing is done while there is no input, or the output or the pool is not ready. -/
theorem C124_waits (c : Conf) (s : State) {x y : Bool}
    (h : s.inp = [] ∨ x = false ∨ (c.replace = false ∧ y = false)) :
    retransmit c x y s = .ok s false := by
  unfold retransmit
  split
  · rfl
  · rename_i hq
    rcases h with h | h | ⟨h1, h2⟩
    · rw [hq] at h; cases h
    · simp [h]
    · simp [h1, h2]

theorem block_total {c : Conf} (hd : c.dummy = false) (hs : Shrinks c) {l u : List Sub}
    (h : Usable l u) : ∀ {room : Nat}, (∀ s ∈ u, s.good = true) → (u.map Sub.padded).sum ≤ room →
    ∃ r, copyBlock c room l = some r ∧ room - (u.map Sub.padded).sum ≤ r.1 := by
  induction h with
  | nil => intro room _ _; exact ⟨_, rfl, Nat.sub_le _ _⟩
  | bad hf =>
    intro room _ _
    refine ⟨(room, []), ?_, Nat.sub_le _ _⟩
    simp [copyBlock, hf]
  | @cons s l u hf _ ih =>
    intro room hg hr
    simp only [List.map_cons, List.sum_cons] at hr ⊢
    have hsz := hs s room
    have hw : write c s room = c.transform s room := by simp [write, hd]
    obtain ⟨r, h1, h2⟩ := ih (room := room - (c.transform s room).length)
      (fun x hx => hg x (List.mem_cons_of_mem _ hx)) (by omega)
    refine ⟨(r.1, c.transform s room ++ r.2), ?_, by show _ ≤ r.1; omega⟩
    simp only [copyBlock, hw, hf, hg s (List.mem_cons_self ..)]
    rw [if_neg (by simp), if_neg (by omega), if_neg (by simp), if_neg (by omega), h1]
    rfl

theorem blocks_total {c : Conf} (hd : c.dummy = false) (hs : Shrinks c) {l : List (List Sub)}
    {u : List Sub} (h : UsableAll l u) : ∀ {room : Nat}, (∀ s ∈ u, s.good = true) →
    (u.map Sub.padded).sum ≤ room → ∃ d, copyBlocks c room l = some d := by
  induction h with
  | nil => intro room _ _; exact ⟨_, rfl⟩
  | cons hb _ ih =>
    intro room hg hr
    simp only [List.map_append, List.sum_append] at hr
    obtain ⟨r, h1, h2⟩ := block_total hd hs hb (room := room)
      (fun x hx => hg x (List.mem_append_left _ hx)) (by omega)
    obtain ⟨d, h3⟩ := ih (room := r.1) (fun x hx => hg x (List.mem_append_right _ hx)) (by omega)
    exact ⟨r.2 ++ d, by simp [copyBlocks, h1, h3]⟩

theorem place_total {c : Conf} {l u : List Sub} (h : Usable l u) (hg : ∀ s ∈ u, s.good = true) :
    ∃ r, placeBlock c l = some r := by
  induction h with
  | nil => exact ⟨_, rfl⟩
  | bad hf => exact ⟨_, by simp only [placeBlock, hf]; rfl⟩
  | @cons s l u hf _ ih =>
    obtain ⟨r, h1⟩ := ih (fun x hx => hg x (List.mem_cons_of_mem _ hx))
    exact ⟨c.inPlace s :: r, by simp [placeBlock, hf, hg s (List.mem_cons_self ..), h1]⟩

theorem places_total {c : Conf} {l : List (List Sub)} {u : List Sub} (h : UsableAll l u)
    (hg : ∀ s ∈ u, s.good = true) : ∃ r, placeBlocks c l = some r := by
  induction h with
  | nil => exact ⟨_, rfl⟩
  | cons hb _ ih =>
    obtain ⟨b, h1⟩ := place_total (c := c) hb (fun x hx => hg x (List.mem_append_left _ hx))
    obtain ⟨r, h2⟩ := ih (fun x hx => hg x (List.mem_append_right _ hx))
    exact ⟨b :: r, by simp [placeBlocks, h1, h2]⟩

/-- A buffer which is fine is taken and sent when output and, if needed, pool are ready, and the
module goes on. Partial: without emulation, for transformations which do not make data longer. -/
theorem C124_progress_partial {c : Conf} (hd : c.dummy = false) (hs : Shrinks c) {b : Buf}
    (hb : Fine c.cap b) {q out : List Buf} {y : Bool} (h : c.replace = true ∨ y = true) :
    ∃ o, Sends c b o ∧ retransmit c true y ⟨b :: q, out⟩ = .ok ⟨q, out ++ o.toList⟩ true := by
  have : ∃ o, convert c b = some o := by
    cases hb with
    | other => exact ⟨_, rfl⟩
    | subs => exact ⟨_, rfl⟩
    | data hu hg hr =>
      simp only [convert]
      split
      · exact ⟨_, rfl⟩
      · split
        · obtain ⟨r, h1⟩ := places_total (c := c) hu hg
          rw [h1]
          exact ⟨_, rfl⟩
        · obtain ⟨d, h1⟩ := blocks_total hd hs hu hg hr
          rw [h1]
          exact ⟨_, rfl⟩
  obtain ⟨o, ho⟩ := this
  refine ⟨o, convert_spec hd ho, ?_⟩
  have h' : (!c.replace && !y) = false := by rcases h with h | h <;> simp [h]
  cases o <;> simp [retransmit, h', ho]

/-- The result of a copy is never larger than the buffer of the pool. -/
theorem C124_size {c : Conf} {t : Nat} {l : List (List Sub)} {d : List Byte}
    (h : Sends c (.data t l) (some (.subs d))) : d.length ≤ c.cap := by
  have key : ∀ {room u d}, Results c.transform room u d → d.length ≤ room := by
    intro room u d h
    induction h with
    | nil => simp
    | cons _ _ _ ih => rw [List.length_append]; omega
  cases h with
  | copied _ _ _ h1 => exact key h1

/-! ## Examples and deviations -/

/-- Copies subevents. -/
def exConf : Conf :=
  ⟨true, false, false, 4, [9, 9, 9, 9], id, fun s _ => s.data.take s.padded, fun s => s.padded⟩

def sub (d : List Byte) : Sub := ⟨d, d.length, true, true⟩
def badSub : Sub := ⟨[7], 100, false, true⟩

theorem ex_shrinks : Shrinks exConf := fun s _ => by
  show (s.data.take s.padded).length ≤ s.padded
  simp only [List.length_take]
  omega

/-- Subevents larger than the rest of the target end the process. -/
theorem C124_exit_counterexample :
    retransmit exConf true true ⟨[.data 1 [[sub [1, 2, 3]], [sub [4, 5]]]], []⟩ = .died := rfl

/-- Emulation with new buffers sends the old content of the buffer from the pool. -/
theorem C124_dummy_counterexample :
    retransmit { exConf with dummy := true } true true ⟨[.data 1 [[sub [1, 2, 3]]]], []⟩
      = .ok ⟨[], [.subs [9, 9, 9]]⟩ true := rfl

/-- A subevent with a wrong size takes the subevents behind it in its block along, but not those
of the next block. -/
theorem C124_bad_counterexample :
    retransmit exConf true true ⟨[.data 1 [[sub [1], badSub, sub [2]], [sub [3]]]], []⟩
      = .ok ⟨[], [.subs [1, 3]]⟩ true := rfl

example : Fine exConf.cap (.data 1 [[sub [1], badSub, sub [2]], [sub [3]]]) :=
  .data (u := [sub [1]] ++ ([sub [3]] ++ []))
    (.cons (.cons rfl (.bad rfl)) (.cons (.cons rfl .nil) .nil))
    (by
      intro s hs
      simp only [List.append_nil, List.mem_append, List.mem_singleton] at hs
      rcases hs with rfl | rfl <;> rfl)
    (by decide)

example : run exConf ⟨[], []⟩ [.arrive (.data 1 [[sub [1]]]), .arrive (.other 5 []),
    .call true false, .call true true, .call true true]
      = some ⟨[], [.subs [1], .other 5 []]⟩ := rfl

end Verif.TdcRetr
