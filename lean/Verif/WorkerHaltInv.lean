import Verif.WorkerHaltLemmas

/-!
# Every step keeps the invariant
-/

namespace Verif.WorkerHalt

theorem live_zero {s : S} (h : Inv s) : s.live 0 = none := by
  obtain ⟨r, h1, h2⟩ := h.zero
  refine live_none.2 fun r' w h3 h4 => ?_
  rw [h1] at h3
  rw [← Option.some.inj h3, h2] at h4
  simp at h4

theorem id_ne_zero {s : S} (h : Inv s) {id : Nat} {r : Rec} {w : Nat} (hr : s.recs[id]? = some r) (hw : r.work = some w) :
    id ≠ 0 := by
  intro h0
  subst h0
  have := live_zero h
  rw [live_some.2 ⟨hr, hw⟩] at this
  simp at this

/-- A call with a live worker is on top: the counter of its record goes up. -/
theorem inv_push {s : S} (h : Inv s) (hi : s.chk = .idle) {id : Nat} {r : Rec} {w : Nat} (hr : s.recs[id]? = some r)
    (hw : r.work = some w) (f : Frame) (hf : FrameOk s.ws f) (hg : isG id f = true) (hg' : ∀ j, j ≠ id → isG j f = false)
    (p : Nat) : Inv { s with recs := s.recs.set id { r with processed := p, recursion := r.recursion + 1 }, stack := f :: s.stack } := by
  have hok := h.recs id r hr
  refine inv_set h hr hw (r' := { r with processed := p, recursion := r.recursion + 1 }) hw rfl
    (fun _ => ⟨rfl, rfl⟩) (fun _ h => h) rfl ?_ ?_ ?_ ?_
  · intro g hg
    rcases List.mem_cons.1 hg with h1 | h1
    · rw [h1]; exact hf
    · exact h.frames g h1
  · intro j hj _
    show cnt j (f :: s.stack) = _
    unfold cnt
    rw [List.countP_cons, hg' j hj]
    simp
  · refine ⟨fun hn => ?_, ?_, hok.inactive, hok.idle⟩
    · rw [show r.work = none from hn] at hw; simp at hw
    · intro v hv
      have h1 := hok.recursion w hw
      show r.recursion + 1 = cnt id (f :: s.stack)
      unfold cnt at h1 ⊢
      rw [List.countP_cons, hg]
      simp only [if_true]
      omega
  · unfold ChkOk
    dsimp only
    rw [hi]
    trivial

/-- A call with a live worker ends: the counter of its record goes down. -/
theorem inv_drop {s : S} (h : Inv s) (hi : s.chk = .idle) {id : Nat} {r : Rec} {w : Nat} (hr : s.recs[id]? = some r)
    (hw : r.work = some w) (f : Frame) (t : List Frame) (hs : s.stack = f :: t) (hg : isG id f = true)
    (hg' : ∀ j, j ≠ id → isG j f = false) :
    Inv { s with recs := s.recs.set id { r with recursion := r.recursion - 1 }, stack := t } := by
  have hok := h.recs id r hr
  refine inv_set h hr hw (r' := { r with recursion := r.recursion - 1 }) hw rfl
    (fun _ => ⟨rfl, rfl⟩) (fun _ h => h) rfl ?_ ?_ ?_ ?_
  · intro g hg
    exact h.frames g (by rw [hs]; exact List.mem_cons_of_mem _ hg)
  · intro j hj _
    show cnt j t = _
    rw [hs]
    unfold cnt
    rw [List.countP_cons, hg' j hj]
    simp
  · refine ⟨fun hn => ?_, ?_, hok.inactive, hok.idle⟩
    · rw [show r.work = none from hn] at hw; simp at hw
    · intro v hv
      have h1 := hok.recursion w hw
      show r.recursion - 1 = cnt id t
      rw [hs] at h1
      unfold cnt at h1 ⊢
      rw [List.countP_cons, hg] at h1
      simp only [if_true] at h1
      omega
  · unfold ChkOk
    dsimp only
    rw [hi]
    trivial

/-- A call without counter ends or begins. -/
theorem inv_stack {s : S} (h : Inv s) (hi : s.chk = .idle) (t : List Frame) (hfr : ∀ f ∈ t, FrameOk s.ws f)
    (hcnt : ∀ j, j ≠ 0 → cnt j t = cnt j s.stack) : Inv { s with stack := t } := by
  refine inv_same h rfl (fun _ => ⟨rfl, rfl⟩) (fun _ h => h) rfl hfr hcnt ?_
  unfold ChkOk
  dsimp only
  rw [hi]
  trivial

theorem isG_event {id i w : Nat} : isG id (.event i w) = (i == id) := rfl
theorem isG_guard {id i w : Nat} : isG id (.guard i w) = (i == id) := rfl

theorem inv_begin {s : S} (h : Inv s) (hi : s.chk = .idle) (e : Ev) : Inv (s.begin e) := by
  unfold S.begin
  split
  · exact h
  · rename_i h0
    split
    · exact h
    · rename_i r w hl
      obtain ⟨hr, hw⟩ := live_some.1 hl
      refine inv_push h hi hr hw (.event e.item w) ⟨h0, (h.live _ _ _ hr hw).1⟩ ?_ ?_ _
      · rw [isG_event]; simp
      · intro j hj
        rw [isG_event]
        simpa using fun h' => hj h'.symm

theorem inv_guard {s : S} (h : Inv s) (hi : s.chk = .idle) (w : Nat) :
    Inv ({ s with stack := .guard (s.ws w).wid w :: s.stack }.enter (s.ws w).wid) := by
  unfold S.enter
  by_cases h0 : (s.ws w).wid = 0
  · have hl : S.live { s with stack := .guard (s.ws w).wid w :: s.stack } (s.ws w).wid = none := by
      have := live_zero h
      unfold S.live at this ⊢
      rw [h0]
      exact this
    rw [hl]
    refine inv_stack h hi _ ?_ ?_
    · intro f hf
      rcases List.mem_cons.1 hf with h1 | h1
      · rw [h1]; exact Or.inl h0
      · exact h.frames f h1
    · intro j hj
      unfold cnt
      rw [List.countP_cons, isG_guard, h0]
      have : ((0 : Nat) == j) = false := by simpa using fun h' => hj h'.symm
      rw [this]
      simp
  · obtain ⟨r, hr, hw⟩ := h.wid w h0
    have hl : S.live { s with stack := .guard (s.ws w).wid w :: s.stack } (s.ws w).wid = some (r, w) :=
      live_some.2 ⟨hr, hw⟩
    rw [hl]
    refine inv_push h hi hr hw (.guard (s.ws w).wid w) (Or.inr rfl) ?_ ?_ r.processed
    · rw [isG_guard]; simp
    · intro j hj
      rw [isG_guard]
      simpa using fun h' => hj h'.symm

theorem inv_pop {s : S} (h : Inv s) (hi : s.chk = .idle) : Inv s.pop := by
  unfold S.pop
  split
  · exact h
  · rename_i id w t hs
    obtain ⟨h0, hwid⟩ : FrameOk s.ws (.event id w) := h.frames _ (by rw [hs]; exact List.mem_cons_self)
    obtain ⟨r, hr, hw⟩ := h.wid w (by rw [hwid]; exact h0)
    rw [hwid] at hr
    have hinv := inv_drop h hi hr hw (.event id w) t hs (by rw [isG_event]; simp)
      (fun j hj => by rw [isG_event]; simpa using fun h' => hj h'.symm)
    unfold S.endEvent
    show Inv (match s.recs[id]? with | none => _ | some r => _)
    rw [hr]
    dsimp only
    split
    · exact inv_check hinv hi _ _ _
    · exact hinv
  · rename_i id w t hs
    have hf : FrameOk s.ws (.guard id w) := h.frames _ (by rw [hs]; exact List.mem_cons_self)
    unfold S.leave
    by_cases h0 : id = 0
    · subst h0
      have hl : S.live { s with stack := t } 0 = none := by
        have h1 := live_zero h
        unfold S.live at h1 ⊢
        exact h1
      rw [hl]
      refine inv_stack h hi t (fun f hf => h.frames f (by rw [hs]; exact List.mem_cons_of_mem _ hf)) ?_
      intro j hj
      rw [hs]
      unfold cnt
      rw [List.countP_cons, isG_guard]
      have : ((0 : Nat) == j) = false := by simpa using fun h' => hj h'.symm
      rw [this]
      simp
    · have hwid : (s.ws w).wid = id := hf.resolve_left h0
      obtain ⟨r, hr, hw⟩ := h.wid w (by rw [hwid]; exact h0)
      rw [hwid] at hr
      have hinv := inv_drop h hi hr hw (.guard id w) t hs (by rw [isG_guard]; simp)
        (fun j hj => by rw [isG_guard]; simpa using fun h' => hj h'.symm)
      have hl : S.live { s with stack := t } id = some (r, w) := live_some.2 ⟨hr, hw⟩
      rw [hl]
      dsimp only
      split
      · exact inv_check hinv hi _ _ _
      · exact hinv
  · rename_i id w t hs
    refine inv_stack h hi t (fun f hf => h.frames f (by rw [hs]; exact List.mem_cons_of_mem _ hf)) ?_
    intro j _
    rw [hs]
    unfold cnt
    rw [List.countP_cons]
    rfl
  · rename_i w d c t hs
    refine inv_same h rfl (fun _ => ⟨rfl, rfl⟩) (fun _ h => h) rfl
      (fun f hf => h.frames f (by rw [hs]; exact List.mem_cons_of_mem _ hf)) ?_ ?_
    · intro j _
      rw [hs]
      unfold cnt
      rw [List.countP_cons]
      rfl
    · unfold ChkOk
      dsimp only
      rw [hi]
      trivial

theorem cnt_zero {id : Nat} {l : List Frame} (h : cnt id l = 0) : ∀ f ∈ l, isG id f = false := by
  intro f hf
  unfold cnt at h
  have := List.countP_eq_zero.1 h f hf
  simpa using this

theorem inv_remove {s : S} (h : Inv s) {id : Nat} {cmd : Option Nat} (hd : s.chk = .decided id cmd) :
    Inv (s.remove id cmd) := by
  obtain ⟨r, w, hr, hw, hrec, hdo⟩ : ∃ r w, s.recs[id]? = some r ∧ r.work = some w ∧ r.recursion = 0 ∧ r.doing = true := by
    have := h.chk
    unfold ChkOk at this
    rw [hd] at this
    exact this
  have hok := h.recs id r hr
  have hid := id_ne_zero h hr hw
  obtain ⟨hwid, hthr⟩ := h.live id r w hr hw
  have hc : cnt id s.stack = 0 := by
    have := hok.recursion w hw
    omega
  unfold S.remove
  rw [live_some.2 ⟨hr, hw⟩]
  dsimp only
  have other : ∀ j r' v, j ≠ id → s.recs[j]? = some r' → r'.work = some v → v ≠ w := by
    intro j r' v hj h1 h2 hv
    subst hv
    exact hj ((h.live j r' v h1 h2).1.symm.trans hwid)
  refine ⟨?_, ?_, ?_, ?_, ?_, ?_, ?_, h.addsNd, ?_⟩
  · obtain ⟨r0, h1, h2⟩ := h.zero
    exact ⟨r0, by dsimp only; rw [set_other hid.symm]; exact h1, h2⟩
  · intro v hv
    dsimp only at hv ⊢
    by_cases hvw : v = w
    · subst hvw
      rw [upd_self] at hv
      exact absurd rfl hv
    · rw [upd_other _ _ hvw] at hv ⊢
      obtain ⟨r', h1, h2⟩ := h.wid v hv
      refine ⟨r', ?_, h2⟩
      rw [set_other]
      · exact h1
      · intro h3
        rw [h3, hr] at h1
        rw [← Option.some.inj h1, hw] at h2
        exact hvw (Option.some.inj h2).symm
  · intro j r' v h1 h2
    rcases set_get hr h1 with ⟨h3, h4⟩ | ⟨h3, h4⟩
    · rw [h4] at h2
      simp [Rec.new] at h2
    · dsimp only
      rw [upd_other _ _ (other j r' v h3 h4 h2)]
      exact h.live j r' v h4 h2
  · intro v hv
    dsimp only at hv ⊢
    by_cases hvw : v = w
    · subst hvw
      rw [upd_self] at hv
      rw [hok.inactive v hw hdo] at hv
      simp at hv
    · rw [upd_other _ _ hvw] at hv ⊢
      exact h.active v hv
  · intro f hf
    have hnot := cnt_zero hc f hf
    have hfo := h.frames f hf
    cases f with
    | event i v =>
      rw [isG_event] at hnot
      have hne : i ≠ id := by simpa using hnot
      have hvw : v ≠ w := by
        intro hv
        subst hv
        exact hne (hfo.2.symm.trans hwid)
      refine ⟨hfo.1, ?_⟩
      dsimp only
      rw [upd_other _ _ hvw]
      exact hfo.2
    | guard i v =>
      rw [isG_guard] at hnot
      have hne : i ≠ id := by simpa using hnot
      rcases hfo with h1 | h1
      · exact Or.inl h1
      · have hvw : v ≠ w := by
          intro hv
          subst hv
          exact hne (h1.symm.trans hwid)
        refine Or.inr ?_
        dsimp only
        rw [upd_other _ _ hvw]
        exact h1
    | raw => trivial
    | fin => trivial
  · intro j r' h1
    rcases set_get hr h1 with ⟨h3, h4⟩ | ⟨h3, h4⟩
    · subst h4
      exact ⟨fun _ => rfl, fun v hv => by simp [Rec.new] at hv, fun v hv => by simp [Rec.new] at hv, fun _ => rfl⟩
    · have hq := h.recs j r' h4
      refine ⟨hq.free, hq.recursion, ?_, hq.idle⟩
      intro v hv hdo'
      dsimp only
      rw [upd_other _ _ (other j r' v h3 h4 hv)]
      exact hq.inactive v hv hdo'
  · unfold ChkOk
    dsimp only
    rw [upd_self]
    refine ⟨hthr, rfl, ?_, hok.inactive w hw hdo⟩
    intro hm
    have := (h.adds w hm).2
    rw [hwid] at this
    exact hid this
  · intro v hv
    dsimp only
    have hvw : v ≠ w := by
      intro h1
      subst h1
      have := (h.adds v hv).2
      rw [hwid] at this
      exact hid this
    rw [upd_other _ _ hvw]
    exact h.adds v hv

/-- Changes of a worker which is not a member. -/
theorem inv_ws {s s' : S} (h : Inv s) (w : Nat) (x : WS) (hwid : (s.ws w).wid = 0) (hx : x.wid = 0) (hxa : x.active = false)
    (hws : s'.ws = upd s.ws w x) (hrecs : s'.recs = s.recs) (hfr : ∀ f ∈ s'.stack, FrameOk s.ws f)
    (hcnt : ∀ j, j ≠ 0 → cnt j s'.stack = cnt j s.stack) (hchk : ChkOk s') (hnd : s'.adds.Nodup)
    (hadds : ∀ w ∈ s'.adds, (s'.ws w).thrd = true ∧ (s'.ws w).wid = 0) : Inv s' := by
  have hwids : ∀ v, (s'.ws v).wid = (s.ws v).wid := by
    intro v
    rw [hws]
    by_cases hv : v = w
    · subst hv; rw [upd_self, hx, hwid]
    · rw [upd_other _ _ hv]
  have other : ∀ (j : Nat) (r : Rec) (v : Nat), s.recs[j]? = some r → r.work = some v → s'.ws v = s.ws v := by
    intro j r v h1 h2
    rw [hws]
    refine upd_other _ _ ?_
    intro hv
    subst hv
    have := (h.live j r v h1 h2).1
    rw [hwid] at this
    exact id_ne_zero h h1 h2 this.symm
  refine ⟨?_, ?_, ?_, ?_, ?_, ?_, hchk, hnd, hadds⟩
  · rw [hrecs]; exact h.zero
  · intro v hv
    rw [hwids] at hv ⊢
    rw [hrecs]
    exact h.wid v hv
  · intro j r v h1 h2
    rw [hrecs] at h1
    rw [other j r v h1 h2]
    exact h.live j r v h1 h2
  · intro v hv
    rw [hwids]
    rw [hws] at hv
    by_cases hvw : v = w
    · subst hvw; rw [upd_self, hxa] at hv; simp at hv
    · rw [upd_other _ _ hvw] at hv; exact h.active v hv
  · intro f hf
    have := hfr f hf
    cases f with
    | event i v => exact ⟨this.1, (hwids v).trans this.2⟩
    | guard i v => exact this.imp (fun h' => h') fun h' => (hwids v).trans h'
    | raw => trivial
    | fin => trivial
  · intro j r h1
    rw [hrecs] at h1
    have hok := h.recs j r h1
    refine ⟨hok.free, ?_, ?_, hok.idle⟩
    · intro v hv
      rw [hcnt j (id_ne_zero h h1 hv)]
      exact hok.recursion v hv
    · intro v hv hdo
      rw [other j r v h1 hv]
      exact hok.inactive v hv hdo

theorem inv_clear {s : S} (h : Inv s) {w : Nat} {d : Bool} {c : List Nat} (hd : s.chk = .removed w d c) :
    Inv (s.clear w d c) := by
  obtain ⟨h1, h2, h3, h4⟩ : (s.ws w).thrd = true ∧ (s.ws w).wid = 0 ∧ w ∉ s.adds ∧ (s.ws w).active = false := by
    have := h.chk
    unfold ChkOk at this
    rw [hd] at this
    exact this
  unfold S.clear
  refine inv_ws h w { s.ws w with active := false, wid := 0, thrd := false } h2 rfl rfl rfl rfl ?_ ?_ trivial h.addsNd ?_
  · intro f hf
    rcases List.mem_cons.1 hf with h5 | h5
    · rw [h5]; trivial
    · exact h.frames f h5
  · intro j _
    unfold cnt
    rw [List.countP_cons]
    rfl
  · intro v hv
    dsimp only
    rw [upd_other _ _ (show v ≠ w from fun h5 => h3 (h5 ▸ hv))]
    exact h.adds v hv

theorem inv_assign {s : S} (h : Inv s) (w : Nat) : Inv (step s (.assign w)) := by
  unfold step
  dsimp only
  split
  · exact h
  · rename_i ht
    have hwid : (s.ws w).wid = 0 := by
      cases hz : (s.ws w).wid with
      | zero => rfl
      | succ n =>
        obtain ⟨r, h1, h2⟩ := h.wid w (by rw [hz]; simp)
        exact absurd (h.live _ _ _ h1 h2).2 ht
    have hna : w ∉ s.adds := fun hm => ht (h.adds w hm).1
    refine inv_ws h w _ hwid rfl rfl rfl rfl h.frames (fun _ _ => rfl) ?_ ?_ ?_
    · have hc := h.chk
      unfold ChkOk at hc ⊢
      dsimp only
      split
      · trivial
      · rename_i i c heq
        rw [heq] at hc
        exact hc
      · rename_i v d c heq
        rw [heq] at hc
        dsimp only at hc
        obtain ⟨h1, h2, h3, h4⟩ := hc
        have hvw : v ≠ w := fun h5 => ht (h5 ▸ h1)
        rw [upd_other _ _ hvw]
        refine ⟨h1, h2, ?_, h4⟩
        intro hm
        rcases List.mem_append.1 hm with h5 | h5
        · exact h3 h5
        · exact hvw (List.mem_singleton.1 h5)
    · refine List.nodup_append.2 ⟨h.addsNd, by simp, ?_⟩
      intro a ha b hb hab
      rw [List.mem_singleton] at hb
      exact hna (hb ▸ hab ▸ ha)
    · intro v hv
      dsimp only
      by_cases hvw : v = w
      · rw [hvw, upd_self]; exact ⟨rfl, rfl⟩
      · rw [upd_other _ _ hvw]
        rcases List.mem_append.1 hv with h5 | h5
        · exact h.adds v h5
        · exact absurd (List.mem_singleton.1 h5) hvw

theorem inv_fire {s : S} (h : Inv s) (w : Nat) : Inv (s.fire w) := by
  unfold S.fire
  refine inv_same h rfl (upd_wid_thrd _ _ _ rfl rfl) (upd_active _ _ _ (fun h => h)) rfl h.frames (fun _ _ => rfl) ?_
  have hc := h.chk
  unfold ChkOk at hc ⊢
  dsimp only
  split
  · trivial
  · rename_i i c heq
    rw [heq] at hc
    exact hc
  · rename_i v d c heq
    rw [heq] at hc
    dsimp only at hc
    obtain ⟨h1, h2, h3, h4⟩ := hc
    by_cases hvw : v = w
    · subst hvw
      rw [upd_self]
      exact ⟨h1, h2, h3, h4⟩
    · rw [upd_other _ _ hvw]
      exact ⟨h1, h2, h3, h4⟩

theorem inv_add {s : S} (h : Inv s) (hi : s.chk = .idle) (k w : Nat) (hk : s.adds[k]? = some w) :
    Inv { s with adds := s.adds.eraseIdx k, recs := s.recs ++ [Rec.new (some w)], ws := upd s.ws w { s.ws w with wid := s.recs.length, active := true } } := by
  have hm : w ∈ s.adds := List.mem_of_getElem? hk
  obtain ⟨hthr, hwid⟩ := h.adds w hm
  have hlen : s.recs.length ≠ 0 := by
    obtain ⟨r, h1, _⟩ := h.zero
    intro h0
    rw [List.getElem?_eq_none (by omega)] at h1
    simp at h1
  have get_new : ∀ (j : Nat) (r : Rec), (s.recs ++ [Rec.new (some w)])[j]? = some r →
      s.recs[j]? = some r ∨ (j = s.recs.length ∧ r = Rec.new (some w)) := by
    intro j r h1
    rcases Nat.lt_or_ge j s.recs.length with h2 | h2
    · rw [List.getElem?_append_left h2] at h1
      exact Or.inl h1
    · rw [List.getElem?_append_right h2] at h1
      rcases Nat.eq_or_lt_of_le h2 with h3 | h3
      · rw [← h3, Nat.sub_self] at h1
        exact Or.inr ⟨h3.symm, (Option.some.inj h1).symm⟩
      · rw [List.getElem?_eq_none (by simp only [List.length_singleton]; omega)] at h1
        simp at h1
  have get_old : ∀ (j : Nat) (r : Rec), s.recs[j]? = some r → (s.recs ++ [Rec.new (some w)])[j]? = some r := by
    intro j r h1
    have h2 : j < s.recs.length := by
      rcases Nat.lt_or_ge j s.recs.length with h2 | h2
      · exact h2
      · rw [List.getElem?_eq_none h2] at h1; simp at h1
    rw [List.getElem?_append_left h2]
    exact h1
  have other : ∀ (j : Nat) (r : Rec) (v : Nat), s.recs[j]? = some r → r.work = some v → v ≠ w := by
    intro j r v h1 h2 hv
    subst hv
    have := (h.live j r v h1 h2).1
    rw [hwid] at this
    exact id_ne_zero h h1 h2 this.symm
  have hframe : cnt s.recs.length s.stack = 0 := by
    unfold cnt
    refine List.countP_eq_zero.2 fun f hf => ?_
    have hfo := h.frames f hf
    have key : ∀ v, (s.ws v).wid ≠ s.recs.length := by
      intro v hv
      obtain ⟨r, h1, _⟩ := h.wid v (by rw [hv]; exact hlen)
      rw [hv, List.getElem?_eq_none (Nat.le_refl _)] at h1
      simp at h1
    cases f with
    | event i v =>
      rw [isG_event]
      intro h1
      have : i = s.recs.length := by simpa using h1
      exact key v (hfo.2.trans this)
    | guard i v =>
      rw [isG_guard]
      intro h1
      have : i = s.recs.length := by simpa using h1
      rcases hfo with h2 | h2
      · exact hlen (this.symm.trans h2)
      · exact key v (h2.trans this)
    | raw => simp [isG]
    | fin => simp [isG]
  refine ⟨?_, ?_, ?_, ?_, ?_, ?_, ?_, ?_, ?_⟩
  · obtain ⟨r, h1, h2⟩ := h.zero
    exact ⟨r, get_old _ _ h1, h2⟩
  · intro v hv
    dsimp only at hv ⊢
    by_cases hvw : v = w
    · subst hvw
      rw [upd_self]
      refine ⟨Rec.new (some v), ?_, rfl⟩
      rw [List.getElem?_append_right (Nat.le_refl _), Nat.sub_self]
      rfl
    · rw [upd_other _ _ hvw] at hv ⊢
      obtain ⟨r, h1, h2⟩ := h.wid v hv
      exact ⟨r, get_old _ _ h1, h2⟩
  · intro j r v h1 h2
    dsimp only
    rcases get_new j r h1 with h3 | ⟨h3, h4⟩
    · rw [upd_other _ _ (other j r v h3 h2)]
      exact h.live j r v h3 h2
    · subst h4
      obtain rfl : w = v := by simpa [Rec.new] using h2
      rw [upd_self]
      exact ⟨h3.symm, hthr⟩
  · intro v hv
    dsimp only at hv ⊢
    by_cases hvw : v = w
    · subst hvw; rw [upd_self]; exact hlen
    · rw [upd_other _ _ hvw] at hv ⊢
      exact h.active v hv
  · intro f hf
    have hfo := h.frames f hf
    cases f with
    | event i v =>
      have hvw : v ≠ w := by
        intro hv
        subst hv
        exact hfo.1 (hfo.2.symm.trans hwid)
      refine ⟨hfo.1, ?_⟩
      dsimp only
      rw [upd_other _ _ hvw]
      exact hfo.2
    | guard i v =>
      rcases hfo with h1 | h1
      · exact Or.inl h1
      · by_cases hvw : v = w
        · subst hvw
          exact Or.inl (h1.symm.trans hwid)
        · refine Or.inr ?_
          dsimp only
          rw [upd_other _ _ hvw]
          exact h1
    | raw => trivial
    | fin => trivial
  · intro j r h1
    rcases get_new j r h1 with h3 | ⟨h3, h4⟩
    · have hok := h.recs j r h3
      refine ⟨hok.free, hok.recursion, ?_, hok.idle⟩
      intro v hv hdo
      dsimp only
      rw [upd_other _ _ (other j r v h3 hv)]
      exact hok.inactive v hv hdo
    · subst h4
      refine ⟨fun hn => by simp [Rec.new] at hn, ?_, fun v _ hdo => by simp [Rec.doing, Rec.new] at hdo, fun _ => rfl⟩
      intro v _
      show (0 : Int) = _
      dsimp only
      rw [h3, hframe]
      rfl
  · unfold ChkOk
    dsimp only
    rw [hi]
    trivial
  · exact h.addsNd.sublist (List.eraseIdx_sublist ..)
  · intro v hv
    have hv' : v ∈ s.adds := (List.eraseIdx_sublist ..).subset hv
    have hvw : v ≠ w := by
      intro h1
      subst h1
      dsimp only at hv
      obtain ⟨i, hi1, hi2⟩ := List.mem_eraseIdx_iff_getElem?.1 hv
      have := (List.getElem?_inj (List.getElem?_eq_some_iff.1 hi2).1 h.addsNd).1 (hi2.trans hk.symm)
      exact hi1 this
    dsimp only
    rw [upd_other _ _ hvw]
    exact h.adds v hv'

theorem shrink_get (l : List Rec) (j : Nat) (r : Rec) (h : (shrink l)[j]? = some r) : l[j]? = some r := by
  induction l generalizing j with
  | nil => simp [shrink] at h
  | cons a t ih =>
    unfold shrink at h
    split at h
    · split at h
      · simp at h
      · cases j with
        | zero => simpa using h
        | succ n => simp at h
    · cases j with
      | zero => simpa using h
      | succ n =>
        simp only [List.getElem?_cons_succ] at h ⊢
        exact ih n h

theorem shrink_keep (l : List Rec) (j : Nat) (r : Rec) (h : l[j]? = some r) (hw : r.work ≠ none) :
    (shrink l)[j]? = some r := by
  induction l generalizing j with
  | nil => simp at h
  | cons a t ih =>
    unfold shrink
    cases j with
    | zero =>
      obtain rfl : a = r := by simpa using h
      split
      · rw [if_neg hw]; rfl
      · rfl
    | succ n =>
      have := ih n (by simpa using h)
      split
      · rename_i he
        rw [he] at this
        simp at this
      · simpa using this

theorem inv_none {s : S} (h : Inv s) (hi : s.chk = .idle) : Inv s.none := by
  unfold S.none
  split
  · cases hrs : s.recs with
    | nil =>
      obtain ⟨r, h1, _⟩ := h.zero
      rw [hrs] at h1
      simp at h1
    | cons a t =>
      dsimp only
      have back : ∀ (j : Nat) (r : Rec), (a :: shrink t)[j]? = some r → s.recs[j]? = some r := by
        intro j r h1
        rw [hrs]
        cases j with
        | zero => exact h1
        | succ n =>
          simp only [List.getElem?_cons_succ] at h1 ⊢
          exact shrink_get t n r h1
      have forw : ∀ (j : Nat) (r : Rec), s.recs[j]? = some r → r.work ≠ none → (a :: shrink t)[j]? = some r := by
        intro j r h1 h2
        rw [hrs] at h1
        cases j with
        | zero => exact h1
        | succ n =>
          simp only [List.getElem?_cons_succ] at h1 ⊢
          exact shrink_keep t n r h1 h2
      refine ⟨?_, ?_, ?_, h.active, h.frames, ?_, ?_, h.addsNd, h.adds⟩
      · obtain ⟨r, h1, h2⟩ := h.zero
        rw [hrs] at h1
        exact ⟨r, h1, h2⟩
      · intro w hw
        obtain ⟨r, h1, h2⟩ := h.wid w hw
        exact ⟨r, forw _ _ h1 (by rw [h2]; simp), h2⟩
      · intro j r w h1 h2
        exact h.live j r w (back _ _ h1) h2
      · intro j r h1
        have hok := h.recs j r (back _ _ h1)
        exact ⟨hok.free, hok.recursion, hok.inactive, hok.idle⟩
      · unfold ChkOk
        dsimp only
        rw [hi]
        trivial
  · exact h

theorem inv_empty {s : S} (h : Inv s) (b : Bool) : Inv { s with empty := b } :=
  inv_same h rfl (fun _ => ⟨rfl, rfl⟩) (fun _ h => h) rfl h.frames (fun _ _ => rfl) h.chk

theorem own_cases (s : S) (f : S → S) :
    (s.chk = .idle ∧ s.own f = f { s with empty := false }) ∨ (s.chk ≠ .idle ∧ s.own f = s) := by
  unfold S.own
  split
  · rename_i h; exact Or.inl ⟨h, rfl⟩
  · rename_i h; exact Or.inr ⟨h, rfl⟩

theorem inv_own {s : S} (h : Inv s) (f : S → S) (hf : ∀ s, Inv s → s.chk = .idle → Inv (f s)) : Inv (s.own f) := by
  rcases own_cases s f with ⟨h1, h2⟩ | ⟨h1, h2⟩
  · rw [h2]; exact hf _ (inv_empty h false) h1
  · rw [h2]; exact h

theorem inv_step {s : S} (h : Inv s) (o : Op) : Inv (step s o) := by
  cases o with
  | fire w =>
    unfold step
    dsimp only
    split
    · exact inv_fire h w
    · exact h
  | magic w =>
    unfold step
    dsimp only
    split
    · exact inv_fire h w
    · exact h
  | assign w => exact inv_assign h w
  | ask w a c =>
    unfold step
    dsimp only
    split
    · exact inv_same h rfl (fun _ => ⟨rfl, rfl⟩) (fun _ h => h) rfl h.frames (fun _ _ => rfl) h.chk
    · exact h
  | next =>
    unfold step
    dsimp only
    split
    · exact h
    · rename_i hc; exact inv_remove h hc
    · rename_i hc; exact inv_clear h hc
  | add k =>
    unfold step
    dsimp only
    refine inv_own h _ fun s h hi => ?_
    split
    · exact h
    · rename_i w hk; exact inv_add h hi k w hk
  | exec k =>
    unfold step
    dsimp only
    refine inv_own h _ fun s h hi => ?_
    split
    · exact h
    · refine inv_check ?_ (by exact hi) _ _ _
      refine inv_same h rfl (fun _ => ⟨rfl, rfl⟩) (fun _ h => h) rfl h.frames (fun _ _ => rfl) ?_
      exact h.chk
  | event k =>
    unfold step
    dsimp only
    refine inv_own h _ fun s h hi => ?_
    split
    · exact h
    · refine inv_begin ?_ (by exact hi) _
      exact inv_same h rfl (fun _ => ⟨rfl, rfl⟩) (fun _ h => h) rfl h.frames (fun _ _ => rfl) h.chk
  | guard w => exact inv_own h _ fun s h hi => inv_guard h hi w
  | raw id =>
    unfold step
    dsimp only
    refine inv_own h _ fun s h hi => ?_
    split
    · exact h
    · refine inv_stack h hi _ ?_ ?_
      · intro f hf
        rcases List.mem_cons.1 hf with h1 | h1
        · rw [h1]; trivial
        · exact h.frames f h1
      · intro j _
        unfold cnt
        rw [List.countP_cons]
        rfl
  | pop => exact inv_own h _ fun s h hi => inv_pop h hi
  | wait => exact inv_own h _ fun s h hi => inv_empty h _
  | none =>
    unfold step
    dsimp only
    split
    · exact inv_own h _ fun s h hi => inv_none h hi
    · exact h

theorem run_snoc (s : S) (l : List Op) (o : Op) : run s (l ++ [o]) = step (run s l) o := by
  unfold run
  rw [List.foldl_append]
  rfl

theorem inv_run (l : List Op) : Inv (run init l) := by
  have : ∀ (l : List Op) (s : S), Inv s → Inv (run s l) := by
    intro l
    induction l with
    | nil => exact fun s h => h
    | cons o t ih => exact fun s h => ih _ (inv_step h o)
  exact this l _ inv_init

end Verif.WorkerHalt
