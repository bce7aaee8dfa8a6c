import Verif.NetTransportInv

namespace Verif.NetTr

/-! ## Acknowledge packets which cause acknowledge packets -/

/-- Acknowledge packets of `w` which are under way or will follow. -/
def potT (w : Node) : Nat := acks w.wire + w.ready

theorem takeRec_some {w w' : Node} {k : Kind} {e b id : Nat} (hc : w.counter < w.recs.length)
    (h : takeRec w k e b = some (id, w')) :
    id < w.recs.length ∧ ∃ cnt', w' = { w with recs := w.recs.set id ⟨true, k, e, b⟩, counter := cnt' } := by
  unfold takeRec at h
  have h1 := takeLoop_some w.recs w.recs.length w.counter hc
  generalize takeLoop w.recs w.recs.length w.counter = t at h h1
  obtain ⟨x, y⟩ := t
  cases x with
  | none => simp at h
  | some x =>
    simp only [Option.some.injEq, Prod.mk.injEq] at h
    obtain ⟨rfl, rfl⟩ := h
    exact ⟨(h1.2 x rfl).1, y, rfl⟩

variable {c : Cfg}

theorem checkAck_T {w w' : Node} (h : Base c w) (hg : Grants c) (hl : lim c false = 1) (hf : w.first = false) (k : Nat)
    (e : checkAck c w k = some w') : w'.first = false ∧ potT w' = potT w + k := by
  unfold checkAck at e
  rw [if_neg (by simp [hg.1, hg.2])] at e
  dsimp only at e
  by_cases hb : w.busy = true
  · rw [if_pos hb] at e
    obtain rfl := Option.some.inj e
    exact ⟨hf, by simp only [potT]; omega⟩
  · rw [if_neg hb] at e
    have hl' : (if (if w.first = true then c.inCap else c.inCap / 2) < 1 then 1
        else if w.first = true then c.inCap else c.inCap / 2) = 1 := by
      have : lim c w.first = 1 := by rw [hf]; exact hl
      exact this
    rw [hl'] at e
    by_cases hr : w.ready + k < 1
    · rw [if_pos hr] at e
      obtain rfl := Option.some.inj e
      exact ⟨hf, by simp only [potT]; omega⟩
    · rw [if_neg hr] at e
      cases ht : takeRec { w with busy := true, ready := w.ready + k - 1, first := false } .ack 1 0 with
      | none => rw [ht] at e; simp at e
      | some t =>
        obtain ⟨id, v⟩ := t
        rw [ht] at e
        obtain ⟨h1, cnt', rfl⟩ := takeRec_some (by exact h.cnt) ht
        dsimp only [submitSend] at e h1
        rw [List.getElem?_set_self h1] at e
        obtain rfl := Option.some.inj e
        refine ⟨rfl, ?_⟩
        simp only [potT, acks_append, packet, acks]
        omega

theorem fillLoop_T (f : Nat) : ∀ (bufs : Nat) (w : Node) (k : Nat) (w' : Node) (k' : Nat),
    w.counter < w.recs.length →
    fillLoop c f bufs w k = some (w', k') → w'.wire = w.wire ∧ w'.ready = w.ready ∧ w'.first = w.first ∧ k ≤ k' ∧
      (0 < f → 0 < bufs → k < k') := by
  induction f with
  | zero =>
    intro bufs w k w' k' _ h
    simp only [fillLoop, Option.some.injEq, Prod.mk.injEq] at h
    obtain ⟨rfl, rfl⟩ := h
    exact ⟨rfl, rfl, rfl, Nat.le_refl _, by omega⟩
  | succ f ih =>
    intro bufs w k w' k' hc h
    unfold fillLoop at h
    by_cases hb : (c.isInp && bufs == 0) = true
    · rw [if_pos hb] at h
      simp only [Option.some.injEq, Prod.mk.injEq] at h
      obtain ⟨rfl, rfl⟩ := h
      refine ⟨rfl, rfl, rfl, Nat.le_refl _, ?_⟩
      simp at hb
      omega
    · rw [if_neg hb] at h
      cases ht : takeRec w .recv 0 0 with
      | none => rw [ht] at h; simp at h
      | some t =>
        obtain ⟨id, v⟩ := t
        rw [ht] at h
        have hx := takeRec_some hc ht
        have hcv : v.counter < v.recs.length := by
          have h1 := takeLoop_some w.recs w.recs.length w.counter hc
          unfold takeRec at ht
          generalize takeLoop w.recs w.recs.length w.counter = t at ht h1
          obtain ⟨x, y⟩ := t
          cases x with
          | none => simp at ht
          | some x =>
            simp only [Option.some.injEq, Prod.mk.injEq] at ht
            rw [← ht.2]; simpa using h1.1
        obtain ⟨h1, cnt', rfl⟩ := hx
        dsimp only at h
        obtain ⟨i1, i2, i3, i4, -⟩ := ih (bufs - 1) _ (k + 1) w' k' (by exact hcv) h
        exact ⟨i1, i2, i3, by omega, by omega⟩

theorem fill_T {w w' : Node} (h : Base c w) (hf : Fits c) (hg : Grants c) (hl : lim c false = 1) (h1 : w.first = false)
    (bufs : Nat) (e : fill c w bufs = some w') :
    w'.first = false ∧ potT w ≤ potT w' ∧
      (w.inSize + w.outq.length < c.oqCap → 0 < bufs → potT w < potT w') := by
  unfold fill at e
  dsimp only at e
  rw [if_pos hg.2] at e
  have hr := h.room
  rw [if_pos hg.2] at hr
  obtain ⟨w1, k1, e1, e2, -⟩ := fillLoop_spec hf (c.oqCap - w.outq.length - w.inSize) bufs w 0 h (by
    rw [if_pos hg.2]; omega)
  rw [e1] at e
  obtain ⟨i1, i2, i3, i4, i5⟩ := fillLoop_T _ _ _ _ _ _ h.cnt e1
  obtain ⟨j1, j2⟩ := checkAck_T e2 hg hl (by rw [i3]; exact h1) k1 e
  have hp : potT w1 = potT w := by simp only [potT, i1, i2]
  refine ⟨j1, by omega, fun h1 h2 => ?_⟩
  have := i5 (by omega) h2
  omega

/-- Acknowledge packets never end. -/
structure Storm (ca cb : Cfg) (s : Sys) : Prop where
  inv : Inv ca cb s
  fa : s.a.first = false
  fb : s.b.first = false
  some : 0 < potT s.a + potT s.b

theorem FirstRel.acks_eq {w w' : Node} (h : acks w'.wire = acks w.wire) (h' : w'.ready = w.ready) : potT w' = potT w := by
  simp only [potT, h, h']

theorem stepA_storm {ca cb : Cfg} (hfa : Fits ca) (hj : Joined cb ca) (hg : Grants ca) (hl : lim ca false = 1) {s : Sys}
    (h : Storm ca cb s) (o : Op) : ∃ s', stepA ca s o = some s' ∧ Storm ca cb s' := by
  obtain ⟨s', f1, f2⟩ := stepA_inv hfa hj h.inv o
  refine ⟨s', f1, ?_⟩
  suffices hs : s'.a.first = false ∧ s'.b.first = false ∧ 0 < potT s'.a + potT s'.b from ⟨f2, hs.1, hs.2.1, hs.2.2⟩
  clear f2
  have hB := h.inv.na.base
  have h0 := h.some
  cases o with
  | put x =>
    unfold stepA at f1
    dsimp only at f1
    split at f1 <;> obtain rfl := Option.some.inj f1
    · exact ⟨h.fa, h.fb, h0⟩
    · exact ⟨h.fa, h.fb, h0⟩
  | input =>
    obtain ⟨w', e1, -, e3, e4, -, -, -, -, -, e10, -, e12, e13⟩ := processInput_spec hB hfa
    unfold stepA at f1
    dsimp only at f1
    rw [e1] at f1
    obtain rfl := Option.some.inj f1
    have hw : acks w'.wire = acks s.a.wire := by
      -- the queue loop only sends buffers
      unfold processInput at e1
      obtain ⟨w1, j1, j2, j3, j4, j5, j6, j7, j8, j9, j10, j11, j12, j13⟩ := inputLoop_spec hfa _ s.a hB rfl
      rw [j1] at e1
      obtain rfl := Option.some.inj e1
      have := (submitLoop_spec w1.sendQ w1 j2).2.2.2.1
      unfold submitAllowed
      rw [this, j13]
    refine ⟨by dsimp only; rw [e12]; exact h.fa, h.fb, ?_⟩
    simp only [potT, hw, e10] at h0 ⊢
    exact h0
  | fill bufs =>
    unfold stepA at f1
    dsimp only at f1
    cases e : fill ca s.a bufs with
    | none => rw [e] at f1; simp at f1
    | some w' =>
      rw [e] at f1
      obtain rfl := Option.some.inj f1
      obtain ⟨i1, i2, -⟩ := fill_T hB hfa hg hl h.fa bufs e
      exact ⟨i1, h.fb, by dsimp only; omega⟩
  | take =>
    obtain rfl := Option.some.inj f1
    exact ⟨h.fa, h.fb, h0⟩
  | sendDone =>
    unfold stepA at f1
    dsimp only at f1
    cases e : sendCompl ca s.a with
    | none => rw [e] at f1; simp at f1
    | some w' =>
      rw [e] at f1
      obtain rfl := Option.some.inj f1
      suffices hh : w'.first = false ∧ potT w' = potT s.a from ⟨hh.1, h.fb, by dsimp only; omega⟩
      unfold sendCompl at e
      cases hq : s.a.netSend with
      | nil =>
        rw [hq] at e
        obtain rfl := Option.some.inj e
        exact ⟨h.fa, rfl⟩
      | cons id q =>
        rw [hq] at e
        dsimp only at e
        obtain ⟨r, hgt⟩ := hB.get (mem_ids.mpr (Or.inr (Or.inl (by rw [hq]; exact List.mem_cons_self ..))) : id ∈ ids s.a)
        rw [hgt] at e
        dsimp only at e
        cases hk : r.kind with
        | recv =>
          rw [hk] at e
          dsimp only [releaseRec] at e
          rw [hgt] at e
          obtain rfl := Option.some.inj e
          exact ⟨h.fa, rfl⟩
        | data =>
          rw [hk] at e
          dsimp only at e
          cases hp : s.a.port with
          | nil => rw [hp] at e; simp at e
          | cons x port =>
            rw [hp] at e
            dsimp only [releaseRec] at e
            rw [hgt] at e
            obtain rfl := Option.some.inj e
            exact ⟨h.fa, rfl⟩
        | ack =>
          rw [hk] at e
          dsimp only [releaseRec] at e
          rw [hgt] at e
          dsimp only at e
          exact checkAck_T (hB.freeAck hq hgt hk).2 hg hl h.fa 0 e
  | recv bufs =>
    unfold stepA at f1
    dsimp only at f1
    cases hw : s.b.wire with
    | nil =>
      rw [hw] at f1
      obtain rfl := Option.some.inj f1
      exact ⟨h.fa, h.fb, h0⟩
    | cons p l =>
      rw [hw] at f1
      dsimp only at f1
      by_cases hn : s.a.netRecv = []
      · rw [if_pos hn] at f1
        obtain rfl := Option.some.inj f1
        exact ⟨h.fa, h.fb, h0⟩
      · rw [if_neg hn] at f1
        cases e : recvCompl ca s.a p bufs with
        | none => rw [e] at f1; simp at f1
        | some w' =>
          rw [e] at f1
          obtain rfl := Option.some.inj f1
          unfold recvCompl at e
          cases hq : s.a.netRecv with
          | nil => exact absurd hq hn
          | cons id q =>
            rw [hq] at e
            dsimp only at e
            obtain ⟨r, hgt⟩ := hB.get (mem_ids.mpr (Or.inl (by rw [hq]; exact List.mem_cons_self ..)) : id ∈ ids s.a)
            cases p with
            | data b =>
              dsimp only at e
              have hrel : releaseRec { s.a with netRecv := q, inSize := s.a.inSize - 1 } id =
                  { s.a with netRecv := q, inSize := s.a.inSize - 1, recs := s.a.recs.set id { r with used := false, buf := 0 } } := by
                unfold releaseRec; dsimp only; rw [hgt]
              rw [hrel] at e
              dsimp only at e
              split at e
              · obtain rfl := Option.some.inj e
                refine ⟨h.fa, h.fb, ?_⟩
                simp only [potT, hw, acks] at h0 ⊢
                exact h0
              · simp at e
            | ack n =>
              dsimp only at e
              have hb1 : Base ca { s.a with allowed := s.a.allowed + n } := ⟨hB.len, hB.cnt, hB.nodup, hB.used, hB.valid,
                hB.kRecv, hB.kQ, hB.kSend, hB.nAck, hB.insz, hB.outsz, hB.cont, hB.portle, hB.room, hB.busyInp, hB.noQ⟩
              obtain ⟨i1, i2, i3, i3', i4, i5, i6, i7, i8, i9, i10, i11, i12, i13, i14⟩ :=
                submitLoop_spec s.a.sendQ { s.a with allowed := s.a.allowed + n } hb1
              have hsub : submitAllowed { s.a with netRecv := q, allowed := s.a.allowed + n } =
                  { submitLoop s.a.sendQ { s.a with allowed := s.a.allowed + n } with netRecv := q } := by
                unfold submitAllowed
                dsimp only
                exact submitLoop_netRecv q s.a.sendQ { s.a with allowed := s.a.allowed + n }
              rw [hsub] at e
              clear hsub
              generalize submitLoop s.a.sendQ { s.a with allowed := s.a.allowed + n } = v at *
              have hv : v.netRecv = id :: q := by rw [i7]; exact hq
              obtain ⟨r', hgt'⟩ := i1.get (mem_ids.mpr (Or.inl (by rw [hv]; exact List.mem_cons_self ..)) : id ∈ ids v)
              dsimp only [releaseRec] at e
              rw [hgt'] at e
              dsimp only at e
              have hroom := i1.room
              have hin := i1.insz
              rw [if_pos hg.2] at hroom
              rw [hv, List.length_cons] at hin
              obtain ⟨j1, -, j3⟩ := fill_T (i1.freeRecv hv hgt') hfa hg hl (by dsimp only; rw [i14]; exact h.fa) (bufs + 1) e
              have j3 := j3 (by dsimp only; omega) (by omega)
              refine ⟨j1, h.fb, ?_⟩
              simp only [potT, hw, acks, i3', i12] at h0 j3 ⊢
              omega

theorem Storm.swap {ca cb : Cfg} {s : Sys} (h : Storm ca cb s) : Storm cb ca s.swap :=
  ⟨h.inv.swap, h.fb, h.fa, by have := h.some; dsimp only [Sys.swap]; omega⟩

theorem run_storm {ca cb : Cfg} (hfa : Fits ca) (hfb : Fits cb) (hj : Joined ca cb) (hj' : Joined cb ca)
    (ha : Grants ca) (hb : Grants cb) (hla : lim ca false = 1) (hlb : lim cb false = 1)
    (ops : List (Bool × Op)) : ∀ {s : Sys}, Storm ca cb s → ∃ s', run ca cb ops s = some s' ∧ Storm ca cb s' := by
  induction ops with
  | nil => intro s h; exact ⟨s, rfl, h⟩
  | cons o l ih =>
    intro s h
    have : ∃ s1, step ca cb s o = some s1 ∧ Storm ca cb s1 := by
      obtain ⟨d, o⟩ := o
      cases d with
      | true => exact stepA_storm hfa hj' ha hla h o
      | false =>
        obtain ⟨s', e1, e2⟩ := stepA_storm hfb hj hb hlb h.swap o
        unfold step
        dsimp only
        rw [e1]
        exact ⟨s'.swap, rfl, e2.swap⟩
    obtain ⟨s1, e1, e2⟩ := this
    unfold run
    rw [e1]
    exact ih e2

/-- Not everything is at rest. -/
theorem Storm.busy {ca cb : Cfg} (ha : Grants ca) (hb : Grants cb) (hla : lim ca false = 1) (hlb : lim cb false = 1) {s : Sys}
    (h : Storm ca cb s) : 0 < acks s.a.wire ∨ 0 < acks s.b.wire ∨ s.a.netSend ≠ [] ∨ s.b.netSend ≠ [] := by
  have h0 := h.some
  simp only [potT] at h0
  by_cases h1 : 0 < acks s.a.wire
  · exact Or.inl h1
  by_cases h2 : 0 < acks s.b.wire
  · exact Or.inr (Or.inl h2)
  have key : ∀ (c : Cfg) (w : Node), NodeInv c w → Grants c → lim c false = 1 → w.first = false → 0 < w.ready →
      w.netSend ≠ [] := by
    intro c w hn hg hl hf hr hh
    have hbz : w.busy = false := by
      have := hn.base.nAck
      rw [hh] at this
      cases h : w.busy with
      | false => rfl
      | true => rw [h] at this; simp at this
    have := hn.ready hg hbz
    rw [hf, hl] at this
    omega
  by_cases h3 : 0 < s.a.ready
  · exact Or.inr (Or.inr (Or.inl (key ca s.a h.inv.na ha hla h.fa h3)))
  · exact Or.inr (Or.inr (Or.inr (key cb s.b h.inv.nb hb hlb h.fb (by omega))))

end Verif.NetTr
