import Verif.NetTransportLemmas

namespace Verif.NetTr

/-! ## Release of records -/

section free
variable {c : Cfg} {w : Node} {id : Nat} {q : List Nat} {r : Rec}

theorem kindAt_get {recs : List Rec} (h : recs[id]? = some r) : kindAt recs id = r.kind := by
  unfold kindAt; rw [h]

theorem bufAt_get {recs : List Rec} (h : recs[id]? = some r) : bufAt recs id = r.buf := by
  unfold bufAt; rw [h]

theorem lt_get {recs : List Rec} (h : recs[id]? = some r) : id < recs.length :=
  (List.getElem?_eq_some_iff.mp h).1

theorem Base.get (h : Base c w) {i : Nat} (hi : i ∈ ids w) : ∃ r, w.recs[i]? = some r :=
  ⟨w.recs[i]'(h.valid i hi), List.getElem?_eq_getElem (h.valid i hi)⟩

/-- A receive operation ends, what was received goes to the output queue (`x = [b]`) or nowhere. -/
theorem Base.freeRecv (h : Base c w) (hq : w.netRecv = id :: q) (hr : w.recs[id]? = some r) :
    Base c { w with recs := w.recs.set id { r with used := false, buf := 0 }, netRecv := q, inSize := w.inSize - 1 } := by
  have hid := lt_get hr
  have hnd := h.nodup
  simp only [ids, hq, List.cons_append, List.nodup_cons, List.mem_append, not_or] at hnd
  obtain ⟨⟨h1, h2, h3⟩, hnd⟩ := hnd
  have f1 := filter_set w.recs id { r with used := false, buf := 0 } hid w.netSend h2
  have f2 := filter_set w.recs id { r with used := false, buf := 0 } hid w.sendQ h3
  have f3 := (filter_set w.recs id { r with used := false, buf := 0 } hid (w.netSend.filter (isData w.recs))
    (fun h => h2 (List.mem_filter.mp h).1)).2.2
  constructor <;> dsimp only [ids] <;> try simp only [List.length_set]
  · exact h.len
  · exact h.cnt
  · exact hnd
  · intro i hi
    rw [usedAt_set _ _ _ _ hid]
    have := h.used i hi
    rw [mem_ids, hq] at this
    simp only [List.mem_append, List.mem_cons] at this ⊢
    by_cases hh : i = id
    · rw [if_pos hh]; subst hh; simp [h1, h2, h3]
    · rw [if_neg hh, this]; simp [hh]
  · intro i hi
    simp only [List.mem_append] at hi
    exact h.valid i (mem_ids.mpr (by rw [hq]; simp only [List.mem_cons]; grind))
  · intro i hi
    rw [kindAt_set _ _ _ _ hid, if_neg (fun hh : i = id => h1 (hh ▸ hi))]
    exact h.kRecv i (by rw [hq]; exact List.mem_cons_of_mem _ hi)
  · intro i hi
    rw [kindAt_set _ _ _ _ hid, if_neg (fun hh : i = id => h3 (hh ▸ hi))]
    exact h.kQ i hi
  · intro i hi
    rw [kindAt_set _ _ _ _ hid, if_neg (fun hh : i = id => h2 (hh ▸ hi))]
    exact h.kSend i hi
  · rw [f1.2.1]; exact h.nAck
  · rw [h.insz, hq]; simp
  · rw [f1.1]; exact h.outsz
  · rw [f1.1, List.map_append, f3, f2.2.2, ← List.map_append]; exact h.cont
  · exact h.portle
  · have := h.room
    split at this
    · rw [if_pos (by assumption)]; omega
    · rw [if_neg (by assumption)]; exact ⟨by omega, this.2⟩
  · exact h.busyInp
  · exact h.noQ

/-- Sending of a buffer ends. -/
theorem Base.freeData (h : Base c w) (hq : w.netSend = id :: q) (hr : w.recs[id]? = some r) (hk : r.kind = .data) :
    ∃ port, w.port = r.buf :: port ∧ 0 < w.outSize ∧
    Base c { w with recs := w.recs.set id { r with used := false, buf := 0 }, netSend := q, outSize := w.outSize - 1,
                    port := port } := by
  have hid := lt_get hr
  have hnd := h.nodup
  have hnd : (id :: (w.netRecv ++ (q ++ w.sendQ))).Nodup := by
    refine List.Perm.nodup_iff ?_ |>.mp hnd
    rw [ids, hq, List.perm_iff_count]; intro a; simp only [List.count_append, List.count_cons]; omega
  simp only [List.nodup_cons, List.mem_append, not_or] at hnd
  obtain ⟨⟨h1, h2, h3⟩, hnd⟩ := hnd
  have hd : isData w.recs id = true := by simp [isData, kindAt_get hr, hk]
  have ha : isAck w.recs id = false := by simp [isAck, kindAt_get hr, hk]
  have f1 := filter_set w.recs id { r with used := false, buf := 0 } hid q h2
  have f2 := filter_set w.recs id { r with used := false, buf := 0 } hid w.sendQ h3
  have f3 := (filter_set w.recs id { r with used := false, buf := 0 } hid (q.filter (isData w.recs))
    (fun h => h2 (List.mem_filter.mp h).1)).2.2
  have hc := h.cont
  have ho := h.outsz
  have hn := h.nAck
  have hle := h.outle
  have hpl := h.portle
  rw [hq, List.filter_cons, hd, if_pos rfl] at hc ho
  rw [hq, List.filter_cons, ha, if_neg (by simp)] at hn
  simp only [List.length_cons] at ho
  cases hp : w.port with
  | nil => rw [hp] at hle; simp at hle; omega
  | cons x port =>
    rw [hp, show w.outSize = (w.outSize - 1) + 1 by omega, List.take_succ_cons, List.cons_append, List.map_cons] at hc
    obtain ⟨hx, hc'⟩ := List.cons.inj hc
    rw [bufAt_get hr] at hx
    subst hx
    refine ⟨port, rfl, by omega, ?_⟩
    constructor <;> dsimp only [ids] <;> try simp only [List.length_set]
    · exact h.len
    · exact h.cnt
    · exact hnd
    · intro i hi
      rw [usedAt_set _ _ _ _ hid]
      have := h.used i hi
      rw [mem_ids, hq] at this
      simp only [List.mem_append, List.mem_cons] at this ⊢
      by_cases hh : i = id
      · rw [if_pos hh]; subst hh; simp [h1, h2, h3]
      · rw [if_neg hh, this]; simp [hh]
    · intro i hi
      simp only [List.mem_append] at hi
      exact h.valid i (mem_ids.mpr (by rw [hq]; simp only [List.mem_cons]; grind))
    · intro i hi
      rw [kindAt_set _ _ _ _ hid, if_neg (fun hh : i = id => h1 (hh ▸ hi))]
      exact h.kRecv i hi
    · intro i hi
      rw [kindAt_set _ _ _ _ hid, if_neg (fun hh : i = id => h3 (hh ▸ hi))]
      exact h.kQ i hi
    · intro i hi
      rw [kindAt_set _ _ _ _ hid, if_neg (fun hh : i = id => h2 (hh ▸ hi))]
      exact h.kSend i (by rw [hq]; exact List.mem_cons_of_mem _ hi)
    · rw [f1.2.1]; exact hn
    · exact h.insz
    · rw [f1.1]; omega
    · rw [f1.1, List.map_append, f3, f2.2.2, ← List.map_append]; exact hc'
    · rw [hp] at hpl; simp at hpl; omega
    · exact h.room
    · exact h.busyInp
    · exact h.noQ

/-- Sending of an acknowledge packet ends. -/
theorem Base.freeAck (h : Base c w) (hq : w.netSend = id :: q) (hr : w.recs[id]? = some r) (hk : r.kind = .ack) :
    w.busy = true ∧
    Base c { w with recs := w.recs.set id { r with used := false, buf := 0 }, netSend := q, busy := false } := by
  have hid := lt_get hr
  have hnd := h.nodup
  have hnd : (id :: (w.netRecv ++ (q ++ w.sendQ))).Nodup := by
    refine List.Perm.nodup_iff ?_ |>.mp hnd
    rw [ids, hq, List.perm_iff_count]; intro a; simp only [List.count_append, List.count_cons]; omega
  simp only [List.nodup_cons, List.mem_append, not_or] at hnd
  obtain ⟨⟨h1, h2, h3⟩, hnd⟩ := hnd
  have hd : isData w.recs id = false := by simp [isData, kindAt_get hr, hk]
  have ha : isAck w.recs id = true := by simp [isAck, kindAt_get hr, hk]
  have f1 := filter_set w.recs id { r with used := false, buf := 0 } hid q h2
  have f2 := filter_set w.recs id { r with used := false, buf := 0 } hid w.sendQ h3
  have f3 := (filter_set w.recs id { r with used := false, buf := 0 } hid (q.filter (isData w.recs))
    (fun h => h2 (List.mem_filter.mp h).1)).2.2
  have hc := h.cont
  have ho := h.outsz
  have hn := h.nAck
  rw [hq, List.filter_cons, hd, if_neg (by simp)] at hc ho
  rw [hq, List.filter_cons, ha, if_pos (by simp), List.length_cons] at hn
  have hb : w.busy = true := by
    cases hb : w.busy with
    | true => rfl
    | false => rw [hb] at hn; simp at hn
  rw [hb, if_pos rfl] at hn
  refine ⟨hb, ?_⟩
  constructor <;> dsimp only [ids] <;> try simp only [List.length_set]
  · exact h.len
  · exact h.cnt
  · exact hnd
  · intro i hi
    rw [usedAt_set _ _ _ _ hid]
    have := h.used i hi
    rw [mem_ids, hq] at this
    simp only [List.mem_append, List.mem_cons] at this ⊢
    by_cases hh : i = id
    · rw [if_pos hh]; subst hh; simp [h1, h2, h3]
    · rw [if_neg hh, this]; simp [hh]
  · intro i hi
    simp only [List.mem_append] at hi
    exact h.valid i (mem_ids.mpr (by rw [hq]; simp only [List.mem_cons]; grind))
  · intro i hi
    rw [kindAt_set _ _ _ _ hid, if_neg (fun hh : i = id => h1 (hh ▸ hi))]
    exact h.kRecv i hi
  · intro i hi
    rw [kindAt_set _ _ _ _ hid, if_neg (fun hh : i = id => h3 (hh ▸ hi))]
    exact h.kQ i hi
  · intro i hi
    rw [kindAt_set _ _ _ _ hid, if_neg (fun hh : i = id => h2 (hh ▸ hi))]
    exact h.kSend i (by rw [hq]; exact List.mem_cons_of_mem _ hi)
  · rw [f1.2.1, if_neg (by simp)]; omega
  · exact h.insz
  · rw [f1.1]; exact ho
  · rw [f1.1, List.map_append, f3, f2.2.2, ← List.map_append]; exact hc
  · exact h.portle
  · exact h.room
  · intro h'; exact absurd h' (by simp)
  · exact h.noQ

end free

/-! ## Functions of the transport -/

/-- Acknowledge packets are sent. -/
def Grants (c : Cfg) : Prop := c.ackn = true ∧ c.isInp = true

instance (c : Cfg) : Decidable (Grants c) := by unfold Grants; infer_instance

/-- `ackn_limit`. -/
def lim (c : Cfg) (first : Bool) : Nat :=
  let l := if first then c.inCap else c.inCap / 2
  if l < 1 then 1 else l

def potP (w : Node) : Nat := w.allowed + (datas w.wire).length
def potR (w : Node) : Nat := credits w.wire + w.ready
def waiting (w : Node) : List Nat := w.sendQ.map (bufAt w.recs) ++ w.port.drop w.outSize
def potD (w : Node) : List Nat := datas w.wire ++ waiting w

/-- The first acknowledge packet allows `inCap` sends. -/
def FirstRel (c : Cfg) (w w' : Node) : Prop :=
  credits w.wire ≤ credits w'.wire ∧ (w'.first = true → w.first = true ∧ acks w'.wire = acks w.wire) ∧
    (w.first = true → w'.first = false → credits w.wire + c.inCap ≤ credits w'.wire)

theorem FirstRel.of {c : Cfg} {w w' : Node} (h1 : credits w'.wire = credits w.wire) (h2 : acks w'.wire = acks w.wire)
    (h3 : w'.first = w.first) : FirstRel c w w' :=
  ⟨by omega, fun h => ⟨by rw [← h3]; exact h, h2⟩, fun h h' => by rw [h3, h] at h'; simp at h'⟩

theorem FirstRel.trans {c : Cfg} {w w1 w2 : Node} (h : FirstRel c w w1) (h' : FirstRel c w1 w2) : FirstRel c w w2 := by
  obtain ⟨a1, a2, a3⟩ := h
  obtain ⟨b1, b2, b3⟩ := h'
  refine ⟨by omega, fun hh => ?_, fun h0 h2 => ?_⟩
  · obtain ⟨c1, c2⟩ := b2 hh
    obtain ⟨d1, d2⟩ := a2 c1
    exact ⟨d1, by omega⟩
  · cases hf : w1.first with
    | true => have := b3 hf h2; omega
    | false => have := a3 h0 hf; omega

theorem lim_first (c : Cfg) : c.inCap ≤ lim c true := by unfold lim; dsimp only; rw [if_pos rfl]; split <;> omega

theorem lim_pos (c : Cfg) (f : Bool) : 0 < lim c f := by unfold lim; dsimp only; split <;> split at * <;> omega

section
variable {c : Cfg}

theorem checkAck_spec {w : Node} (h : Base c w) (hf : Fits c) (k : Nat) :
    ∃ w', checkAck c w k = some w' ∧ Base c w' ∧ w'.allowed = w.allowed ∧ datas w'.wire = datas w.wire ∧
      w'.sendQ = w.sendQ ∧ waiting w' = waiting w ∧ w'.netRecv = w.netRecv ∧ w'.outq = w.outq ∧ w'.port = w.port ∧
      (potR w' = potR w + if Grants c then k else 0) ∧
      (Grants c → w'.busy = false → w'.ready < lim c w'.first) ∧ FirstRel c w w' := by
  unfold checkAck
  by_cases hg : Grants c
  · obtain ⟨g1, g2⟩ := hg
    rw [if_neg (by simp [g1, g2])]
    dsimp only
    rw [if_pos (show Grants c from ⟨g1, g2⟩)]
    have hw : Base c { w with ready := w.ready + k } := ⟨h.len, h.cnt, h.nodup, h.used, h.valid, h.kRecv, h.kQ, h.kSend,
      h.nAck, h.insz, h.outsz, h.cont, h.portle, h.room, h.busyInp, h.noQ⟩
    by_cases hb : w.busy = true
    · rw [if_pos hb]
      refine ⟨_, rfl, hw, rfl, rfl, rfl, rfl, rfl, rfl, rfl, ?_, ?_, .of rfl rfl rfl⟩
      · simp only [potR]; omega
      · intro _ h'; exact absurd hb (by rw [h']; simp)
    · rw [if_neg hb]
      have hl : (if (if w.first = true then c.inCap else c.inCap / 2) < 1 then 1
        else if w.first = true then c.inCap else c.inCap / 2) = lim c w.first := rfl
      rw [hl]
      by_cases hr : w.ready + k < lim c w.first
      · rw [if_pos hr]
        refine ⟨_, rfl, hw, rfl, rfl, rfl, rfl, rfl, rfl, rfl, ?_, ?_, .of rfl rfl rfl⟩
        · simp only [potR]; omega
        · intro _ _; exact hr
      · rw [if_neg hr]
        have hb' : w.busy = false := by simpa using hb
        have hcnt := h.count
        rw [hb', if_neg (by simp)] at hcnt
        have h1 := h.inle hf
        have h2 := h.outle
        have h3 := h.portle
        have h4 := hf.1
        have h5 := h.len
        have hlt : (ids w).length < w.recs.length := by omega
        obtain ⟨id, cnt', e, i1, i2, i3⟩ := takeRec_spec h hlt .ack (lim c w.first) 0
        have e' : takeRec { w with busy := true, ready := w.ready + k - lim c w.first, first := false } .ack
            (lim c w.first) 0 = some (id, { w with busy := true, ready := w.ready + k - lim c w.first, first := false, recs := w.recs.set id ⟨true, .ack, lim c w.first, 0⟩, counter := cnt' }) := by
          unfold takeRec at e ⊢
          dsimp only at e ⊢
          generalize takeLoop w.recs w.recs.length w.counter = t at e ⊢
          obtain ⟨x, y⟩ := t
          cases x with
          | none => simp at e
          | some x =>
            simp only [Option.some.injEq, Prod.mk.injEq, Node.mk.injEq] at e ⊢
            obtain ⟨e1, -, e2, -⟩ := e
            subst e1 e2
            simp
        rw [e']
        dsimp only [submitSend]
        rw [List.getElem?_set_self i1]
        dsimp only [packet]
        refine ⟨_, rfl, ?_, rfl, ?_, rfl, ?_, rfl, rfl, rfl, ?_, ?_, ?_⟩
        · exact h.ackn i1 i2 i3 hb' ⟨g2, g1⟩ (lim c w.first) (w.ready + k - lim c w.first) _ false
        · simp [datas]
        · simp only [waiting]
          rw [(filter_set w.recs id ⟨true, .ack, lim c w.first, 0⟩ i1 w.sendQ
            (fun hh => i2 (mem_ids.mpr (Or.inr (Or.inr hh))))).2.2]
        · simp only [potR, credits_append, credits]; omega
        · intro _ hh; exact absurd hh (by simp)
        · refine ⟨by simp only [credits_append]; omega, fun hh => by simp at hh, fun hh _ => ?_⟩
          have := lim_first c
          simp only [credits_append, credits, hh]; omega
  · have hc : (!c.ackn || !c.isInp) = true := by
      simp only [Grants] at hg
      cases h1 : c.ackn <;> cases h2 : c.isInp <;> simp_all
    rw [if_pos hc]
    refine ⟨w, rfl, h, rfl, rfl, rfl, rfl, rfl, rfl, rfl, ?_, fun hh => absurd hh hg, .of rfl rfl rfl⟩
    rw [if_neg hg]; rfl

theorem fillLoop_spec (hf : Fits c) (f : Nat) : ∀ (bufs : Nat) (w : Node) (k : Nat), Base c w →
    (if c.isInp then w.inSize + f + w.outq.length ≤ c.oqCap else w.inSize + f ≤ c.inCap) →
    ∃ w' k', fillLoop c f bufs w k = some (w', k') ∧ Base c w' ∧ k' + w.netRecv.length = k + w'.netRecv.length ∧
      w'.allowed = w.allowed ∧ w'.wire = w.wire ∧ w'.sendQ = w.sendQ ∧ waiting w' = waiting w ∧ w'.outq = w.outq ∧
      w'.port = w.port ∧ w'.ready = w.ready ∧ w'.first = w.first := by
  induction f with
  | zero => intro bufs w k h _; exact ⟨w, k, rfl, h, rfl, rfl, rfl, rfl, rfl, rfl, rfl, rfl, rfl⟩
  | succ f ih =>
    intro bufs w k h hr
    unfold fillLoop
    by_cases hb : (c.isInp && bufs == 0) = true
    · rw [if_pos hb]; exact ⟨w, k, rfl, h, rfl, rfl, rfl, rfl, rfl, rfl, rfl, rfl, rfl⟩
    · rw [if_neg hb]
      have hcnt := h.count
      have h1 : w.inSize + 1 ≤ c.inCap := by
        split at hr
        · have := hf.2 (by assumption); omega
        · omega
      have h2 := h.outle
      have h3 := h.portle
      have h4 := hf.1
      have h5 := h.len
      have hlt : (ids w).length < w.recs.length := by
        split at hcnt <;> omega
      obtain ⟨id, cnt', e, i1, i2, i3⟩ := takeRec_spec h hlt .recv 0 0
      rw [e]
      dsimp only
      have hw := h.post i1 i2 i3 (by split at hr <;> rename_i hh <;> simp only [hh] <;> simp <;> omega)
      obtain ⟨w', k', e1, e2, e3, e4, e5, e6, e7, e8, e9, e10, e11⟩ := ih (bufs - 1) _ (k + 1) hw (by
        dsimp only
        split at hr <;> rename_i hh <;> simp only [hh] <;> simp <;> omega)
      refine ⟨w', k', e1, e2, ?_, e4, e5, e6, ?_, e8, e9, e10, e11⟩
      · simp only [List.length_append, List.length_singleton] at e3; omega
      · rw [e7]
        simp only [waiting]
        rw [(filter_set w.recs id ⟨true, .recv, 0, 0⟩ i1 w.sendQ (fun hh => i2 (mem_ids.mpr (Or.inr (Or.inr hh))))).2.2]

theorem fill_spec {w : Node} (h : Base c w) (hf : Fits c) (bufs : Nat) :
    ∃ w', fill c w bufs = some w' ∧ Base c w' ∧ w'.allowed = w.allowed ∧ datas w'.wire = datas w.wire ∧
      w'.sendQ = w.sendQ ∧ waiting w' = waiting w ∧ w'.outq = w.outq ∧ w'.port = w.port ∧
      (if Grants c then potR w' + w.netRecv.length = potR w + w'.netRecv.length else potR w' = potR w) ∧
      (Grants c → w'.busy = false → w'.ready < lim c w'.first) ∧ FirstRel c w w' := by
  unfold fill
  dsimp only
  have hr := h.room
  obtain ⟨w1, k1, e1, e2, e3, e4, e5, e6, e7, e8, e9, e10, e11⟩ := fillLoop_spec hf
    ((if c.isInp = true then c.oqCap - w.outq.length else c.inCap) - w.inSize) bufs w 0 h (by
      split at hr <;> rename_i hh <;> simp only [hh] <;> simp <;> omega)
  rw [e1]
  dsimp only
  obtain ⟨w2, f1, f2, f3, f4, f5, f6, f7, f8, f9, f10, f11, f12⟩ := checkAck_spec e2 hf k1
  refine ⟨w2, f1, f2, by rw [f3, e4], by rw [f4, e5], by rw [f5, e6], by rw [f6, e7], by rw [f8, e8], by rw [f9, e9], ?_, f11,
    FirstRel.trans (.of (by rw [e5]) (by rw [e5]) e11) f12⟩
  have hp : potR w1 = potR w := by simp only [potR, e5, e10]
  rw [f7]
  split at f10 <;> rename_i hg
  · rw [if_pos hg]; omega
  · rw [if_neg hg]; omega

theorem submitLoop_spec (q : List Nat) : ∀ w : Node, Base c { w with sendQ := q } →
    Base c (submitLoop q w) ∧ potP (submitLoop q w) = potP w ∧ credits (submitLoop q w).wire = credits w.wire ∧
      acks (submitLoop q w).wire = acks w.wire ∧
      datas (submitLoop q w).wire ++ (submitLoop q w).sendQ.map (bufAt w.recs) = datas w.wire ++ q.map (bufAt w.recs) ∧
      (0 < (submitLoop q w).allowed → (submitLoop q w).sendQ = []) ∧
      (submitLoop q w).recs = w.recs ∧ (submitLoop q w).netRecv = w.netRecv ∧ (submitLoop q w).inSize = w.inSize ∧
      (submitLoop q w).outq = w.outq ∧ (submitLoop q w).port = w.port ∧ (submitLoop q w).outSize = w.outSize ∧
      (submitLoop q w).ready = w.ready ∧ (submitLoop q w).busy = w.busy ∧ (submitLoop q w).first = w.first := by
  induction q with
  | nil =>
    intro w h
    exact ⟨h, rfl, rfl, rfl, rfl, fun _ => rfl, rfl, rfl, rfl, rfl, rfl, rfl, rfl, rfl, rfl⟩
  | cons id q ih =>
    intro w h
    unfold submitLoop
    by_cases ha : w.allowed = 0
    · rw [if_pos ha]
      exact ⟨h, rfl, rfl, rfl, rfl, fun hh => by dsimp only at hh; omega, rfl, rfl, rfl, rfl, rfl, rfl, rfl, rfl, rfl⟩
    · rw [if_neg ha]
      obtain ⟨r, hr⟩ := h.get (mem_ids.mpr (Or.inr (Or.inr (List.mem_cons_self ..))) : id ∈ ids { w with sendQ := id :: q })
      dsimp only at hr
      have hk : r.kind = .data := by
        rw [← kindAt_get hr]; exact h.kQ id (List.mem_cons_self ..)
      have hp : packet r = .data r.buf := by unfold packet; rw [hk]
      have hs : submitSend { w with allowed := w.allowed - 1 } id =
          { w with allowed := w.allowed - 1, netSend := w.netSend ++ [id], wire := w.wire ++ [.data r.buf] } := by
        unfold submitSend; dsimp only; rw [hr]; dsimp only; rw [hp]
      rw [hs]
      have hb := h.submit (id := id) (q := q) rfl (w.wire ++ [.data r.buf]) (w.allowed - 1)
      dsimp only at hb
      obtain ⟨i1, i2, i3, i3', i4, i5, i6, i7, i8, i9, i10, i11, i12, i13, i14⟩ :=
        ih { w with allowed := w.allowed - 1, netSend := w.netSend ++ [id], wire := w.wire ++ [.data r.buf] } hb
      refine ⟨i1, ?_, ?_, ?_, ?_, i5, i6, i7, i8, i9, i10, i11, i12, i13, i14⟩
      · rw [i2]; simp only [potP, datas_append, datas, List.length_append, List.length_cons, List.length_nil]; omega
      · rw [i3]; simp [credits]
      · rw [i3']; simp [acks]
      · dsimp only at i4
        rw [i4, datas_append, List.map_cons, bufAt_get hr]; simp [datas]

theorem submitAllowed_spec {w : Node} (h : Base c w) :
    Base c (submitAllowed w) ∧ potP (submitAllowed w) = potP w ∧ potR (submitAllowed w) = potR w ∧
      potD (submitAllowed w) = potD w ∧ (0 < (submitAllowed w).allowed → (submitAllowed w).sendQ = []) ∧
      (submitAllowed w).recs = w.recs ∧ (submitAllowed w).netRecv = w.netRecv ∧ (submitAllowed w).inSize = w.inSize ∧
      (submitAllowed w).outq = w.outq ∧ (submitAllowed w).port = w.port ∧
      (submitAllowed w).ready = w.ready ∧ (submitAllowed w).busy = w.busy ∧ (submitAllowed w).first = w.first ∧
      FirstRel c w (submitAllowed w) := by
  obtain ⟨i1, i2, i3, i3', i4, i5, i6, i7, i8, i9, i10, i11, i12, i13, i14⟩ := submitLoop_spec w.sendQ w h
  unfold submitAllowed
  refine ⟨i1, i2, ?_, ?_, i5, i6, i7, i8, i9, i10, i12, i13, i14, .of i3 i3' i14⟩
  · simp only [potR, i3, i12]
  · simp only [potD, waiting, i6, i10, i11, ← List.append_assoc, i4]

theorem takeRec_input {w : Node} (h : Base c w) (hf : Fits c) (ho : w.outSize < w.port.length) (b : Nat) :
    ∃ id cnt', takeRec w .data 0 b = some (id, { w with recs := w.recs.set id ⟨true, .data, 0, b⟩, counter := cnt' }) ∧
      id < w.recs.length ∧ id ∉ ids w ∧ cnt' < w.recs.length := by
  have hcnt := h.count
  have h1 := h.inle hf
  have h3 := h.portle
  have h4 := hf.1
  have h5 := h.len
  exact takeRec_spec h (by split at hcnt <;> omega) .data 0 b

theorem inputLoop_spec (hf : Fits c) (l : List Nat) : ∀ w : Node, Base c w → w.port.drop w.outSize = l →
    ∃ w', inputLoop c l w = some w' ∧ Base c w' ∧ (0 < c.sendCap → potP w' = potP w) ∧ potR w' = potR w ∧ potD w' = potD w ∧
      w'.outSize = w.port.length ∧ w'.netRecv = w.netRecv ∧ w'.outq = w.outq ∧ w'.port = w.port ∧
      w'.ready = w.ready ∧ w'.busy = w.busy ∧ w'.first = w.first ∧ acks w'.wire = acks w.wire := by
  induction l with
  | nil =>
    intro w h hd
    have := h.outle
    have hd := List.drop_eq_nil_iff.mp hd
    exact ⟨w, rfl, h, fun _ => rfl, rfl, rfl, by omega, rfl, rfl, rfl, rfl, rfl, rfl, rfl⟩
  | cons b l ih =>
    intro w h hd
    have ho : w.outSize < w.port.length := by
      apply Nat.lt_of_not_le; intro hh
      rw [List.drop_eq_nil_iff.mpr hh] at hd; simp at hd
    have hb : w.port[w.outSize]? = some b := by
      have := congrArg List.head? hd
      simpa [List.head?_drop] using this
    have hd' : w.port.drop (w.outSize + 1) = l := by
      rw [← List.drop_drop, hd]; simp
    obtain ⟨id, cnt', e, i1, i2, i3⟩ := takeRec_input h hf ho b
    have i2' : id ∉ w.sendQ := fun hh => i2 (mem_ids.mpr (Or.inr (Or.inr hh)))
    have hbf : bufAt (w.recs.set id ⟨true, .data, 0, b⟩) id = b := by rw [bufAt_set _ _ _ _ i1, if_pos rfl]
    unfold inputLoop inputOne
    rw [e]
    dsimp only
    by_cases hs : 0 < c.sendCap
    · rw [if_pos hs]
      have hcap : c.sendCap = c.outCap := by
        unfold Cfg.sendCap at hs ⊢; split at hs <;> rename_i hh
        · rw [if_pos hh]
        · omega
      have hq : w.sendQ.length < c.sendCap := by
        have := h.outsz; have := h.portle; have := hf.1; omega
      rw [if_pos hq]
      dsimp only
      have hw := h.queue i1 i2 i3 hs b hb
      obtain ⟨w', j1, j2, j3, j4, j5, j6, j7, j8, j9, j10, j11, j12, j13⟩ := ih _ hw hd'
      refine ⟨w', j1, j2, j3, j4, ?_, j6, j7, j8, j9, j10, j11, j12, j13⟩
      rw [j5]
      simp only [potD, waiting, List.map_append, List.map_cons, List.map_nil, hbf, hd', hd]
      rw [(filter_set w.recs id ⟨true, .data, 0, b⟩ i1 w.sendQ i2').2.2]
      simp
    · rw [if_neg hs]
      have hs0 : c.sendCap = 0 := by omega
      dsimp only [submitSend]
      rw [List.getElem?_set_self i1]
      dsimp only [packet]
      have hw := h.direct i1 i2 i3 hs0 b hb (w.wire ++ [.data b])
      obtain ⟨w', j1, j2, j3, j4, j5, j6, j7, j8, j9, j10, j11, j12, j13⟩ := ih _ hw hd'
      refine ⟨w', j1, j2, fun hh => absurd hh hs, ?_, ?_, j6, j7, j8, j9, j10, j11, j12, ?_⟩
      · rw [j4]; simp [potR, credits]
      · rw [j5]
        simp only [potD, waiting, h.noQ hs0, List.map_nil, List.nil_append, datas_append, datas, hd', hd]
        simp
      · rw [j13]; simp [acks]

theorem processInput_spec {w : Node} (h : Base c w) (hf : Fits c) :
    ∃ w', processInput c w = some w' ∧ Base c w' ∧ (0 < c.sendCap → potP w' = potP w) ∧ potR w' = potR w ∧ potD w' = potD w ∧
      (0 < w'.allowed → w'.sendQ = []) ∧ w'.netRecv = w.netRecv ∧ w'.outq = w.outq ∧ w'.port = w.port ∧
      w'.ready = w.ready ∧ w'.busy = w.busy ∧ w'.first = w.first ∧ FirstRel c w w' := by
  obtain ⟨w1, j1, j2, j3, j4, j5, j6, j7, j8, j9, j10, j11, j12, j13⟩ := inputLoop_spec hf _ w h rfl
  obtain ⟨i1, i2, i3, i4, i5, i6, i7, i8, i9, i10, i11, i12, i13, i14⟩ := submitAllowed_spec j2
  unfold processInput
  rw [j1]
  refine ⟨submitAllowed w1, rfl, i1, fun hh => by rw [i2, j3 hh], by rw [i3, j4], by rw [i4, j5], i5, by rw [i7, j7], by rw [i9, j8],
    by rw [i10, j9], by rw [i11, j10], by rw [i12, j11], by rw [i13, j12],
    FirstRel.trans (.of (by simp only [potR] at j4; omega) j13 j12) i14⟩

theorem sendCompl_spec {w : Node} (h : Base c w) (hf : Fits c)
    (hr : Grants c → w.busy = false → w.ready < lim c w.first) :
    ∃ w', sendCompl c w = some w' ∧ Base c w' ∧ w'.allowed = w.allowed ∧ datas w'.wire = datas w.wire ∧ w'.sendQ = w.sendQ ∧
      potR w' = potR w ∧ potD w' = potD w ∧ w'.netRecv = w.netRecv ∧ w'.outq = w.outq ∧
      (Grants c → w'.busy = false → w'.ready < lim c w'.first) ∧ FirstRel c w w' := by
  unfold sendCompl
  cases hq : w.netSend with
  | nil => exact ⟨w, rfl, h, rfl, rfl, rfl, rfl, rfl, rfl, rfl, hr, .of rfl rfl rfl⟩
  | cons id q =>
    dsimp only
    obtain ⟨r, hg⟩ := h.get (mem_ids.mpr (Or.inr (Or.inl (by rw [hq]; exact List.mem_cons_self ..))) : id ∈ ids w)
    rw [hg]
    dsimp only
    have hks := h.kSend id (by rw [hq]; exact List.mem_cons_self ..)
    rw [kindAt_get hg] at hks
    have hni : id ∉ w.sendQ := by
      have := h.nodup
      simp only [ids, hq, List.cons_append, List.nodup_append, List.nodup_cons, List.mem_append] at this
      intro hh
      exact this.2.1.1 (Or.inr hh)
    have hset := (filter_set w.recs id { r with used := false, buf := 0 } (lt_get hg) w.sendQ hni).2.2
    cases hk : r.kind with
    | recv => exact absurd hk hks
    | data =>
      dsimp only
      obtain ⟨port, p1, p2, p3⟩ := h.freeData hq hg hk
      rw [p1]
      dsimp only [releaseRec]
      rw [hg]
      refine ⟨_, rfl, p3, rfl, rfl, rfl, rfl, ?_, rfl, rfl, hr, .of rfl rfl rfl⟩
      simp only [potD, waiting, hset, p1]
      rw [show w.outSize = (w.outSize - 1) + 1 by omega]
      simp
    | ack =>
      dsimp only [releaseRec]
      rw [hg]
      dsimp only
      obtain ⟨p1, p2⟩ := h.freeAck hq hg hk
      obtain ⟨w', f1, f2, f3, f4, f5, f6, f7, f8, f9, f10, f11, f12⟩ := checkAck_spec p2 hf 0
      refine ⟨w', f1, f2, f3, f4, f5, ?_, ?_, f7, f8, f11, f12⟩
      · rw [f10]; simp [potR]
      · simp only [potD, f4, f6]
        simp only [waiting, hset]

theorem submitLoop_netRecv (q : List Nat) : ∀ (l : List Nat) (v : Node),
    submitLoop l { v with netRecv := q } = { submitLoop l v with netRecv := q } := by
  intro l
  induction l with
  | nil => intro v; rfl
  | cons a l ih =>
    intro v
    unfold submitLoop
    dsimp only
    by_cases ha : v.allowed = 0
    · rw [if_pos ha, if_pos ha]
    · rw [if_neg ha, if_neg ha, ← ih]
      congr 1
      unfold submitSend
      dsimp only
      cases v.recs[a]? <;> rfl

theorem recvAck_spec {w : Node} (h : Base c w) (hf : Fits c) (hn : w.netRecv ≠ []) (n bufs : Nat) :
    ∃ w', recvCompl c w (.ack n) bufs = some w' ∧ Base c w' ∧ potP w' = potP w + n ∧
      potD w' = potD w ∧ w'.outq = w.outq ∧ (0 < w'.allowed → w'.sendQ = []) ∧
      (Grants c → potR w' + w.netRecv.length = potR w + w'.netRecv.length + 1) ∧
      (Grants c → w'.busy = false → w'.ready < lim c w'.first) := by
  unfold recvCompl
  cases hq : w.netRecv with
  | nil => exact absurd hq hn
  | cons id q =>
    dsimp only
    have hb1 : Base c { w with allowed := w.allowed + n } := ⟨h.len, h.cnt, h.nodup, h.used, h.valid, h.kRecv, h.kQ, h.kSend,
      h.nAck, h.insz, h.outsz, h.cont, h.portle, h.room, h.busyInp, h.noQ⟩
    obtain ⟨i1, i2, i3, i4, i5, i6, i7, i8, i9, i10, i11, i12, i13, -⟩ := submitAllowed_spec hb1
    have hsub : submitAllowed { w with netRecv := q, allowed := w.allowed + n } =
        { submitAllowed { w with allowed := w.allowed + n } with netRecv := q } := by
      unfold submitAllowed
      dsimp only
      exact submitLoop_netRecv q w.sendQ { w with allowed := w.allowed + n }
    rw [hsub]
    clear hsub
    generalize submitAllowed { w with allowed := w.allowed + n } = v at i1 i2 i3 i4 i5 i6 i7 i8 i9 i10 i11 i12 i13
    have hv : v.netRecv = id :: q := by rw [i7]; exact hq
    obtain ⟨r, hg⟩ := i1.get (mem_ids.mpr (Or.inl (by rw [hv]; exact List.mem_cons_self ..)) : id ∈ ids v)
    dsimp only [releaseRec]
    rw [hg]
    dsimp only
    have hni : id ∉ v.sendQ := by
      have := i1.nodup
      simp only [ids, hv, List.cons_append, List.nodup_cons, List.mem_append] at this
      intro hh
      exact this.1 (Or.inr (Or.inr hh))
    have hset := (filter_set v.recs id { r with used := false, buf := 0 } (lt_get hg) v.sendQ hni).2.2
    obtain ⟨w', f1, f2, f3, f4, f5, f6, f7, f8, f9, f10, -⟩ := fill_spec (i1.freeRecv hv hg) hf (bufs + 1)
    refine ⟨w', f1, f2, ?_, ?_, ?_, ?_, ?_, f10⟩
    · simp only [potP, f3, f4]
      simp only [potP] at i2; omega
    · rw [← (show potD v = potD w from i4)]
      simp only [potD, f4, f6]
      simp only [waiting, hset]
    · rw [f7]; exact i9
    · intro hh; rw [f5]; rw [f3] at hh; exact i5 hh
    · intro hg
      rw [if_pos hg] at f9
      dsimp only [potR] at f9 i3 ⊢
      simp only [List.length_cons]
      omega

theorem recvData_spec {w : Node} (h : Base c w) (hi : c.isInp = true) (hn : w.netRecv ≠ []) (b bufs : Nat)
    (hr : Grants c → w.busy = false → w.ready < lim c w.first) (hal : 0 < w.allowed → w.sendQ = []) :
    ∃ w', recvCompl c w (.data b) bufs = some w' ∧ Base c w' ∧ potP w' = potP w ∧
      potD w' = potD w ∧ w'.outq = w.outq ++ [b] ∧ (0 < w'.allowed → w'.sendQ = []) ∧
      potR w' = potR w ∧ w.netRecv.length = w'.netRecv.length + 1 ∧
      (Grants c → w'.busy = false → w'.ready < lim c w'.first) := by
  unfold recvCompl
  cases hq : w.netRecv with
  | nil => exact absurd hq hn
  | cons id q =>
    dsimp only
    obtain ⟨r, hg⟩ := h.get (mem_ids.mpr (Or.inl (by rw [hq]; exact List.mem_cons_self ..)) : id ∈ ids w)
    have hrel : releaseRec { w with netRecv := q, inSize := w.inSize - 1 } id =
        { w with netRecv := q, inSize := w.inSize - 1, recs := w.recs.set id { r with used := false, buf := 0 } } := by
      unfold releaseRec; dsimp only; rw [hg]
    rw [hrel]
    dsimp only
    have hb := h.freeRecv hq hg
    have hroom := h.room
    have hin := h.insz
    rw [if_pos hi] at hroom
    rw [hq, List.length_cons] at hin
    have hni : id ∉ w.sendQ := by
      have := h.nodup
      simp only [ids, hq, List.cons_append, List.nodup_cons, List.mem_append] at this
      intro hh
      exact this.1 (Or.inr (Or.inr hh))
    have hset := (filter_set w.recs id { r with used := false, buf := 0 } (lt_get hg) w.sendQ hni).2.2
    have hlt : w.outq.length < c.oqCap := by omega
    rw [if_pos (by simp [hi, hlt])]
    refine ⟨_, rfl, ?_, rfl, ?_, rfl, hal, rfl, by simp, hr⟩
    · refine ⟨hb.len, hb.cnt, hb.nodup, hb.used, hb.valid, hb.kRecv, hb.kQ, hb.kSend, hb.nAck, hb.insz, hb.outsz, hb.cont,
        hb.portle, ?_, hb.busyInp, hb.noQ⟩
      rw [if_pos hi]
      simp only [List.length_append, List.length_singleton]
      omega
    · simp only [potD, waiting, hset]

end

end Verif.NetTr
