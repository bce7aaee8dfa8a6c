import Verif.NetTransportSteps

namespace Verif.NetTr

structure NodeInv (c : Cfg) (w : Node) : Prop where
  base : Base c w
  ready : Grants c → w.busy = false → w.ready < lim c w.first
  sendq : 0 < w.allowed → w.sendQ = []

/-- Connection from `a` to `b`. -/
structure Dir (ca cb : Cfg) (s : Sys) : Prop where
  credit : 0 < ca.sendCap → Grants cb → potP s.a + potR s.b = s.b.netRecv.length + acks s.gotB
  hist : s.putA = datas s.gotB ++ potD s.a
  taken : datas s.gotB = s.takB ++ s.b.outq
  noput : ca.portCap = 0 → s.putA = []

/-- Where one side has an output, the other has an input. -/
def Joined (ca cb : Cfg) : Prop := 0 < ca.portCap → cb.isInp = true

structure Inv (ca cb : Cfg) (s : Sys) : Prop where
  na : NodeInv ca s.a
  nb : NodeInv cb s.b
  ab : Dir ca cb s
  ba : Dir cb ca s.swap

theorem Inv.swap {ca cb : Cfg} {s : Sys} (h : Inv ca cb s) : Inv cb ca s.swap := ⟨h.nb, h.na, h.ba, h.ab⟩

theorem Base.init (c : Cfg) : Base c (Node.init c) := by
  constructor <;> simp [Node.init, ids]
  intro i hi
  unfold usedAt
  rw [List.getElem?_replicate, if_pos (by simpa using hi)]

theorem NodeInv.init (c : Cfg) : NodeInv c (Node.init c) :=
  ⟨Base.init c, fun _ _ => lim_pos _ _, fun _ => rfl⟩

theorem Inv.init (ca cb : Cfg) : Inv ca cb (Sys.init ca cb) := by
  refine ⟨NodeInv.init ca, NodeInv.init cb, ?_, ?_⟩ <;>
    constructor <;> simp [Sys.init, Sys.swap, Node.init, potP, potR, potD, waiting, datas, credits, acks]

theorem stepA_inv {ca cb : Cfg} (hfa : Fits ca) (hj : Joined cb ca) {s : Sys} (h : Inv ca cb s) (o : Op) :
    ∃ s', stepA ca s o = some s' ∧ Inv ca cb s' := by
  obtain ⟨⟨hB, hR, hS⟩, hNb, hAB, hBA⟩ := h
  cases o with
  | put x =>
    unfold stepA
    dsimp only
    by_cases hp : s.a.port.length < ca.portCap
    · rw [if_pos hp]
      refine ⟨_, rfl, ⟨?_, hR, hS⟩, hNb, ?_, ⟨hBA.credit, hBA.hist, hBA.taken, hBA.noput⟩⟩
      · have ho := hB.outle
        refine ⟨hB.len, hB.cnt, hB.nodup, hB.used, hB.valid, hB.kRecv, hB.kQ, hB.kSend, hB.nAck, hB.insz, hB.outsz, ?_, ?_, hB.room, hB.busyInp, hB.noQ⟩
        · rw [List.take_append_of_le_length ho]; exact hB.cont
        · simp only [List.length_append, List.length_singleton]; omega
      · refine ⟨hAB.credit, ?_, hAB.taken, fun h0 => by omega⟩
        have := hAB.hist
        simp only [potD, waiting] at this ⊢
        rw [List.drop_append_of_le_length hB.outle, this]
        simp
    · rw [if_neg hp]
      exact ⟨s, rfl, ⟨hB, hR, hS⟩, hNb, hAB, hBA⟩
  | input =>
    obtain ⟨w', e1, e2, e3, e4, e5, e6, e7, e8, e9, e10, e11, e12, -⟩ := processInput_spec hB hfa
    unfold stepA
    dsimp only
    rw [e1]
    refine ⟨_, rfl, ⟨e2, ?_, e6⟩, hNb, ?_, ?_⟩
    · intro hg hb; rw [e10, e12]; exact hR hg (by rw [← e11]; exact hb)
    · refine ⟨?_, ?_, hAB.taken, hAB.noput⟩
      · intro h1 h2; have := hAB.credit h1 h2; dsimp only; rw [e3 h1]; exact this
      · dsimp only; rw [e5]; exact hAB.hist
    · refine ⟨?_, hBA.hist, ?_, hBA.noput⟩
      · intro h1 h2; have := hBA.credit h1 h2; dsimp only [Sys.swap] at this ⊢; rw [e4, e7]; exact this
      · have := hBA.taken; dsimp only [Sys.swap] at this ⊢; rw [e8]; exact this
  | fill bufs =>
    obtain ⟨w', e1, e2, e3, e4, e5, e6, e7, e8, e9, e10, -⟩ := fill_spec hB hfa bufs
    unfold stepA
    dsimp only
    rw [e1]
    refine ⟨_, rfl, ⟨e2, e10, ?_⟩, hNb, ?_, ?_⟩
    · intro ha; dsimp only at ha ⊢; rw [e5]; rw [e3] at ha; exact hS ha
    · refine ⟨?_, ?_, hAB.taken, hAB.noput⟩
      · intro h1 h2; have := hAB.credit h1 h2; dsimp only [potP] at this ⊢; rw [e3, e4]; exact this
      · have := hAB.hist; dsimp only [potD] at this ⊢; rw [e4, e6]; exact this
    · refine ⟨?_, hBA.hist, ?_, hBA.noput⟩
      · intro h1 h2; have := hBA.credit h1 h2; dsimp only [Sys.swap] at this ⊢; rw [if_pos h2] at e9; omega
      · have := hBA.taken; dsimp only [Sys.swap] at this ⊢; rw [e7]; exact this
  | take =>
    unfold stepA
    refine ⟨_, rfl, ⟨?_, hR, hS⟩, hNb, ⟨hAB.credit, hAB.hist, hAB.taken, hAB.noput⟩, ⟨hBA.credit, hBA.hist, ?_, hBA.noput⟩⟩
    · refine ⟨hB.len, hB.cnt, hB.nodup, hB.used, hB.valid, hB.kRecv, hB.kQ, hB.kSend, hB.nAck, hB.insz, hB.outsz, hB.cont, hB.portle, ?_, hB.busyInp, hB.noQ⟩
      have := hB.room
      dsimp only
      split at this <;> rename_i hh
      · rw [if_pos hh, List.length_tail]; omega
      · rw [if_neg hh, this.2]; exact ⟨this.1, rfl⟩
    · have := hBA.taken
      dsimp only [Sys.swap] at this ⊢
      rw [this]
      cases s.a.outq with
      | nil => simp
      | cons x l => simp
  | sendDone =>
    obtain ⟨w', e1, e2, e3, e4, e5, e6, e7, e8, e9, e10, -⟩ := sendCompl_spec hB hfa hR
    unfold stepA
    dsimp only
    rw [e1]
    refine ⟨_, rfl, ⟨e2, e10, ?_⟩, hNb, ?_, ?_⟩
    · intro ha; dsimp only at ha ⊢; rw [e5]; rw [e3] at ha; exact hS ha
    · refine ⟨?_, ?_, hAB.taken, hAB.noput⟩
      · intro h1 h2; have := hAB.credit h1 h2; dsimp only [potP] at this ⊢; rw [e3, e4]; exact this
      · dsimp only; rw [e7]; exact hAB.hist
    · refine ⟨?_, hBA.hist, ?_, hBA.noput⟩
      · intro h1 h2; have := hBA.credit h1 h2; dsimp only [Sys.swap] at this ⊢; rw [e6, e8]; exact this
      · have := hBA.taken; dsimp only [Sys.swap] at this ⊢; rw [e9]; exact this
  | recv bufs =>
    unfold stepA
    dsimp only
    cases hw : s.b.wire with
    | nil => exact ⟨s, rfl, ⟨hB, hR, hS⟩, hNb, hAB, hBA⟩
    | cons p l =>
      dsimp only
      by_cases hn : s.a.netRecv = []
      · rw [if_pos hn]; exact ⟨s, rfl, ⟨hB, hR, hS⟩, hNb, hAB, hBA⟩
      · rw [if_neg hn]
        have hb' : NodeInv cb { s.b with wire := l } :=
          ⟨⟨hNb.base.len, hNb.base.cnt, hNb.base.nodup, hNb.base.used, hNb.base.valid, hNb.base.kRecv, hNb.base.kQ,
            hNb.base.kSend, hNb.base.nAck, hNb.base.insz, hNb.base.outsz, hNb.base.cont, hNb.base.portle, hNb.base.room,
            hNb.base.busyInp, hNb.base.noQ⟩, hNb.ready, hNb.sendq⟩
        have c1 := hAB.credit
        have c2 := hBA.credit
        have t2 := hBA.taken
        have p2 := hBA.hist
        dsimp only [Sys.swap, potP, potR, potD] at c1 c2 t2 p2
        rw [hw] at c1 c2 p2
        cases p with
        | ack n =>
          obtain ⟨w', e1, e2, e3, e4, e5, e6, e7, e8⟩ := recvAck_spec hB hfa hn n bufs
          rw [e1]
          refine ⟨_, rfl, ⟨e2, e8, e6⟩, hb', ?_, ?_⟩
          · refine ⟨?_, ?_, hAB.taken, hAB.noput⟩
            · intro h1 h2; have := c1 h1 h2; dsimp only [potR, credits] at this ⊢; rw [e3]; dsimp only [potP]; omega
            · dsimp only; rw [e4]; exact hAB.hist
          · refine ⟨?_, ?_, ?_, hBA.noput⟩
            · intro h1 h2; have := c2 h1 h2; have := e7 h2
              dsimp only [Sys.swap, potP, potR, datas] at *
              rw [acks_append]; dsimp only [acks]; omega
            · dsimp only [Sys.swap, potD, waiting, datas] at p2 ⊢; rw [datas_append]; simpa [datas] using p2
            · dsimp only [Sys.swap]; rw [datas_append, e5, ← t2]; simp [datas]
        | data b =>
          have hi : ca.isInp = true := by
            apply hj
            apply Nat.pos_of_ne_zero
            intro h0
            have := hBA.noput h0
            dsimp only [Sys.swap] at this
            rw [this] at p2
            simp [datas] at p2
          obtain ⟨w', e1, e2, e3, e4, e5, e6, e7, e8, e9⟩ := recvData_spec hB hi hn b bufs hR hS
          rw [e1]
          refine ⟨_, rfl, ⟨e2, e9, e6⟩, hb', ?_, ?_⟩
          · refine ⟨?_, ?_, hAB.taken, hAB.noput⟩
            · intro h1 h2; have := c1 h1 h2; dsimp only [potR, credits] at this ⊢; rw [e3]; dsimp only [potP]; omega
            · dsimp only; rw [e4]; exact hAB.hist
          · refine ⟨?_, ?_, ?_, hBA.noput⟩
            · intro h1 h2; have := c2 h1 h2
              dsimp only [Sys.swap, potP, potR, datas, List.length_cons] at *
              rw [acks_append]; dsimp only [acks]; omega
            · dsimp only [Sys.swap, potD, waiting, datas] at p2 ⊢; rw [datas_append]; simpa [datas] using p2
            · dsimp only [Sys.swap]; rw [datas_append, e5, t2]; simp [datas]

theorem step_inv {ca cb : Cfg} (hfa : Fits ca) (hfb : Fits cb) (hj : Joined ca cb) (hj' : Joined cb ca) {s : Sys}
    (h : Inv ca cb s) (o : Bool × Op) : ∃ s', step ca cb s o = some s' ∧ Inv ca cb s' := by
  obtain ⟨d, o⟩ := o
  cases d with
  | true => exact stepA_inv hfa hj' h o
  | false =>
    obtain ⟨s', e1, e2⟩ := stepA_inv hfb hj h.swap o
    unfold step
    dsimp only
    rw [e1]
    exact ⟨s'.swap, rfl, e2.swap⟩

theorem run_inv {ca cb : Cfg} (hfa : Fits ca) (hfb : Fits cb) (hj : Joined ca cb) (hj' : Joined cb ca)
    (ops : List (Bool × Op)) : ∀ {s : Sys}, Inv ca cb s → ∃ s', run ca cb ops s = some s' ∧ Inv ca cb s' := by
  induction ops with
  | nil => intro s h; exact ⟨s, rfl, h⟩
  | cons o l ih =>
    intro s h
    obtain ⟨s1, e1, e2⟩ := step_inv hfa hfb hj hj' h o
    unfold run
    rw [e1]
    exact ih e2

/-! ## Queues which are too short -/

theorem wire_nil {l : List Pkt} (h1 : (datas l).length = 0) (h2 : acks l = 0) : l = [] := by
  cases l with
  | nil => rfl
  | cons p l => cases p <;> simp [datas, acks] at h1 h2

/-- Nothing was sent. -/
def Silent (w : Node) : Prop := w.first = true ∧ acks w.wire = 0 ∧ potP w = 0

theorem Silent.wire {w : Node} (h : Silent w) : w.wire = [] :=
  wire_nil (by have := h.2.2; simp only [potP] at this; omega) h.2.1

structure Dead (ca cb : Cfg) (s : Sys) : Prop where
  inv : Inv ca cb s
  sa : Silent s.a
  sb : Silent s.b
  ga : s.gotA = []
  gb : s.gotB = []

theorem Base.recvle {c : Cfg} {w : Node} (h : Base c w) (hi : c.isInp = true) : w.netRecv.length ≤ c.oqCap := by
  have := h.room
  have := h.insz
  rw [if_pos hi] at *
  omega

theorem stepA_dead {ca cb : Cfg} (hfa : Fits ca) (hj : Joined cb ca) (ha : 0 < ca.sendCap) (hb : 0 < cb.sendCap)
    (hs : ca.oqCap < ca.inCap) {s : Sys} (h : Dead ca cb s) (o : Op) :
    ∃ s', stepA ca s o = some s' ∧ Dead ca cb s' := by
  have hga : Grants ca := by
    unfold Cfg.sendCap at ha; split at ha <;> rename_i hh
    · simp only [Bool.and_eq_true] at hh; exact ⟨hh.2, hh.1⟩
    · omega
  -- what remains to be shown for the new state of `a`
  have key : ∀ w' s', stepA ca s o = some s' → s'.a = w' → s'.b = s.b → s'.gotA = s.gotA → s'.gotB = s.gotB →
      potP w' = potP s.a → FirstRel ca s.a w' → Dead ca cb s' := by
    intro w' s' e1 e2 e3 e4 e5 e6 e7
    obtain ⟨s'', f1, f2⟩ := stepA_inv hfa hj h.inv o
    rw [e1] at f1
    obtain rfl := Option.some.inj f1
    refine ⟨f2, ?_, by rw [e3]; exact h.sb, by rw [e4]; exact h.ga, by rw [e5]; exact h.gb⟩
    have hc := f2.ba.credit hb hga
    have hle := f2.na.base.recvle hga.2
    dsimp only [Sys.swap] at hc
    rw [e4, h.ga, e2] at hc
    rw [e2] at hle ⊢
    simp only [acks, potR] at hc
    have hft : w'.first = true := by
      cases hh : w'.first with
      | true => rfl
      | false => have := e7.2.2 h.sa.1 hh; omega
    exact ⟨hft, by rw [(e7.2.1 hft).2]; exact h.sa.2.1, by rw [e6]; exact h.sa.2.2⟩
  have hB := h.inv.na.base
  cases o with
  | put x =>
    by_cases hp : s.a.port.length < ca.portCap
    · have e : stepA ca s (.put x) = some { s with a := { s.a with port := s.a.port ++ [x] }, putA := s.putA ++ [x] } := by
        unfold stepA; dsimp only; rw [if_pos hp]
      exact ⟨_, e, key _ _ e rfl rfl rfl rfl rfl (.of rfl rfl rfl)⟩
    · have e : stepA ca s (.put x) = some s := by unfold stepA; dsimp only; rw [if_neg hp]
      exact ⟨_, e, h⟩
  | input =>
    obtain ⟨w', e1, -, e3, -, -, -, -, -, -, -, -, -, e13⟩ := processInput_spec hB hfa
    have e : stepA ca s .input = some { s with a := w' } := by unfold stepA; dsimp only; rw [e1]; rfl
    exact ⟨_, e, key _ _ e rfl rfl rfl rfl (e3 ha) e13⟩
  | fill bufs =>
    obtain ⟨w', e1, -, e3, e4, -, -, -, -, -, -, e11⟩ := fill_spec hB hfa bufs
    have e : stepA ca s (.fill bufs) = some { s with a := w' } := by unfold stepA; dsimp only; rw [e1]; rfl
    exact ⟨_, e, key _ _ e rfl rfl rfl rfl (by simp only [potP, e3, e4]) e11⟩
  | take =>
    have e : stepA ca s .take =
      some { s with a := { s.a with outq := s.a.outq.tail }, takA := s.takA ++ s.a.outq.head?.toList } := rfl
    exact ⟨_, e, key _ _ e rfl rfl rfl rfl rfl (.of rfl rfl rfl)⟩
  | sendDone =>
    obtain ⟨w', e1, -, e3, e4, -, -, -, -, -, -, e11⟩ := sendCompl_spec hB hfa h.inv.na.ready
    have e : stepA ca s .sendDone = some { s with a := w' } := by unfold stepA; dsimp only; rw [e1]; rfl
    exact ⟨_, e, key _ _ e rfl rfl rfl rfl (by simp only [potP, e3, e4]) e11⟩
  | recv bufs =>
    have e : stepA ca s (.recv bufs) = some s := by unfold stepA; dsimp only; rw [h.sb.wire]
    exact ⟨_, e, h⟩

theorem run_dead {ca cb : Cfg} (hfa : Fits ca) (hfb : Fits cb) (hj : Joined ca cb) (hj' : Joined cb ca)
    (ha : 0 < ca.sendCap) (hb : 0 < cb.sendCap) (hsa : ca.oqCap < ca.inCap) (hsb : cb.oqCap < cb.inCap)
    (ops : List (Bool × Op)) : ∀ {s : Sys}, Dead ca cb s → ∃ s', run ca cb ops s = some s' ∧ Dead ca cb s' := by
  induction ops with
  | nil => intro s h; exact ⟨s, rfl, h⟩
  | cons o l ih =>
    intro s h
    have : ∃ s1, step ca cb s o = some s1 ∧ Dead ca cb s1 := by
      obtain ⟨d, o⟩ := o
      cases d with
      | true => exact stepA_dead hfa hj' ha hb hsa h o
      | false =>
        obtain ⟨s', e1, e2⟩ := stepA_dead (s := s.swap) hfb hj hb ha hsb ⟨h.inv.swap, h.sb, h.sa, h.gb, h.ga⟩ o
        unfold step
        dsimp only
        rw [e1]
        exact ⟨s'.swap, rfl, ⟨e2.inv.swap, e2.sb, e2.sa, e2.gb, e2.ga⟩⟩
    obtain ⟨s1, e1, e2⟩ := this
    unfold run
    rw [e1]
    exact ih e2

end Verif.NetTr
