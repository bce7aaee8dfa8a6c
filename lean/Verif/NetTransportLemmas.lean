import Verif.Spec.NetTransport
import Mathlib.Data.List.Nodup
import Mathlib.Data.List.Perm.Subperm

namespace Verif.NetTr

@[simp] theorem datas_append (l m : List Pkt) : datas (l ++ m) = datas l ++ datas m := by
  induction l with
  | nil => rfl
  | cons p l ih => cases p <;> simp [datas, ih]

@[simp] theorem acks_append (l m : List Pkt) : acks (l ++ m) = acks l + acks m := by
  induction l with
  | nil => simp [acks]
  | cons p l ih => cases p <;> simp [acks, ih] <;> omega

@[simp] theorem credits_append (l m : List Pkt) : credits (l ++ m) = credits l + credits m := by
  induction l with
  | nil => simp [credits]
  | cons p l ih => cases p <;> simp [credits, ih] <;> omega

/-! ## Records -/

theorem takeLoop_none (recs : List Rec) (cnt : Nat) : ∀ c, c < recs.length → (takeLoop recs cnt c).1 = none →
    ∀ j, j < cnt → usedAt recs ((c + j) % recs.length) = true := by
  induction cnt with
  | zero => intro c _ _ j hj; omega
  | succ cnt ih =>
    intro c hc h j hj
    unfold takeLoop at h
    by_cases hu : usedAt recs c = true
    · dsimp only at h
      rw [if_pos hu] at h
      cases j with
      | zero => rw [Nat.add_zero, Nat.mod_eq_of_lt hc]; exact hu
      | succ j =>
        have := ih ((c + 1) % recs.length) (Nat.mod_lt _ (by omega)) h j (by omega)
        rw [Nat.mod_add_mod] at this
        rw [show c + (j + 1) = c + 1 + j by omega]; exact this
    · dsimp only at h
      rw [if_neg hu] at h
      exact absurd h (by simp)

theorem takeLoop_some (recs : List Rec) (cnt : Nat) : ∀ c, c < recs.length →
    (takeLoop recs cnt c).2 < recs.length ∧
      ∀ id, (takeLoop recs cnt c).1 = some id → id < recs.length ∧ usedAt recs id = false := by
  induction cnt with
  | zero => intro c hc; exact ⟨hc, by simp [takeLoop]⟩
  | succ cnt ih =>
    intro c hc
    unfold takeLoop
    dsimp only
    by_cases hu : usedAt recs c = true
    · rw [if_pos hu]; exact ih _ (Nat.mod_lt _ (by omega))
    · rw [if_neg hu]
      refine ⟨Nat.mod_lt _ (by omega), ?_⟩
      intro id hid
      simp only [Option.some.injEq] at hid
      subst hid
      exact ⟨hc, by simpa using hu⟩

theorem takeLoop_all (recs : List Rec) (c : Nat) (hc : c < recs.length) (h : (takeLoop recs recs.length c).1 = none) :
    ∀ i, i < recs.length → usedAt recs i = true := by
  intro i hi
  have := takeLoop_none recs recs.length c hc h
  by_cases hic : c ≤ i
  · have := this (i - c) (by omega)
    rwa [show c + (i - c) = i by omega, Nat.mod_eq_of_lt hi] at this
  · have := this (i + recs.length - c) (by omega)
    rwa [show c + (i + recs.length - c) = i + recs.length by omega, Nat.add_mod_right, Nat.mod_eq_of_lt hi] at this

/-- Ids of all records which are in use. -/
def ids (w : Node) : List Nat := w.netRecv ++ (w.netSend ++ w.sendQ)

def kindAt (recs : List Rec) (i : Nat) : Kind :=
  match recs[i]? with
  | some r => r.kind
  | none => .recv

def bufAt (recs : List Rec) (i : Nat) : Nat :=
  match recs[i]? with
  | some r => r.buf
  | none => 0

def isData (recs : List Rec) (i : Nat) : Bool := kindAt recs i == .data
def isAck (recs : List Rec) (i : Nat) : Bool := kindAt recs i == .ack

theorem usedAt_set (recs : List Rec) (id i : Nat) (r : Rec) (hid : id < recs.length) :
    usedAt (recs.set id r) i = if i = id then r.used else usedAt recs i := by
  unfold usedAt
  rw [List.getElem?_set]
  by_cases h : id = i
  · subst h; simp [hid]
  · have h' : ¬ i = id := fun hh => h hh.symm
    simp [h, h']

theorem kindAt_set (recs : List Rec) (id i : Nat) (r : Rec) (hid : id < recs.length) :
    kindAt (recs.set id r) i = if i = id then r.kind else kindAt recs i := by
  unfold kindAt
  rw [List.getElem?_set]
  by_cases h : id = i
  · subst h; simp [hid]
  · have h' : ¬ i = id := fun hh => h hh.symm
    simp [h, h']

theorem bufAt_set (recs : List Rec) (id i : Nat) (r : Rec) (hid : id < recs.length) :
    bufAt (recs.set id r) i = if i = id then r.buf else bufAt recs i := by
  unfold bufAt
  rw [List.getElem?_set]
  by_cases h : id = i
  · subst h; simp [hid]
  · have h' : ¬ i = id := fun hh => h hh.symm
    simp [h, h']

/-- What holds for a transport during all of its functions. -/
structure Base (c : Cfg) (w : Node) : Prop where
  len : w.recs.length = c.inCap + c.outCap + 1
  cnt : w.counter < w.recs.length
  nodup : (ids w).Nodup
  used : ∀ i, i < w.recs.length → (usedAt w.recs i = true ↔ i ∈ ids w)
  valid : ∀ i ∈ ids w, i < w.recs.length
  kRecv : ∀ i ∈ w.netRecv, kindAt w.recs i = .recv
  kQ : ∀ i ∈ w.sendQ, kindAt w.recs i = .data
  kSend : ∀ i ∈ w.netSend, kindAt w.recs i ≠ .recv
  nAck : (w.netSend.filter (isAck w.recs)).length = if w.busy then 1 else 0
  insz : w.inSize = w.netRecv.length
  outsz : w.outSize = (w.netSend.filter (isData w.recs)).length + w.sendQ.length
  cont : (w.netSend.filter (isData w.recs) ++ w.sendQ).map (bufAt w.recs) = w.port.take w.outSize
  portle : w.port.length ≤ c.portCap
  room : if c.isInp then w.inSize + w.outq.length ≤ c.oqCap else w.inSize ≤ c.inCap ∧ w.outq = []
  busyInp : w.busy = true → c.isInp = true ∧ c.ackn = true
  noQ : c.sendCap = 0 → w.sendQ = []

theorem Base.outle {c : Cfg} {w : Node} (h : Base c w) : w.outSize ≤ w.port.length := by
  have := congrArg List.length h.cont
  simp only [List.length_map, List.length_append, List.length_take] at this
  have := h.outsz
  omega

theorem Base.inle {c : Cfg} {w : Node} (h : Base c w) (hf : Fits c) : w.inSize ≤ c.inCap := by
  have := h.room
  split at this
  · have := hf.2 (by assumption); omega
  · omega

theorem filter_split (recs : List Rec) (l : List Nat) (h : ∀ i ∈ l, kindAt recs i ≠ .recv) :
    (l.filter (isData recs)).length + (l.filter (isAck recs)).length = l.length := by
  induction l with
  | nil => rfl
  | cons a l ih =>
    have ih := ih fun i hi => h i (List.mem_cons_of_mem _ hi)
    have ha := h a (List.mem_cons_self ..)
    simp only [List.filter_cons, List.length_cons]
    obtain ⟨k, hk⟩ : ∃ k, kindAt recs a = k := ⟨_, rfl⟩
    have h1 : isData recs a = (k == .data) := by rw [isData, hk]
    have h2 : isAck recs a = (k == .ack) := by rw [isAck, hk]
    rw [h1, h2]
    rw [hk] at ha
    cases k with
    | data => rw [if_pos (by decide), if_neg (by decide), List.length_cons]; omega
    | recv => exact absurd rfl ha
    | ack => rw [if_neg (by decide), if_pos (by decide), List.length_cons]; omega

theorem Base.count {c : Cfg} {w : Node} (h : Base c w) :
    (ids w).length = w.inSize + w.outSize + (if w.busy then 1 else 0) := by
  have := filter_split w.recs w.netSend h.kSend
  have := h.nAck
  have := h.insz
  have := h.outsz
  simp only [ids, List.length_append]
  omega

theorem takeRec_spec {c : Cfg} {w : Node} (h : Base c w) (hl : (ids w).length < w.recs.length) (k : Kind) (e b : Nat) :
    ∃ id cnt', takeRec w k e b = some (id, { w with recs := w.recs.set id ⟨true, k, e, b⟩, counter := cnt' }) ∧
      id < w.recs.length ∧ id ∉ ids w ∧ cnt' < w.recs.length := by
  unfold takeRec
  have h1 := takeLoop_some w.recs w.recs.length w.counter h.cnt
  have h2 := takeLoop_all w.recs w.counter h.cnt
  generalize takeLoop w.recs w.recs.length w.counter = t at h1 h2
  obtain ⟨r, cnt'⟩ := t
  dsimp only at h1 h2
  cases r with
  | none =>
    exfalso
    have h2 := h2 rfl
    have hs : List.range w.recs.length ⊆ ids w := by
      intro i hi
      have hi : i < w.recs.length := List.mem_range.mp hi
      exact (h.used i hi).mp (h2 i hi)
    have := (List.nodup_range.subperm hs).length_le
    simp at this
    omega
  | some id =>
    obtain ⟨h3, h4⟩ := h1.2 id rfl
    refine ⟨id, cnt', rfl, h3, ?_, h1.1⟩
    intro hm
    have := (h.used id h3).mpr hm
    simp [h4] at this

theorem filter_set (recs : List Rec) (id : Nat) (r : Rec) (hid : id < recs.length) (l : List Nat) (h : id ∉ l) :
    l.filter (isData (recs.set id r)) = l.filter (isData recs) ∧
    l.filter (isAck (recs.set id r)) = l.filter (isAck recs) ∧
    l.map (bufAt (recs.set id r)) = l.map (bufAt recs) := by
  refine ⟨List.filter_congr ?_, List.filter_congr ?_, List.map_congr_left ?_⟩ <;> intro i hi <;>
    have hne : i ≠ id := (fun hh => h (hh ▸ hi))
  · simp [isData, kindAt_set _ _ _ _ hid, hne]
  · simp [isAck, kindAt_set _ _ _ _ hid, hne]
  · simp [bufAt_set _ _ _ _ hid, hne]


section alloc
variable {c : Cfg} {w : Node} {id cnt' : Nat} {r : Rec}

theorem mem_ids {w : Node} {i : Nat} : i ∈ ids w ↔ i ∈ w.netRecv ∨ i ∈ w.netSend ∨ i ∈ w.sendQ := by
  simp [ids]

theorem nodup_mid {l m n : List Nat} {x : Nat} (h : (l ++ (m ++ n)).Nodup) (hx : x ∉ l ++ (m ++ n)) :
    (l ++ (m ++ [x] ++ n)).Nodup := by
  have hp : List.Perm (l ++ (m ++ [x] ++ n)) (x :: (l ++ (m ++ n))) := by
    rw [List.perm_iff_count]; intro a; simp only [List.count_append, List.count_cons, List.count_nil]; omega
  exact hp.nodup_iff.mpr (List.nodup_cons.mpr ⟨hx, h⟩)

/-- A new receive operation. -/
theorem Base.post (h : Base c w) (hid : id < w.recs.length) (hn : id ∉ ids w) (hc : cnt' < w.recs.length)
    (hr : if c.isInp then w.inSize + 1 + w.outq.length ≤ c.oqCap else w.inSize + 1 ≤ c.inCap) :
    Base c { w with recs := w.recs.set id ⟨true, .recv, 0, 0⟩, counter := cnt', inSize := w.inSize + 1,
                    netRecv := w.netRecv ++ [id] } := by
  have hn' := fun h' => hn (mem_ids.mpr h')
  have h1 : id ∉ w.netRecv := fun h => hn' (Or.inl h)
  have h2 : id ∉ w.netSend := fun h => hn' (Or.inr (Or.inl h))
  have h3 : id ∉ w.sendQ := fun h => hn' (Or.inr (Or.inr h))
  have f1 := filter_set w.recs id ⟨true, .recv, 0, 0⟩ hid w.netSend h2
  have f2 := filter_set w.recs id ⟨true, .recv, 0, 0⟩ hid w.sendQ h3
  have f3 := (filter_set w.recs id ⟨true, .recv, 0, 0⟩ hid (w.netSend.filter (isData w.recs))
    (fun h => h2 (List.mem_filter.mp h).1)).2.2
  have hne : ∀ i, i ∈ ids w → i ≠ id := fun i hi hh => hn (hh ▸ hi)
  constructor <;> dsimp only [ids] <;> try simp only [List.length_set]
  · exact h.len
  · exact hc
  · have := h.nodup
    simp only [ids, List.nodup_append, List.mem_append, List.mem_singleton, List.nodup_singleton] at this ⊢
    grind
  · intro i hi
    rw [usedAt_set _ _ _ _ hid]
    have := h.used i hi
    rw [mem_ids] at this
    simp only [List.mem_append, List.mem_singleton]
    by_cases hh : i = id
    · simp [hh]
    · rw [if_neg hh, this]; grind
  · intro i hi
    simp only [List.mem_append, List.mem_singleton] at hi
    by_cases hh : i = id
    · rw [hh]; exact hid
    · exact h.valid i (mem_ids.mpr (by grind))
  · intro i hi
    simp only [List.mem_append, List.mem_singleton] at hi
    rw [kindAt_set _ _ _ _ hid]
    by_cases hh : i = id
    · simp [hh]
    · rw [if_neg hh]; exact h.kRecv i (by grind)
  · intro i hi
    rw [kindAt_set _ _ _ _ hid, if_neg (hne i (mem_ids.mpr (Or.inr (Or.inr hi))))]
    exact h.kQ i hi
  · intro i hi
    rw [kindAt_set _ _ _ _ hid, if_neg (hne i (mem_ids.mpr (Or.inr (Or.inl hi))))]
    exact h.kSend i hi
  · rw [f1.2.1]; exact h.nAck
  · rw [h.insz]; simp
  · rw [f1.1]; exact h.outsz
  · rw [f1.1, List.map_append, f3, f2.2.2, ← List.map_append]; exact h.cont
  · exact h.portle
  · have := h.room
    split at this
    · rename_i hi
      rw [if_pos hi] at hr ⊢; exact hr
    · rename_i hi
      rw [if_neg hi] at hr ⊢; exact ⟨hr, this.2⟩
  · exact h.busyInp
  · exact h.noQ

/-- A new acknowledge packet. -/
theorem Base.ackn (h : Base c w) (hid : id < w.recs.length) (hn : id ∉ ids w) (hc : cnt' < w.recs.length)
    (hb : w.busy = false) (hi : c.isInp = true ∧ c.ackn = true) (e rd : Nat) (wire : List Pkt) (first : Bool) :
    Base c { w with recs := w.recs.set id ⟨true, .ack, e, 0⟩, counter := cnt', busy := true, ready := rd, first := first,
                    netSend := w.netSend ++ [id], wire := wire } := by
  have hn' := fun h' => hn (mem_ids.mpr h')
  have h1 : id ∉ w.netRecv := fun h => hn' (Or.inl h)
  have h2 : id ∉ w.netSend := fun h => hn' (Or.inr (Or.inl h))
  have h3 : id ∉ w.sendQ := fun h => hn' (Or.inr (Or.inr h))
  have f1 := filter_set w.recs id ⟨true, .ack, e, 0⟩ hid w.netSend h2
  have f2 := filter_set w.recs id ⟨true, .ack, e, 0⟩ hid w.sendQ h3
  have f3 := (filter_set w.recs id ⟨true, .ack, e, 0⟩ hid (w.netSend.filter (isData w.recs))
    (fun h => h2 (List.mem_filter.mp h).1)).2.2
  have hne : ∀ i, i ∈ ids w → i ≠ id := fun i hi hh => hn (hh ▸ hi)
  have hk : kindAt (w.recs.set id ⟨true, .ack, e, 0⟩) id = .ack := by rw [kindAt_set _ _ _ _ hid, if_pos rfl]
  have hd : isData (w.recs.set id ⟨true, .ack, e, 0⟩) id = false := by simp [isData, hk]
  have ha : isAck (w.recs.set id ⟨true, .ack, e, 0⟩) id = true := by simp [isAck, hk]
  have g1 : (w.netSend ++ [id]).filter (isData (w.recs.set id ⟨true, .ack, e, 0⟩)) =
      w.netSend.filter (isData w.recs) := by
    rw [List.filter_append, f1.1, List.filter_cons, hd]; simp
  have g2 : (w.netSend ++ [id]).filter (isAck (w.recs.set id ⟨true, .ack, e, 0⟩)) =
      w.netSend.filter (isAck w.recs) ++ [id] := by
    rw [List.filter_append, f1.2.1, List.filter_cons, ha]; simp
  constructor <;> dsimp only [ids] <;> try simp only [List.length_set]
  · exact h.len
  · exact hc
  · exact nodup_mid h.nodup hn
  · intro i hi
    rw [usedAt_set _ _ _ _ hid]
    have := h.used i hi
    rw [mem_ids] at this
    simp only [List.mem_append, List.mem_singleton]
    by_cases hh : i = id
    · simp [hh]
    · rw [if_neg hh, this]; grind
  · intro i hi
    simp only [List.mem_append, List.mem_singleton] at hi
    by_cases hh : i = id
    · rw [hh]; exact hid
    · exact h.valid i (mem_ids.mpr (by grind))
  · intro i hi
    rw [kindAt_set _ _ _ _ hid, if_neg (hne i (mem_ids.mpr (Or.inl hi)))]
    exact h.kRecv i hi
  · intro i hi
    rw [kindAt_set _ _ _ _ hid, if_neg (hne i (mem_ids.mpr (Or.inr (Or.inr hi))))]
    exact h.kQ i hi
  · intro i hi
    simp only [List.mem_append, List.mem_singleton] at hi
    by_cases hh : i = id
    · rw [hh, hk]; decide
    · rw [kindAt_set _ _ _ _ hid, if_neg hh]; exact h.kSend i (by grind)
  · rw [g2, List.length_append, h.nAck, hb]; rfl
  · exact h.insz
  · rw [g1]; exact h.outsz
  · rw [g1, List.map_append, f3, f2.2.2, ← List.map_append]; exact h.cont
  · exact h.portle
  · exact h.room
  · intro _; exact hi
  · exact h.noQ

/-- A data record which waits for permission. -/
theorem Base.queue (h : Base c w) (hid : id < w.recs.length) (hn : id ∉ ids w) (hc : cnt' < w.recs.length)
    (hs : 0 < c.sendCap) (b : Nat) (hb : w.port[w.outSize]? = some b) :
    Base c { w with recs := w.recs.set id ⟨true, .data, 0, b⟩, counter := cnt', outSize := w.outSize + 1,
                    sendQ := w.sendQ ++ [id] } := by
  have hn' := fun h' => hn (mem_ids.mpr h')
  have h1 : id ∉ w.netRecv := fun h => hn' (Or.inl h)
  have h2 : id ∉ w.netSend := fun h => hn' (Or.inr (Or.inl h))
  have h3 : id ∉ w.sendQ := fun h => hn' (Or.inr (Or.inr h))
  have f1 := filter_set w.recs id ⟨true, .data, 0, b⟩ hid w.netSend h2
  have f2 := filter_set w.recs id ⟨true, .data, 0, b⟩ hid w.sendQ h3
  have f3 := (filter_set w.recs id ⟨true, .data, 0, b⟩ hid (w.netSend.filter (isData w.recs))
    (fun h => h2 (List.mem_filter.mp h).1)).2.2
  have hne : ∀ i, i ∈ ids w → i ≠ id := fun i hi hh => hn (hh ▸ hi)
  have hk : kindAt (w.recs.set id ⟨true, .data, 0, b⟩) id = .data := by rw [kindAt_set _ _ _ _ hid, if_pos rfl]
  have hbf : bufAt (w.recs.set id ⟨true, .data, 0, b⟩) id = b := by rw [bufAt_set _ _ _ _ hid, if_pos rfl]
  constructor <;> dsimp only [ids] <;> try simp only [List.length_set]
  · exact h.len
  · exact hc
  · have := h.nodup
    simp only [ids, List.nodup_append, List.mem_append, List.mem_singleton, List.nodup_singleton] at this ⊢
    grind
  · intro i hi
    rw [usedAt_set _ _ _ _ hid]
    have := h.used i hi
    rw [mem_ids] at this
    simp only [List.mem_append, List.mem_singleton]
    by_cases hh : i = id
    · simp [hh]
    · rw [if_neg hh, this]; grind
  · intro i hi
    simp only [List.mem_append, List.mem_singleton] at hi
    by_cases hh : i = id
    · rw [hh]; exact hid
    · exact h.valid i (mem_ids.mpr (by grind))
  · intro i hi
    rw [kindAt_set _ _ _ _ hid, if_neg (hne i (mem_ids.mpr (Or.inl hi)))]
    exact h.kRecv i hi
  · intro i hi
    simp only [List.mem_append, List.mem_singleton] at hi
    by_cases hh : i = id
    · rw [hh, hk]
    · rw [kindAt_set _ _ _ _ hid, if_neg hh]; exact h.kQ i (by grind)
  · intro i hi
    rw [kindAt_set _ _ _ _ hid, if_neg (hne i (mem_ids.mpr (Or.inr (Or.inl hi))))]
    exact h.kSend i hi
  · rw [f1.2.1]; exact h.nAck
  · exact h.insz
  · rw [f1.1, List.length_append]; have := h.outsz; simp only [List.length_singleton]; omega
  · rw [f1.1, ← List.append_assoc, List.map_append, List.map_append, f3, f2.2.2, ← List.map_append, h.cont, List.take_add_one, hb]
    simp [hbf]
  · exact h.portle
  · exact h.room
  · exact h.busyInp
  · intro h0; omega

/-- A data record which is sent at once. -/
theorem Base.direct (h : Base c w) (hid : id < w.recs.length) (hn : id ∉ ids w) (hc : cnt' < w.recs.length)
    (hs : c.sendCap = 0) (b : Nat) (hb : w.port[w.outSize]? = some b) (wire : List Pkt) :
    Base c { w with recs := w.recs.set id ⟨true, .data, 0, b⟩, counter := cnt', outSize := w.outSize + 1,
                    netSend := w.netSend ++ [id], wire := wire } := by
  have hn' := fun h' => hn (mem_ids.mpr h')
  have h1 : id ∉ w.netRecv := fun h => hn' (Or.inl h)
  have h2 : id ∉ w.netSend := fun h => hn' (Or.inr (Or.inl h))
  have h3 : id ∉ w.sendQ := fun h => hn' (Or.inr (Or.inr h))
  have f1 := filter_set w.recs id ⟨true, .data, 0, b⟩ hid w.netSend h2
  have f3 := (filter_set w.recs id ⟨true, .data, 0, b⟩ hid (w.netSend.filter (isData w.recs))
    (fun h => h2 (List.mem_filter.mp h).1)).2.2
  have hne : ∀ i, i ∈ ids w → i ≠ id := fun i hi hh => hn (hh ▸ hi)
  have hk : kindAt (w.recs.set id ⟨true, .data, 0, b⟩) id = .data := by rw [kindAt_set _ _ _ _ hid, if_pos rfl]
  have hbf : bufAt (w.recs.set id ⟨true, .data, 0, b⟩) id = b := by rw [bufAt_set _ _ _ _ hid, if_pos rfl]
  have hd : isData (w.recs.set id ⟨true, .data, 0, b⟩) id = true := by simp [isData, hk]
  have ha : isAck (w.recs.set id ⟨true, .data, 0, b⟩) id = false := by simp [isAck, hk]
  have g1 : (w.netSend ++ [id]).filter (isData (w.recs.set id ⟨true, .data, 0, b⟩)) =
      w.netSend.filter (isData w.recs) ++ [id] := by
    rw [List.filter_append, f1.1, List.filter_cons, hd]; simp
  have g2 : (w.netSend ++ [id]).filter (isAck (w.recs.set id ⟨true, .data, 0, b⟩)) =
      w.netSend.filter (isAck w.recs) := by
    rw [List.filter_append, f1.2.1, List.filter_cons, ha]; simp
  have hq := h.noQ hs
  have hcont := h.cont
  have hout := h.outsz
  rw [hq] at hcont hout
  rw [List.append_nil] at hcont
  constructor <;> dsimp only [ids] <;> try simp only [List.length_set]
  · exact h.len
  · exact hc
  · exact nodup_mid h.nodup hn
  · intro i hi
    rw [usedAt_set _ _ _ _ hid]
    have := h.used i hi
    rw [mem_ids] at this
    simp only [List.mem_append, List.mem_singleton]
    by_cases hh : i = id
    · simp [hh]
    · rw [if_neg hh, this]; grind
  · intro i hi
    simp only [List.mem_append, List.mem_singleton] at hi
    by_cases hh : i = id
    · rw [hh]; exact hid
    · exact h.valid i (mem_ids.mpr (by grind))
  · intro i hi
    rw [kindAt_set _ _ _ _ hid, if_neg (hne i (mem_ids.mpr (Or.inl hi)))]
    exact h.kRecv i hi
  · intro i hi
    rw [hq] at hi; exact absurd hi (by simp)
  · intro i hi
    simp only [List.mem_append, List.mem_singleton] at hi
    by_cases hh : i = id
    · rw [hh, hk]; decide
    · rw [kindAt_set _ _ _ _ hid, if_neg hh]; exact h.kSend i (by grind)
  · rw [g2]; exact h.nAck
  · exact h.insz
  · rw [g1, List.length_append, hq]; simp only [List.length_singleton, List.length_nil] at hout ⊢; omega
  · rw [g1, hq, List.append_nil, List.map_append, f3, hcont, List.take_add_one, hb]
    simp [hbf]
  · exact h.portle
  · exact h.room
  · exact h.busyInp
  · exact h.noQ

/-- The first waiting record is sent. -/
theorem Base.submit (h : Base c w) {q : List Nat} (hq : w.sendQ = id :: q) (wire : List Pkt) (al : Nat) :
    Base c { w with netSend := w.netSend ++ [id], sendQ := q, wire := wire, allowed := al } := by
  have hk : kindAt w.recs id = .data := h.kQ id (by rw [hq]; exact List.mem_cons_self ..)
  have hd : isData w.recs id = true := by simp [isData, hk]
  have ha : isAck w.recs id = false := by simp [isAck, hk]
  have g1 : (w.netSend ++ [id]).filter (isData w.recs) = w.netSend.filter (isData w.recs) ++ [id] := by
    rw [List.filter_append, List.filter_cons, hd]; simp
  have g2 : (w.netSend ++ [id]).filter (isAck w.recs) = w.netSend.filter (isAck w.recs) := by
    rw [List.filter_append, List.filter_cons, ha]; simp
  have hids : w.netRecv ++ (w.netSend ++ [id] ++ q) = ids w := by simp [ids, hq]
  constructor <;> dsimp only [ids] <;> try rw [hids]
  · exact h.len
  · exact h.cnt
  · exact h.nodup
  · exact h.used
  · exact h.valid
  · exact h.kRecv
  · intro i hi; exact h.kQ i (by rw [hq]; exact List.mem_cons_of_mem _ hi)
  · intro i hi
    simp only [List.mem_append, List.mem_singleton] at hi
    rcases hi with hi | hi
    · exact h.kSend i hi
    · rw [hi, hk]; decide
  · rw [g2]; exact h.nAck
  · exact h.insz
  · rw [g1, List.length_append]; have := h.outsz; rw [hq] at this
    simp only [List.length_cons, List.length_nil] at this ⊢; omega
  · rw [g1]; have := h.cont; rw [hq] at this; simpa using this
  · exact h.portle
  · exact h.room
  · exact h.busyInp
  · intro h0; exact absurd (h.noQ h0) (by rw [hq]; simp)

end alloc

end Verif.NetTr
