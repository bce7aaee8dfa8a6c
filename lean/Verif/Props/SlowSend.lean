import Verif.Spec.SlowSend
import Verif.Props.SlowData
/-!
# C110: events with slow control records
-/

namespace Verif.SlowSend
open Verif.Bytes Verif.SlowData Verif.SlowSend.Spec

/-! ## Input from EPICS -/

/-- With a receiver one command is submitted for each observed change of the flag, with the new flag; otherwise none. -/
theorem C110_commands (c : Cfg) (hf : c.flagRec = true) (ps : List Poll) : ∀ s : E,
    (polls c ps s).1 = if c.receiver then (changed s.last ps).filterMap (·.flag) else [] := by
  induction ps with
  | nil => intro s; simp [polls, changed]
  | cons p ps ih =>
    intro s
    obtain ⟨fl, pid⟩ := p
    cases fl with
    | none => simp [polls, poll, readSize, hf, changed, ih]
    | some f =>
      by_cases h : f = s.last
      · simp [polls, poll, readSize, hf, changed, ih, h]
      · rcases hr : c.receiver <;> rcases hi : c.idRec <;> cases pid <;>
          simp [polls, poll, readSize, readNumber, hf, changed, ih, h, hr, hi]

/-- Flags 0, 5, 5, error, 7, 0 give commands 5, 7, 0. -/
example : (polls ⟨true, false, true⟩ [⟨some 0, none⟩, ⟨some 5, none⟩, ⟨some 5, none⟩, ⟨none, none⟩, ⟨some 7, none⟩, ⟨some 0, none⟩] {}).1
    = [5, 7, 0] := by decide

/-- When the event number can always be read, each observed change of the flag gives one event: with the number read in this round,
or, without a record for it, with consecutive numbers.  Missing: an event for a change while the number cannot be read. -/
theorem C110_changes_are_read_partial (c : Cfg) (hf : c.flagRec = true) (ps : List Poll)
    (hid : c.idRec = true → ∀ p ∈ ps, p.id ≠ none) : ∀ s : E,
    (polls c ps s).2.filterMap id =
      if c.idRec then (changed s.last ps).map fun p => (p.id.getD 0 % 2 ^ 32).toNat
      else (List.range' s.counter (changed s.last ps).length).map (· % 2 ^ 32) := by
  induction ps with
  | nil => intro s; simp [polls, changed]
  | cons p ps ih =>
    intro s
    have ih := ih fun h q hq => hid h q (List.mem_cons_of_mem _ hq)
    have hp := fun h => hid h p List.mem_cons_self
    clear hid
    obtain ⟨fl, pid⟩ := p
    cases fl with
    | none => simp [polls, poll, readSize, hf, changed, ih]
    | some f =>
      by_cases h : f = s.last
      · simp [polls, poll, readSize, hf, changed, ih, h]
      · rcases hi : c.idRec with _ | _
        · simp only [hi] at ih
          simp only [polls, poll, readSize, readNumber, hf, changed, h, hi, if_true, if_false, Bool.false_eq_true, List.filterMap_cons, id, ih,
            List.length_cons, List.range'_succ, List.map_cons]
          have e : ((s.counter : Int) % 2 ^ 32).toNat = s.counter % 2 ^ 32 := by omega
          rw [e]
        · cases pid with
          | none => exact absurd rfl (hp hi)
          | some v =>
            simp only [hi] at ih
            simp [polls, poll, readSize, readNumber, hf, changed, h, hi, ih]

example : (polls ⟨true, true, true⟩ [⟨some 0, some 3⟩, ⟨some 5, some 4⟩, ⟨some 5, some 9⟩, ⟨none, some 1⟩, ⟨some 0, some (-1)⟩] {}).2
    = [none, some 4, none, none, some 4294967295] := by decide

/-- A change of the flag in a round where the event number cannot be read is lost: the command is submitted, but no event follows as
long as the flag stays, although the number can be read. -/
theorem C110_lost_change_counterexample (s : E) (f v : Int) (h : f ≠ s.last) (n : Nat) :
    polls ⟨true, true, true⟩ (⟨some f, none⟩ :: List.replicate n ⟨some f, some v⟩) s = ([f], List.replicate (n + 1) none) := by
  have key : ∀ n (t : E), t.last = f → polls ⟨true, true, true⟩ (List.replicate n ⟨some f, some v⟩) t = ([], List.replicate n none) := by
    intro n
    induction n with
    | zero => intro t _; rfl
    | succ n ih =>
      intro t ht
      simp [List.replicate_succ, polls, poll, readSize, ht, ih t ht]
  simp [polls, poll, readSize, readNumber, h, key, List.replicate_succ]

/-- Without record for the flag, two rounds in a row never both give an event. -/
theorem C110_reading_is_paced (c : Cfg) (hf : c.flagRec = false) (ps : List Poll) : ∀ (s : E) (i : Nat) (a b : Nat),
    ¬ ((polls c ps s).2[i]? = some (some a) ∧ (polls c ps s).2[i + 1]? = some (some b)) := by
  have step0 : ∀ (p : Poll) (s : E), s.last ≠ 0 → (poll c p s).2.2 = none := by
    intro p s h; simp [poll, readSize, hf, h]
  have step1 : ∀ (p : Poll) (s : E), (poll c p s).2.2 ≠ none → (poll c p s).1.last ≠ 0 := by
    intro p s
    by_cases h : s.last = 0
    · rcases hi : c.idRec with _ | _
      · simp [poll, readSize, readNumber, hf, h, hi]
      · rcases hq : p.id with _ | v <;> simp [poll, readSize, readNumber, hf, h, hi, hq]
    · intro h2; exact absurd (step0 p s h) h2
  induction ps with
  | nil => intro s i a b h; simp [polls] at h
  | cons p ps ih =>
    intro s i a b h
    cases i with
    | succ i =>
      apply ih (poll c p s).1 i a b
      simpa [polls] using h
    | zero =>
      obtain ⟨h1, h2⟩ := h
      have h1 : (poll c p s).2.2 = some a := by simpa [polls] using h1
      have h2 : (polls c ps (poll c p s).1).2[0]? = some (some b) := by simpa [polls] using h2
      have h3 := step1 p s (by rw [h1]; simp)
      cases ps with
      | nil => simp [polls] at h2
      | cons q qs =>
        have h2 : (poll c q (poll c p s).1).2.2 = some b := by simpa [polls] using h2
        rw [step0 q _ h3] at h2
        cases h2

/-- Without record for the flag and with readable event numbers, every second round gives an event, beginning with the first. -/
theorem C110_reading_continues (c : Cfg) (hf : c.flagRec = false) (ps : List Poll)
    (hid : c.idRec = true → ∀ p ∈ ps, p.id ≠ none) (i : Nat) (hi : i < ps.length) :
    ∃ o, (polls c ps {}).2[i]? = some o ∧ (o.isSome ↔ i % 2 = 0) := by
  have key : ∀ (ps : List Poll) (s : E) (i : Nat), (c.idRec = true → ∀ p ∈ ps, p.id ≠ none) → i < ps.length →
      ∃ o, (polls c ps s).2[i]? = some o ∧ (o.isSome ↔ (s.last = 0 ∧ i % 2 = 0 ∨ s.last ≠ 0 ∧ i % 2 = 1)) := by
    intro ps
    induction ps with
    | nil => intro s i _ hi; simp at hi
    | cons p ps ih =>
      intro s i hid hi
      have hp := fun h => hid h p List.mem_cons_self
      have hps := fun h q hq => hid h q (List.mem_cons_of_mem p hq)
      have st : ((poll c p s).2.2.isSome ↔ s.last = 0) ∧ ((poll c p s).1.last = 0 ↔ s.last ≠ 0) := by
        by_cases h : s.last = 0
        · rcases hj : c.idRec with _ | _
          · simp [poll, readSize, readNumber, hf, h, hj]
          · rcases hq : p.id with _ | v
            · exact absurd hq (hp hj)
            · simp [poll, readSize, readNumber, hf, h, hj, hq]
        · simp [poll, readSize, hf, h]
      cases i with
      | zero =>
        refine ⟨(poll c p s).2.2, by simp [polls], ?_⟩
        rw [st.1]; simp
      | succ i =>
        obtain ⟨o, ho, hh⟩ := ih (poll c p s).1 i hps (by simpa using hi)
        refine ⟨o, by simpa [polls] using ho, ?_⟩
        rw [hh, Ne, st.2]
        by_cases h : s.last = 0 <;> simp [h] <;> omega
  obtain ⟨o, ho, hh⟩ := key ps {} i hid hi
  exact ⟨o, ho, by rw [hh]; simp⟩

example : (polls ⟨false, false, true⟩ [{}, {}, {}, {}, {}] {}).2 = [some 0, none, some 1, none, some 2] := by decide

theorem addLongs_eq (bs : List Bool) : ∀ (ns : List (List Byte)) (vs : List (BitVec 64)) (r : R),
    bs.length = ns.length → vs.length = ns.length → r.longNames.length = r.longs.length →
    addLongs bs ns vs r = { r with longNames := r.longNames ++ marked ns bs, longs := r.longs ++ marked vs bs } := by
  induction bs with
  | nil => intro ns vs r h1 h2 _; cases ns <;> cases vs <;> simp_all [addLongs, marked]
  | cons b bs ih =>
    intro ns vs r h1 h2 h3
    cases ns with
    | nil => cases h1
    | cons n ns =>
      cases vs with
      | nil => cases h2
      | cons v vs =>
        simp only [List.length_cons, Nat.add_right_cancel_iff] at h1 h2
        cases b with
        | false => simp only [addLongs, Bool.false_eq_true, if_false]; rw [ih ns vs r h1 h2 h3]; simp [marked]
        | true =>
          simp only [addLongs, if_true]
          have e : addLong n v false r = { r with longNames := r.longNames ++ [n], longs := r.longs ++ [v] } := by
            simp [addLong, C109_add_plain n v r.longNames r.longs h3]
          rw [e, ih ns vs _ h1 h2 (by simp [h3])]
          simp [marked]

theorem addDoubles_eq (bs : List Bool) : ∀ (ns : List (List Byte)) (vs : List (BitVec 64)) (r : R),
    bs.length = ns.length → vs.length = ns.length → r.doubleNames.length = r.doubles.length →
    addDoubles bs ns vs r = { r with doubleNames := r.doubleNames ++ marked ns bs, doubles := r.doubles ++ marked vs bs } := by
  induction bs with
  | nil => intro ns vs r h1 h2 _; cases ns <;> cases vs <;> simp_all [addDoubles, marked]
  | cons b bs ih =>
    intro ns vs r h1 h2 h3
    cases ns with
    | nil => cases h1
    | cons n ns =>
      cases vs with
      | nil => cases h2
      | cons v vs =>
        simp only [List.length_cons, Nat.add_right_cancel_iff] at h1 h2
        cases b with
        | false => simp only [addDoubles, Bool.false_eq_true, if_false]; rw [ih ns vs r h1 h2 h3]; simp [marked]
        | true =>
          simp only [addDoubles, if_true]
          have e : addDouble n v false r = { r with doubleNames := r.doubleNames ++ [n], doubles := r.doubles ++ [v] } := by
            simp [addDouble, C109_add_plain n v r.doubleNames r.doubles h3]
          rw [e, ih ns vs _ h1 h2 (by simp [h3])]
          simp [marked]

theorem report_some (cs : List Bool) : ∀ (i : Nat) (ls ds : List Bool), i + cs.length ≤ ls.length + ds.length →
    ∃ ls' ds', report cs i ls ds = some (ls', ds') ∧ ls'.length = ls.length ∧ ds'.length = ds.length ∧
      ∀ k : Nat, (ls' ++ ds')[k]? = if i ≤ k ∧ k < i + cs.length then cs[k - i]? else (ls ++ ds)[k]? := by
  induction cs with
  | nil =>
    intro i ls ds _
    refine ⟨ls, ds, rfl, rfl, rfl, fun k => ?_⟩
    rw [if_neg (fun h => by simp at h; omega)]
  | cons c cs ih =>
    intro i ls ds h
    rw [List.length_cons] at h
    have main : ∀ ls1 ds1 : List Bool, ls1.length = ls.length → ds1.length = ds.length → ls1 ++ ds1 = (ls ++ ds).set i c →
        report (c :: cs) i ls ds = report cs (i + 1) ls1 ds1 →
        ∃ ls' ds', report (c :: cs) i ls ds = some (ls', ds') ∧ ls'.length = ls.length ∧ ds'.length = ds.length ∧
          ∀ k : Nat, (ls' ++ ds')[k]? = if i ≤ k ∧ k < i + (c :: cs).length then (c :: cs)[k - i]? else (ls ++ ds)[k]? := by
      intro ls1 ds1 h1 h2 h3 h4
      obtain ⟨ls', ds', e1, e2, e3, e4⟩ := ih (i + 1) ls1 ds1 (by omega)
      refine ⟨ls', ds', h4.trans e1, by omega, by omega, fun k => ?_⟩
      rw [e4, h3, List.getElem?_set, List.length_cons, List.length_append]
      by_cases hk : k = i
      · rw [if_neg (by omega), if_pos hk.symm, if_pos (by omega), if_pos (by omega), hk]; simp
      · by_cases hk2 : i + 1 ≤ k ∧ k < i + 1 + cs.length
        · rw [if_pos hk2, if_pos (by omega)]
          have : k - i = k - (i + 1) + 1 := by omega
          rw [this, List.getElem?_cons_succ]
        · rw [if_neg hk2, if_neg (fun h => hk h.symm), if_neg (by omega)]
    by_cases h1 : i < ls.length
    · exact main (ls.set i c) ds (by simp) rfl (by rw [List.set_append_left _ _ h1]) (by simp only [report, if_pos h1])
    · exact main ls (ds.set (i - ls.length) c) rfl (by simp) (by rw [List.set_append_right _ _ (by omega)])
        (by simp only [report, if_neg h1]; rw [if_pos (by omega)])

theorem report_none (cs : List Bool) : ∀ (i : Nat) (ls ds : List Bool), ls.length + ds.length < i + cs.length →
    i ≤ ls.length + ds.length → report cs i ls ds = none := by
  induction cs with
  | nil => intro i ls ds h1 h2; simp at h1; omega
  | cons c cs ih =>
    intro i ls ds h1 h2
    rw [List.length_cons] at h1
    rw [report]
    split
    · apply ih <;> rw [List.length_set] <;> omega
    · split
      · apply ih <;> rw [List.length_set] <;> omega
      · rfl

/-- What the record of an event contains, for any report of the group: nothing reported stands for success.  When the
library reports more values than were requested, memory behind the vectors is written. -/
theorem C110_record (lns : List (List Byte)) (lvs : List (BitVec 64)) (dns : List (List Byte)) (dvs : List (BitVec 64))
    (hl : lvs.length = lns.length) (hd : dvs.length = dns.length) (codes : Option (List Bool)) :
    (lns.length + dns.length < (codes.getD []).length → collect lns lvs dns dvs codes = none) ∧
    ((codes.getD []).length ≤ lns.length + dns.length → ∀ ok, ok = codes.getD [] ++
        List.replicate (lns.length + dns.length - (codes.getD []).length) true →
      collect lns lvs dns dvs codes = some
        { longNames := marked lns (ok.take lns.length), longs := marked lvs (ok.take lns.length)
          doubleNames := marked dns (ok.drop lns.length), doubles := marked dvs (ok.drop lns.length) }) := by
  have fin : ∀ ls ds : List Bool, ls.length = lns.length → ds.length = dns.length →
      addDoubles ds dns dvs (addLongs ls lns lvs {}) =
        { longNames := marked lns ls, longs := marked lvs ls, doubleNames := marked dns ds, doubles := marked dvs ds } := by
    intro ls ds h1 h2
    rw [addLongs_eq ls lns lvs {} h1 hl rfl, addDoubles_eq ds dns dvs _ h2 hd rfl]
    simp
  cases codes with
  | none =>
    refine ⟨fun h => by simp at h, fun _ ok hok => ?_⟩
    simp only [collect]
    rw [fin _ _ (by simp) (by simp), hok]
    simp
  | some cs =>
    constructor
    · intro h
      have h : lns.length + dns.length < cs.length := h
      simp only [collect]
      rw [report_none cs 0 _ _ (by simpa using h) (by omega)]
    · intro h ok hok
      have h : cs.length ≤ lns.length + dns.length := h
      have hok : ok = cs ++ List.replicate (lns.length + dns.length - cs.length) true := hok
      obtain ⟨ls', ds', e1, e2, e3, e4⟩ := report_some cs 0 (List.replicate lns.length true) (List.replicate dns.length true)
        (by simpa using h)
      rw [List.length_replicate] at e2 e3
      have e : ls' ++ ds' = ok := by
        apply List.ext_getElem?
        intro k
        rw [e4, hok, List.replicate_append_replicate, List.getElem?_append, Nat.zero_add, Nat.sub_zero]
        by_cases hk : k < cs.length
        · rw [if_pos ⟨Nat.zero_le _, hk⟩, if_pos hk]
        · rw [if_neg (by omega), if_neg hk, List.getElem?_replicate, List.getElem?_replicate]
          by_cases h5 : k < lns.length + dns.length
          · rw [if_pos h5, if_pos (by omega)]
          · rw [if_neg h5, if_neg (by omega)]
      have e5 : ok.take lns.length = ls' := by rw [← e, ← e2, List.take_left]
      have e6 : ok.drop lns.length = ds' := by rw [← e, ← e2, List.drop_left]
      simp only [collect, e1]
      rw [fin ls' ds' e2 e3, e5, e6]

/-- When the report covers all values, the record has exactly those which were read.  Missing: a failing group with an empty or short
report, see `C110_unread_counterexample`. -/
theorem C110_read_values_partial (lns : List (List Byte)) (lvs : List (BitVec 64)) (dns : List (List Byte)) (dvs : List (BitVec 64))
    (hl : lvs.length = lns.length) (hd : dvs.length = dns.length) (lok dok : List Bool) (h1 : lok.length = lns.length)
    (h2 : dok.length = dns.length) :
    collect lns lvs dns dvs (some (lok ++ dok)) =
      some { longNames := marked lns lok, longs := marked lvs lok, doubleNames := marked dns dok, doubles := marked dvs dok } := by
  rw [(C110_record lns lvs dns dvs hl hd (some (lok ++ dok))).2 (by simp; omega) (lok ++ dok) (by simp [h1, h2])]
  rw [← h1, List.take_left, List.drop_left]

example : collect [[97], [98]] [5, 6] [[99]] [7] (some [false, true, true]) =
    some { longNames := [[98]], longs := [6], doubleNames := [[99]], doubles := [7] } := by decide

/-- A failing group with an empty report: the event contains every configured value, with the zero stored before reading. -/
theorem C110_unread_counterexample (lns : List (List Byte)) (dns : List (List Byte)) :
    collect lns (List.replicate lns.length 0) dns (List.replicate dns.length 0) (some []) =
      some { longNames := lns, longs := List.replicate lns.length 0, doubleNames := dns, doubles := List.replicate dns.length 0 } := by
  have hm : ∀ {α : Type} (xs : List α), marked xs (List.replicate xs.length true) = xs := by
    intro α xs
    induction xs with
    | nil => rfl
    | cons x xs ih => simp only [marked] at ih; simp [marked, List.replicate_succ, ih]
  have hz : ∀ n : Nat, marked (List.replicate n (0 : BitVec 64)) (List.replicate n true) = List.replicate n 0 := by
    intro n; have := hm (List.replicate n (0 : BitVec 64)); rwa [List.length_replicate] at this
  rw [(C110_record lns _ dns _ (by simp) (by simp) (some [])).2 (by simp)
    (List.replicate lns.length true ++ List.replicate dns.length true) (by simp)]
  rw [List.take_left' (by simp), List.drop_left' (by simp), hm, hz, hm, hz]

/-! ## Monitors -/

/-- The events fit, and the filled size is that of the headers and records. -/
def Fits (b : Buf) : Prop := b.used = (b.evs.map fun p => 28 + (image p.2).length % 2 ^ 32).sum ∧ b.used ≤ b.cap

structure MInv (m : M) : Prop where
  last : m.last = lastTime m.sent
  held : ∀ b, m.buf = some b → Fits b
  sent : ∀ p ∈ m.sent, Fits p.2 ∧ p.2.evs ≠ []

theorem rawSize_image (r : R) : rawSize r = (image r).length % 2 ^ 32 := by rw [image_length]; rfl

theorem anyEvent_iff {m : M} (h : MInv m) {b : Buf} (hb : m.buf = some b) : anyEvent m = true ↔ b.evs ≠ [] := by
  have hf := (h.held b hb).1
  simp only [anyEvent, hb, bne_iff_ne, ne_eq]
  cases he : b.evs with
  | nil => rw [he] at hf; simp at hf; simp [hf]
  | cons e es => rw [he] at hf; simp only [List.map_cons, List.sum_cons] at hf; simp; omega

theorem send_inv {m : M} (h : MInv m) (t : Nat) (he : ∀ b, m.buf = some b → b.evs ≠ []) :
    MInv (send t m) ∧ events (send t m) = events m ∧ (send t m).number = m.number ∧ (send t m).buf = none := by
  unfold send
  split
  · rename_i hb; exact ⟨h, rfl, rfl, hb⟩
  · rename_i b hb
    refine ⟨⟨?_, ?_, ?_⟩, ?_, rfl, rfl⟩
    · simp [lastTime]
    · intro b' hb'; cases hb'
    · intro p hp
      rcases List.mem_append.1 hp with hp | hp
      · exact h.sent p hp
      · rw [List.mem_singleton] at hp; subst hp; exact ⟨h.held b hb, he b hb⟩
    · simp [events, hb]

theorem reset_inv {m : M} (h : MInv m) (hb : m.buf = none) (c : Nat) :
    MInv (reset c m) ∧ events (reset c m) = events m ∧ (reset c m).number = m.number := by
  unfold reset
  split
  · refine ⟨⟨h.last, ?_, h.sent⟩, ?_, rfl⟩
    · intro b hb; cases hb
    · simp [events, hb]
  · refine ⟨⟨h.last, ?_, h.sent⟩, ?_, rfl⟩
    · intro b hb; cases hb; exact ⟨rfl, Nat.zero_le _⟩
    · simp [events, hb]

/-- What one call does to the events: none added, or the record with the next number. -/
def Adds (r : R) (o : Out) (m m' : M) : Prop :=
  (o = .written ∧ m'.number = (m.number + 1) % 2 ^ 32 ∧
    events m' = events m ++ [((m.number + 1) % 2 ^ 32, { r with id := (m.number + 1) % 2 ^ 32 })]) ∨
  (o ≠ .written ∧ m'.number = m.number ∧ events m' = events m)

theorem write_inv {m : M} (h : MInv m) {r : R} (hp : place (rawSize r) m = true) :
    MInv (write r m) ∧ Adds r .written m (write r m) ∧ (∀ b, (write r m).buf = some b → b.evs ≠ []) ∧ (write r m).sent = m.sent := by
  unfold place at hp
  split at hp
  · cases hp
  · rename_i b hb
    have hp := of_decide_eq_true hp
    have hf := h.held b hb
    simp only [write, hb]
    refine ⟨⟨h.last, ?_, h.sent⟩, .inl ⟨rfl, rfl, ?_⟩, ?_, trivial⟩
    · intro b' hb'
      cases hb'
      refine ⟨?_, ?_⟩
      · have e : (image { r with id := (m.number + 1) % 2 ^ 32 }).length = (image r).length := by
          rw [image_length, image_length]; rfl
        simp only [List.map_append, List.map_cons, List.map_nil, List.sum_append, List.sum_cons, List.sum_nil, e]
        rw [← hf.1, rawSize_image]
        omega
      · have := hf.2
        show b.used + (16 + 12 + rawSize r) ≤ b.cap
        omega
    · simp [events, hb]
    · intro b' hb'; cases hb'; simp

theorem finish_inv (flush : Nat) {m : M} (h : MInv m) (r : R) (e : Env) :
    MInv (finish flush r e m).2 ∧ Adds r (finish flush r e m).1 m (finish flush r e m).2 := by
  unfold finish
  split
  · rename_i hp
    obtain ⟨h1, h2, h3, _⟩ := write_inv h hp
    dsimp only
    split
    · obtain ⟨k1, k2, k3, _⟩ := send_inv h1 e.t2 h3
      refine ⟨k1, ?_⟩
      unfold Adds at h2 ⊢
      rw [k2, k3]
      exact h2
    · exact ⟨h1, h2⟩
  · exact ⟨h, .inr ⟨(by intro h; cases h), rfl, rfl⟩⟩

theorem fill_inv (flush : Nat) {m : M} (h : MInv m) (r : R) (e : Env) :
    MInv (fill flush r e m).2 ∧ Adds r (fill flush r e m).1 m (fill flush r e m).2 := by
  unfold fill
  split
  · exact finish_inv flush h r e
  · rename_i hb
    split
    · exact ⟨h, .inr ⟨(by intro h; cases h), rfl, rfl⟩⟩
    · rename_i c _
      obtain ⟨k1, k2, k3⟩ := reset_inv h hb c
      obtain ⟨g1, g2⟩ := finish_inv flush k1 r e
      refine ⟨g1, ?_⟩
      unfold Adds at g2 ⊢
      rw [← k2, ← k3]
      exact g2

theorem tick_inv (flush : Nat) {m : M} (h : MInv m) (r : R) (e : Env) :
    MInv (tick flush r e m).2 ∧ Adds r (tick flush r e m).1 m (tick flush r e m).2 := by
  unfold tick
  split
  · rename_i ha
    split
    · have he : ∀ b, m.buf = some b → b.evs ≠ [] := by
        intro b hb
        rw [Bool.and_eq_true] at ha
        exact (anyEvent_iff h hb).1 ha.1
      obtain ⟨k1, k2, k3, _⟩ := send_inv h e.t1 he
      obtain ⟨g1, g2⟩ := fill_inv flush k1 r e
      refine ⟨g1, ?_⟩
      unfold Adds at g2 ⊢
      rw [← k2, ← k3]
      exact g2
    · exact ⟨h, .inr ⟨(by intro h; cases h), rfl, rfl⟩⟩
  · exact fill_inv flush h r e

theorem ticks_events (flush : Nat) (xs : List (R × Env)) : ∀ (m : M) (n : Nat), MInv m → m.number = n % 2 ^ 32 →
    MInv (ticks flush xs m).2 ∧
    events (ticks flush xs m).2 = events m ++ numbered (n + 1) (writtenOnes xs (ticks flush xs m).1) := by
  induction xs with
  | nil => intro m n h _; exact ⟨h, by simp [ticks, writtenOnes, numbered]⟩
  | cons x xs ih =>
    intro m n h hn
    obtain ⟨h1, h2⟩ := tick_inv flush h x.1 x.2
    have hn' : (m.number + 1) % 2 ^ 32 = (n + 1) % 2 ^ 32 := by omega
    rcases h2 with ⟨o, h3, h4⟩ | ⟨o, h3, h4⟩
    · obtain ⟨k1, k2⟩ := ih _ (n + 1) h1 (h3.trans hn')
      refine ⟨k1, ?_⟩
      simp only [ticks]
      rw [k2, h4, o, hn']
      simp [writtenOnes, numbered]
    · obtain ⟨k1, k2⟩ := ih _ n h1 (h3.trans hn)
      refine ⟨k1, ?_⟩
      simp only [ticks]
      rw [k2, h4]
      cases ho : (tick flush x.1 x.2 m).1 <;> first | exact absurd ho o | simp [writtenOnes]

/-- For any sequence of calls: the events in the buffers sent and in the one being filled are, in this order and without any
lost or doubled one, the records of the calls which wrote an event, with the numbers 1, 2, 3, … of 32 bits. -/
theorem C110_events_in_order (flush : Nat) (xs : List (R × Env)) :
    events (ticks flush xs {}).2 = numbered 1 (writtenOnes xs (ticks flush xs {}).1) := by
  have := (ticks_events flush xs {} 0 ⟨rfl, (by intro b hb; cases hb), (by intro p hp; cases hp)⟩ rfl).2
  rw [this]
  simp [events]

/-- No buffer is filled beyond its size, and no buffer is sent without an event. -/
theorem C110_buffers (flush : Nat) (xs : List (R × Env)) (m : M) (hm : (ticks flush xs {}).2 = m) :
    (∀ b, m.buf = some b → (b.evs.map fun p => 28 + (image p.2).length % 2 ^ 32).sum ≤ b.cap) ∧
    ∀ p ∈ m.sent, (p.2.evs.map fun p => 28 + (image p.2).length % 2 ^ 32).sum ≤ p.2.cap ∧ p.2.evs ≠ [] := by
  have h := (ticks_events flush xs {} 0 ⟨rfl, (by intro b hb; cases hb), (by intro p hp; cases hp)⟩ rfl).1
  rw [hm] at h
  refine ⟨fun b hb => ?_, fun p hp => ?_⟩
  · have := h.held b hb; unfold Fits at this; omega
  · obtain ⟨k, k2⟩ := h.sent p hp
    refine ⟨?_, k2⟩
    unfold Fits at k
    omega

theorem finish_sent (flush : Nat) (r : R) (e : Env) (m : M) :
    (finish flush r e m).2.sent = m.sent ∨ e.can2 = true ∧ ∃ b, (finish flush r e m).2.sent = m.sent ++ [(e.t2, b)] := by
  have hw : (write r m).sent = m.sent := by unfold write; split <;> rfl
  unfold finish
  split
  · dsimp only
    split
    · rename_i h
      unfold send
      split
      · left; exact hw
      · right; exact ⟨h.2, _, by dsimp only; rw [hw]⟩
    · left; exact hw
  · left; rfl

theorem fill_sent (flush : Nat) (r : R) (e : Env) (m : M) :
    (fill flush r e m).2.sent = m.sent ∨ e.can2 = true ∧ ∃ b, (fill flush r e m).2.sent = m.sent ++ [(e.t2, b)] := by
  unfold fill
  split
  · exact finish_sent flush r e m
  · split
    · left; rfl
    · rename_i c _; exact finish_sent flush r e (reset c m)

/-- While the outputs cannot take a buffer, nothing is sent. -/
theorem C110_blocked_outputs (flush : Nat) (r : R) (e : Env) (m : M) (h1 : e.can1 = false) (h2 : e.can2 = false) :
    (tick flush r e m).2.sent = m.sent := by
  unfold tick
  have hf : (fill flush r e m).2.sent = m.sent := by
    rcases fill_sent flush r e m with h | h
    · exact h
    · rw [h2] at h; cases h.1
  split
  · rw [if_neg (by simp [h1])]
  · exact hf

/-- After a call which wrote an event and could send, either nothing is left to be sent or the last buffer was sent at most the
flush time ago. -/
theorem C110_flush (flush : Nat) (xs : List (R × Env)) (r : R) (e : Env) (m : M) (hm : tick flush r e (ticks flush xs {}).2 = (.written, m))
    (h : e.can2 = true) : m.buf = none ∨ e.t2 ≤ lastTime m.sent + flush := by
  have hi := (ticks_events flush xs {} 0 ⟨rfl, (by intro b hb; cases hb), (by intro p hp; cases hp)⟩ rfl).1
  have hl := (tick_inv flush hi r e).1
  rw [hm] at hl
  have hl := hl.last
  dsimp only at hl
  have fin : ∀ m0, finish flush r e m0 = (.written, m) → m.buf = none ∨ e.t2 ≤ m.last + flush := by
    intro m0 h0
    unfold finish at h0
    split at h0
    · dsimp only at h0
      injection h0 with _ h0
      split at h0
      · left
        rw [← h0]
        unfold send
        split
        · rename_i hb; exact hb
        · rfl
      · rename_i hn
        right
        rw [← h0]
        simp only [h, and_true] at hn
        omega
    · cases h0
  have fil : ∀ m0, fill flush r e m0 = (.written, m) → m.buf = none ∨ e.t2 ≤ m.last + flush := by
    intro m0 h0
    unfold fill at h0
    split at h0
    · exact fin _ h0
    · split at h0
      · cases h0
      · exact fin _ h0
  rw [← hl]
  unfold tick at hm
  split at hm
  · split at hm
    · exact fil _ hm
    · cases hm
  · exact fil _ hm

/-- When the outputs take buffers and the pool delivers buffers of one size in which the record fits, the event is written. -/
theorem C110_written (flush : Nat) (c : Nat) (xs : List (R × Env)) (hc : ∀ x ∈ xs, ∀ k, x.2.pool = some k → k = c) (r : R) (e : Env)
    (hp : e.pool = some c) (hcan : e.can1 = true) (hr : 28 + (image r).length % 2 ^ 32 ≤ c) :
    (tick flush r e (ticks flush xs {}).2).1 = .written := by
  have capInv : ∀ (xs : List (R × Env)) (m : M), (∀ x ∈ xs, ∀ k, x.2.pool = some k → k = c) → (∀ b, m.buf = some b → b.cap = c) →
      ∀ b, (ticks flush xs m).2.buf = some b → b.cap = c := by
    have cs : ∀ t (m : M), (∀ b, m.buf = some b → b.cap = c) → ∀ b, (send t m).buf = some b → b.cap = c := by
      intro t m h b hb
      unfold send at hb
      split at hb
      · exact h b hb
      · cases hb
    have cw : ∀ r (m : M), (∀ b, m.buf = some b → b.cap = c) → ∀ b, (write r m).buf = some b → b.cap = c := by
      intro r m h b hb
      unfold write at hb
      dsimp only at hb
      split at hb
      · exact h b hb
      · rename_i b0 hb0; cases hb; exact h b0 hb0
    have cf : ∀ r e (m : M), (∀ b, m.buf = some b → b.cap = c) → ∀ b, (finish flush r e m).2.buf = some b → b.cap = c := by
      intro r e m h b hb
      unfold finish at hb
      split at hb
      · dsimp only at hb
        split at hb
        · exact cs _ _ (cw r m h) b hb
        · exact cw r m h b hb
      · exact h b hb
    have cl : ∀ r (e : Env) (m : M), (∀ k, e.pool = some k → k = c) → (∀ b, m.buf = some b → b.cap = c) →
        ∀ b, (fill flush r e m).2.buf = some b → b.cap = c := by
      intro r e m hk h b hb
      unfold fill at hb
      split at hb
      · exact cf r e m h b hb
      · split at hb
        · exact h b hb
        · rename_i k hk'
          refine cf r e _ ?_ b hb
          intro b' hb'
          unfold reset at hb'
          dsimp only at hb'
          split at hb'
          · cases hb'
          · cases hb'; exact hk k hk'
    have ct : ∀ r (e : Env) (m : M), (∀ k, e.pool = some k → k = c) → (∀ b, m.buf = some b → b.cap = c) →
        ∀ b, (tick flush r e m).2.buf = some b → b.cap = c := by
      intro r e m hk h b hb
      unfold tick at hb
      split at hb
      · split at hb
        · exact cl r e _ hk (cs _ _ h) b hb
        · exact h b hb
      · exact cl r e m hk h b hb
    intro xs
    induction xs with
    | nil => intro m _ h; exact h
    | cons x xs ih =>
      intro m hx h
      simp only [ticks]
      exact ih _ (fun y hy => hx y (List.mem_cons_of_mem _ hy)) (ct x.1 x.2 m (hx x List.mem_cons_self) h)
  have hi := (ticks_events flush xs {} 0 ⟨rfl, (by intro b hb; cases hb), (by intro p hp; cases hp)⟩ rfl).1
  have hcap := capInv xs {} hc (by intro b hb; cases hb)
  generalize (ticks flush xs {}).2 = m at hi hcap
  rw [← rawSize_image] at hr
  have fresh : ∀ m0 : M, m0.buf = none → (fill flush r e m0).1 = .written := by
    intro m0 h0
    unfold fill
    rw [h0]
    simp only [hp]
    have : place (rawSize r) (reset c m0) = true := by
      simp only [place, reset, if_neg (show ¬ c < 16 + 12 by omega)]
      apply decide_eq_true
      omega
    simp [finish, this]
  unfold tick
  split
  · rename_i ha
    apply fresh
    apply (send_inv hi e.t1 _).2.2.2
    intro b hb
    rw [Bool.and_eq_true] at ha
    exact (anyEvent_iff hi hb).1 ha.1
  · rename_i ha
    cases hb : m.buf with
    | none => exact fresh m hb
    | some b =>
      have hpl : place (rawSize r) m = true := by
        rcases Bool.eq_false_or_eq_true (place (rawSize r) m) with h | h
        · exact h
        · have ha' : anyEvent m = false := by
            rcases Bool.eq_false_or_eq_true (anyEvent m) with h2 | h2
            · rw [h, h2] at ha; exact absurd rfl ha
            · exact h2
          have h0 : b.evs = [] := by
            rcases b.evs.eq_nil_or_concat with h3 | ⟨l, x, h3⟩
            · exact h3
            · have := (anyEvent_iff hi hb).2 (by rw [h3]; simp)
              rw [ha'] at this; cases this
          have hu := (hi.held b hb).1
          rw [h0] at hu
          have hcb := hcap b hb
          simp only [List.map_nil, List.sum_nil] at hu
          simp only [place, hb] at h
          have := of_decide_eq_false h
          omega
      unfold fill
      rw [hb]
      simp [finish, hpl]

theorem decNat_digit {n : Nat} (h : n < 10) : Json.decNat n = [BitVec.ofNat 8 (48 + n)] := by
  rw [Json.decNat, if_pos h]

theorem rawSize_empty : rawSize {} = 32 := by
  have h : (descriptor {}).length = 8 := by simp [descriptor, block, decNat_digit]
  rw [rawSize, h]
  rfl

/-- Records of 32 bytes and buffers of 130 bytes: two events fit; the third call cannot send and writes nothing, the fourth does. -/
example : (ticks 1000 [({}, ⟨true, 1, some 130, true, 1⟩), ({}, ⟨true, 2, some 130, true, 2⟩), ({}, ⟨false, 3, some 130, false, 3⟩),
      ({}, ⟨true, 4, some 130, true, 4⟩)] {}) =
    ([.written, .written, .blocked, .written],
      { buf := some ⟨130, 60, [(3, { id := 3 })]⟩, number := 3, last := 4, sent := [(4, ⟨130, 120, [(1, { id := 1 }), (2, { id := 2 })]⟩)] }) := by
  simp [ticks, tick, fill, finish, place, anyEvent, reset, write, send, rawSize_empty]

/-! ## The record of the FESA monitor -/

theorem frun_reports (flush : Nat) (us : List FOp) : ∀ (s : F), Reports us → s.block = false →
    s.cur.longNames.length = s.cur.longs.length → s.cur.doubleNames.length = s.cur.doubles.length →
    (frun flush us s).block = false ∧ (frun flush us s).mon = s.mon ∧
    (∀ x, find x (frun flush us s).cur.longNames (frun flush us s).cur.longs =
      (lastLong x us).or (find x s.cur.longNames s.cur.longs)) ∧
    (∀ x, find x (frun flush us s).cur.doubleNames (frun flush us s).cur.doubles =
      (lastDouble x us).or (find x s.cur.doubleNames s.cur.doubles)) := by
  induction us with
  | nil => intro s _ h _ _; exact ⟨h, rfl, fun x => rfl, fun x => rfl⟩
  | cons u us ih =>
    intro s hr hb h1 h2
    have hr' : Reports us := fun e he => hr e (List.mem_cons_of_mem _ he)
    cases u with
    | timer e => exact absurd List.mem_cons_self (hr e)
    | long n v =>
      obtain ⟨_, a2, a3, a4⟩ := C109_add_checked n v _ _ h1
      have e : frun flush (.long n v :: us) s = frun flush us { s with cur := addLong n v true s.cur } := by
        simp [frun, fstep, hb]
      obtain ⟨g1, g2, g3, g4⟩ := ih { s with cur := addLong n v true s.cur } hr' hb a2 h2
      rw [e]
      refine ⟨g1, g2, fun x => ?_, g4⟩
      rw [g3, lastLong, Option.or_assoc]
      congr 1
      by_cases hx : n = x
      · subst hx; rw [if_pos rfl]; exact a3
      · rw [if_neg hx]; exact a4 x (fun h => hx h.symm)
    | double n v =>
      obtain ⟨_, a2, a3, a4⟩ := C109_add_checked n v _ _ h2
      have e : frun flush (.double n v :: us) s = frun flush us { s with cur := addDouble n v true s.cur } := by
        simp [frun, fstep, hb]
      obtain ⟨g1, g2, g3, g4⟩ := ih { s with cur := addDouble n v true s.cur } hr' hb h1 a2
      rw [e]
      refine ⟨g1, g2, g3, fun x => ?_⟩
      rw [g4, lastDouble, Option.or_assoc]
      congr 1
      by_cases hx : n = x
      · subst hx; rw [if_pos rfl]; exact a3
      · rw [if_neg hx]; exact a4 x (fun h => hx h.symm)

theorem frun_inv (flush : Nat) (ops : List FOp) : MInv (frun flush ops {}).mon := by
  have key : ∀ (ops : List FOp) (s : F), MInv s.mon → MInv (ops.foldl (fstep flush) s).mon := by
    intro ops
    induction ops with
    | nil => intro s h; exact h
    | cons o ops ih =>
      intro s h
      apply ih
      cases o with
      | long n v => simp only [fstep]; split <;> exact h
      | double n v => simp only [fstep]; split <;> exact h
      | timer e =>
        have := (tick_inv flush h s.cur e).1
        simp only [fstep]
        split <;> exact this
  exact key ops {} ⟨rfl, (by intro b hb; cases hb), (by intro p hp; cases hp)⟩

/-- As long as every call of the timer writes its event, the event has for each name the last value reported since the event before, and
no other names.  Missing: the same after a call which wrote nothing, see `C110_fesa_stale_counterexample`. -/
theorem C110_fesa_record_partial (flush : Nat) (pre : List FOp) (s : F) (hp : frun flush pre {} = s) (h0 : s.cur = {}) (hb : s.block = false)
    (us : List FOp) (hr : Reports us) (e : Env) (s' : F) (hs : frun flush (us ++ [.timer e]) s = s') :
    s'.block = true ∧ events s'.mon = events s.mon ∨
    s'.cur = {} ∧ s'.block = false ∧ ∃ k r, events s'.mon = events s.mon ++ [(k, r)] ∧ r.id = k ∧
      (∀ x, find x r.longNames r.longs = lastLong x us) ∧ ∀ x, find x r.doubleNames r.doubles = lastDouble x us := by
  have hm : MInv s.mon := hp ▸ frun_inv flush pre
  obtain ⟨g1, g2, g3, g4⟩ := frun_reports flush us s hr hb (by rw [h0]; rfl) (by rw [h0]; rfl)
  have hs : fstep flush (frun flush us s) (.timer e) = s' := by rw [← hs]; simp [frun]
  generalize frun flush us s = t at g1 g2 g3 g4 hs
  rw [← g2] at hm ⊢
  have k2 := (tick_inv flush hm t.cur e).2
  rcases k2 with ⟨o, _, h4⟩ | ⟨o, _, h4⟩
  · right
    simp only [fstep, o] at hs
    subst hs
    refine ⟨rfl, rfl, _, _, h4, rfl, fun x => ?_, fun x => ?_⟩
    · refine (g3 x).trans ?_; rw [h0]; simp [find]
    · refine (g4 x).trans ?_; rw [h0]; simp [find]
  · left
    cases ho : (tick flush t.cur e t.mon).1
    case written => exact absurd ho o
    all_goals
      simp only [fstep, ho] at hs
      subst hs
      exact ⟨rfl, h4⟩

/-- The first event of a monitor which got `a = 1`, `b = 2`, `a = 3`. -/
example : (frun 10 [.long [97] 1, .double [98] 2, .long [97] 3, .timer ⟨true, 50, some 200, true, 50⟩] {}).mon.sent.map (fun p => p.2.evs) =
    [[(1, { id := 1, longNames := [[97]], longs := [3], doubleNames := [[98]], doubles := [2] })]] := by
  simp [frun, fstep, addLong, addDouble, add, tick, fill, finish, place, anyEvent, reset, write, send, rawSize, descriptor, block, decNat_digit]

/-- Once a call of the timer has written nothing, all values reported until the next event are dropped: that event has the old values,
whatever was reported in between. -/
theorem C110_fesa_stale_counterexample (flush : Nat) (pre : List FOp) (s : F) (hp : frun flush pre {} = s) (e e2 : Env) (us : List FOp) (hr : Reports us)
    (h1 : (tick flush s.cur e s.mon).1 ≠ .written)
    (h2 : (tick flush s.cur e2 (tick flush s.cur e s.mon).2).1 = .written) :
    ∃ k, events (frun flush (.timer e :: us ++ [.timer e2]) s).mon = events s.mon ++ [(k, { s.cur with id := k })] := by
  have hm : MInv s.mon := hp ▸ frun_inv flush pre
  have hf : fstep flush s (.timer e) = { s with block := true, mon := (tick flush s.cur e s.mon).2 } := by
    cases ho : (tick flush s.cur e s.mon).1
    case written => exact absurd ho h1
    all_goals simp only [fstep, ho]
  have hu : ∀ (us : List FOp) (t : F), Reports us → t.block = true → us.foldl (fstep flush) t = t := by
    intro us
    induction us with
    | nil => intro t _ _; rfl
    | cons u us ih =>
      intro t hr hb
      have hr' : Reports us := fun e he => hr e (List.mem_cons_of_mem _ he)
      cases u with
      | timer e => exact absurd List.mem_cons_self (hr e)
      | long n v => simp only [List.foldl_cons, fstep, hb, if_true]; exact ih t hr' hb
      | double n v => simp only [List.foldl_cons, fstep, hb, if_true]; exact ih t hr' hb
  obtain ⟨k1, k2⟩ := tick_inv flush hm s.cur e
  obtain ⟨_, j2⟩ := tick_inv flush k1 s.cur e2
  rcases k2 with ⟨o, _, _⟩ | ⟨_, _, h4⟩
  · exact absurd o h1
  · rcases j2 with ⟨_, _, j4⟩ | ⟨o, _, _⟩
    · rw [h4] at j4
      refine ⟨_, Eq.trans ?_ j4⟩
      simp only [frun, List.cons_append, List.foldl_cons, List.foldl_append, List.foldl_nil]
      rw [hf, hu us _ hr rfl]
      simp only [fstep, h2]
    · exact absurd h2 o

/-- `a = 1` is reported, no buffer can be taken, then `a = 2` and `b = 7` are reported; the event sent then has `a = 1` only. -/
example : (frun 10 [.long [97] 1, .timer ⟨true, 1, none, true, 1⟩, .long [97] 2, .long [98] 7, .timer ⟨true, 50, some 200, true, 50⟩]
      {}).mon.sent.map (fun p => p.2.evs) = [[(1, { id := 1, longNames := [[97]], longs := [1] })]] := by
  simp [frun, fstep, addLong, add, tick, fill, finish, place, anyEvent, reset, write, send, rawSize, descriptor, block, decNat_digit]

end Verif.SlowSend
