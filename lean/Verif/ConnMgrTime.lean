import Verif.ConnMgrHist

/-!
# Connection manager: delays, waiting records, leaving records
-/

namespace Verif.ConnMgr

open Spec

/-! ### Who is connected -/

theorem step_connected {m : Mgr} (I : Inv m) (op : Op) :
    ∃ l, (step m op).out = m.out ++ l ∧
      ∀ id, (Out.progress id .connected ∈ l ∨ Out.state id .connected ∈ l) →
        op = .handleReply id true ∧ (m.objs id).progress = .doingConnect := by
  rcases op_cases m op with ⟨devs, addrs, d, t, rfl⟩ | ⟨id, rfl, hp⟩ | ⟨h1, h2⟩
  · show ∃ l, (timeout devs addrs d t m).out = _ ∧ _
    by_cases hd : m.doing = 0
    · rw [timeout_idle devs addrs d t hd]
      exact ⟨[], by simp, by simp⟩
    · rw [timeout_doing devs addrs d t hd]
      have T := Inv.turns devs addrs d m.recs I (fun _ h => h)
      obtain ⟨l0, a0, _, c0, _, e0⟩ := turns_out devs addrs d m.recs m
      obtain ⟨v, l1, C⟩ := checkRecs_spec T.1.nodup (decide (m.left t = 0))
      refine ⟨l0 ++ (l1 ++ outAnswer (m.recs.foldl (turn devs addrs d) m).cmd v), by rw [C.out, a0]; simp, ?_⟩
      intro id hm
      exfalso
      rcases hm with hm | hm
      · rcases List.mem_append.mp hm with hm | hm
        · exact e0 id hm
        · rcases List.mem_append.mp hm with hm | hm
          · rcases C.kinds _ hm with ⟨k, e⟩ | ⟨k, e⟩ | ⟨k, _, _, e⟩ <;> cases e
          · obtain ⟨_, _, e⟩ := mem_outAnswer hm
            cases e
      · rcases List.mem_append.mp hm with hm | hm
        · exact c0 id _ hm
        · rcases List.mem_append.mp hm with hm | hm
          · rcases C.kinds _ hm with ⟨k, e⟩ | ⟨k, e⟩ | ⟨k, _, hov, e⟩
            · cases e
            · cases e
            · obtain ⟨rfl, e2⟩ := Out.state.inj e
              rcases hov with h | h
              · rw [h] at e2; cases e2
              · exact T.1.connected id h
          · obtain ⟨_, _, e⟩ := mem_outAnswer hm
            cases e
  · show ∃ l, (handleReply m id true).out = _ ∧ _
    rw [handleReply_done hp]
    obtain ⟨v, l1, C⟩ := checkRecs_spec (m := m.setProgress id .connected) I.nodup false
    refine ⟨[.progress id .connected] ++ (l1 ++ outAnswer m.cmd v), ?_, ?_⟩
    · rw [C.out]
      simp [Mgr.setProgress]
    intro k hm
    have key : k = id → Op.handleReply id true = .handleReply k true ∧ (m.objs k).progress = .doingConnect := by
      rintro rfl
      exact ⟨rfl, hp⟩
    apply key
    rcases hm with hm | hm
    · rcases List.mem_append.mp hm with hm | hm
      · have := List.mem_singleton.mp hm
        exact (Out.progress.inj this).1
      · rcases List.mem_append.mp hm with hm | hm
        · rcases C.kinds _ hm with ⟨j, e⟩ | ⟨j, e⟩ | ⟨j, _, _, e⟩ <;> cases e
        · obtain ⟨_, _, e⟩ := mem_outAnswer hm
          cases e
    · rcases List.mem_append.mp hm with hm | hm
      · simp at hm
      · rcases List.mem_append.mp hm with hm | hm
        · rcases C.kinds _ hm with ⟨j, e⟩ | ⟨j, e⟩ | ⟨j, _, hov, e⟩
          · cases e
          · cases e
          · obtain ⟨rfl, e2⟩ := Out.state.inj e
            rcases hov with h | h
            · rw [h] at e2; cases e2
            · by_cases hk : k = id
              · exact hk
              · rw [(Local.setProgress m id .connected).other k hk] at h
                exact absurd h (I.connected k)
        · obtain ⟨_, _, e⟩ := mem_outAnswer hm
          cases e
  · obtain ⟨l, e, hl⟩ := plain_out m op h1 h2
    refine ⟨l, e, ?_⟩
    intro id hm
    rcases hm with hm | hm <;> have := hl _ hm <;> simp [plain] at this

/-! ### One record in `ProcessTimeout` -/

theorem act_congr (devs addrs : Nat → Bool) {m n : Mgr} {id : Nat} (h : n.objs id = m.objs id) :
    (act devs addrs n id).objs id = (act devs addrs m id).objs id := by
  unfold act
  dsimp only
  rw [h]
  split
  · split <;> simp [Mgr.setProgress, h]
  · simp [Mgr.setProgress, h]
  · split
    · simp [h]
    · split <;> simp [Mgr.setProgress, h]
  · exact h

theorem turn_congr (devs addrs : Nat → Bool) (d : Int) {m n : Mgr} {id : Nat} (h : n.objs id = m.objs id) :
    (turn devs addrs d n id).objs id = (turn devs addrs d m id).objs id := by
  unfold turn
  dsimp only
  rw [h]
  split
  · simp
  · apply act_congr
    simp

theorem turn_state (devs addrs : Nat → Bool) (d : Int) (m : Mgr) (id : Nat) :
    ((turn devs addrs d m id).objs id).state = (m.objs id).state := by
  have hc : ((m.objs id).check d).1.state = (m.objs id).state := by
    unfold Rec.check; split <;> rfl
  unfold turn
  dsimp only
  split
  · simp [hc]
  · unfold act
    dsimp only
    split
    · split <;> simp [Mgr.setProgress, Rec.delay, hc]
    · simp [Mgr.setProgress, hc]
    · split
      · simp [Rec.delay, hc]
      · split <;> simp [Mgr.setProgress, Rec.delay, hc]
    · simp [hc]

theorem turn_due (devs addrs : Nat → Bool) (d : Int) (m : Mgr) (id : Nat) :
    (remains (m.objs id) d > 0 ∧ ((turn devs addrs d m id).objs id).progress = (m.objs id).progress) ∨
    (remains (m.objs id) d ≤ 0 ∧ Due (devs (m.objs id).dev ∧ (m.objs id).port) (addrs (m.objs id).remoteUrl)
      (m.objs id).server (m.objs id).progress ((turn devs addrs d m id).objs id).progress) := by
  have hc : ((m.objs id).check d).2 = remains (m.objs id) d := by
    unfold Rec.check remains; split <;> rfl
  have hr : ∀ (x : Rec), x = ((m.objs id).check d).1 → x.dev = (m.objs id).dev ∧ x.port = (m.objs id).port ∧
      x.remoteUrl = (m.objs id).remoteUrl ∧ x.server = (m.objs id).server ∧ x.progress = (m.objs id).progress := by
    rintro x rfl
    unfold Rec.check; split <;> exact ⟨rfl, rfl, rfl, rfl, rfl⟩
  obtain ⟨h1, h2, h3, h4, h5⟩ := hr _ rfl
  unfold turn
  dsimp only
  rw [hc]
  split
  next h => left; exact ⟨h, by simp⟩
  next h =>
    right
    refine ⟨by omega, ?_⟩
    unfold act
    dsimp only
    rw [upd_self, h1, h2, h3, h4, h5]
    split
    next hp =>
      rw [hp]
      split
      next hd =>
        have : ((m.upd id fun _ => ((m.objs id).check d).1).setProgress id .failed |>.objs id).progress = .failed := by
          simp [Mgr.setProgress]
        rw [this]
        refine .noDevice ?_
        rintro ⟨a, b⟩
        rcases hd with hd | hd
        · rw [hd] at a; cases a
        · rw [hd] at b; cases b
      next hd =>
        rw [not_or] at hd
        have e : ∀ b : Bool, ¬ b = false → b = true := by decide
        simp only [Mgr.setProgress, emit_objs, upd_self, delay_progress]
        exact .start ⟨e _ hd.1, e _ hd.2⟩
    next hp =>
      rw [hp]
      simp only [Mgr.setProgress, emit_objs, upd_self]
      exact .silent
    next hp =>
      rw [hp]
      split
      next hs =>
        simp only [upd_self, delay_progress, h5, hp]
        exact .server hs
      next hs =>
        have hs' : (m.objs id).server = false := by simpa using hs
        split
        next ha =>
          simp only [Mgr.setProgress, emit_objs, upd_self]
          exact .noAddress hs' ha
        next ha =>
          simp only [Mgr.setProgress, emit_objs, upd_self, delay_progress]
          exact .ask hs' (by simpa using ha)
    next a b c =>
      rw [upd_self, h5]
      exact .other _ a b c

theorem take_dev (r : Rec) (i : Info) : (r.take i).dev = r.dev := by
  unfold Rec.take; split <;> rfl

theorem turns_out_of (devs addrs : Nat → Bool) (d : Int) : ∀ (ids : List Nat) (m : Mgr) {id : Nat}, id ∉ ids →
    (ids.foldl (turn devs addrs d) m).objs id = m.objs id
  | [], _, _, _ => rfl
  | a :: ids, m, id, h => by
    rw [List.mem_cons, not_or] at h
    rw [List.foldl_cons, turns_out_of devs addrs d ids _ h.2]
    exact (Local.turn devs addrs d m a).other id h.1

theorem turns_at (devs addrs : Nat → Bool) (d : Int) : ∀ (ids : List Nat) (m : Mgr) {id : Nat}, ids.Nodup → id ∈ ids →
    (ids.foldl (turn devs addrs d) m).objs id = (turn devs addrs d m id).objs id
  | [], _, _, _, h => by simp at h
  | a :: ids, m, id, hn, h => by
    rw [List.nodup_cons] at hn
    rw [List.foldl_cons]
    by_cases e : id = a
    · subst e
      exact turns_out_of devs addrs d ids _ hn.1
    · have hi : id ∈ ids := by
        rcases List.mem_cons.mp h with h | h
        · exact absurd h e
        · exact h
      rw [turns_at devs addrs d ids _ hn.2 hi]
      exact turn_congr devs addrs d ((Local.turn devs addrs d m a).other id e)

theorem turns_doing (devs addrs : Nat → Bool) (d : Int) : ∀ (ids : List Nat) (m : Mgr),
    (ids.foldl (turn devs addrs d) m).doing = m.doing
  | [], _ => rfl
  | id :: ids, m => (turns_doing devs addrs d ids _).trans (Local.turn devs addrs d m id).doing

theorem conclude_doing (m : Mgr) (a b f : Bool) (h : m.recs ≠ []) : (conclude m a b f).doing = m.doing := by
  unfold conclude
  split
  · show (if m.recs = [] then 0 else m.doing) = _
    rw [if_neg h]
  · split <;> rfl

/-- A check keeps going while records are left. -/
theorem checkRecs_doing {m : Mgr} (hn : m.recs.Nodup) (f : Bool) (h : (checkRecs m f).recs ≠ []) :
    (checkRecs m f).doing = m.doing := by
  have L := checkLoop_loop m.recs m false true hn
  unfold checkRecs at h ⊢
  dsimp only at h ⊢
  rw [(conclude_facts _ _ _ _).2.2.1] at h
  rw [← L.doing]
  exact conclude_doing _ _ _ _ h

/-- A record which is not over is not touched by a check. -/
theorem checkRecs_stay {m : Mgr} (hn : m.recs.Nodup) (f : Bool) {id : Nat} (hid : id ∈ m.recs)
    (h : ¬ over (m.objs id).progress) : id ∈ (checkRecs m f).recs ∧ (checkRecs m f).objs id = m.objs id := by
  obtain ⟨v, l, C⟩ := checkRecs_spec hn f
  have : id ∈ (checkRecs m f).recs := by rw [C.recs, mem_remaining]; exact ⟨hid, h⟩
  exact ⟨this, (checkRecs_objs hn f this).1⟩

theorem checkRecs_notin {m : Mgr} (hn : m.recs.Nodup) (f : Bool) {id : Nat} (hid : id ∉ m.recs) :
    (checkRecs m f).objs id = m.objs id := by
  have L := checkLoop_loop m.recs m false true hn
  unfold checkRecs
  dsimp only
  rw [(conclude_facts _ _ _ _).2.2.2.1]
  exact L.same id (Or.inl hid)

/-- A record which is over leaves the list in the state which belongs to its progress. -/
theorem checkRecs_gone {m : Mgr} (hn : m.recs.Nodup) (f : Bool) {id : Nat} (hid : id ∈ m.recs)
    (h : over (m.objs id).progress) : id ∉ (checkRecs m f).recs ∧
      ((checkRecs m f).objs id).state = final (m.objs id).progress := by
  obtain ⟨v, l, C⟩ := checkRecs_spec hn f
  refine ⟨?_, ?_⟩
  · rw [C.recs, mem_remaining]
    exact fun hh => hh.2 h
  · have L := checkLoop_loop m.recs m false true hn
    unfold checkRecs
    dsimp only
    rw [(conclude_facts _ _ _ _).2.2.2.1]
    exact (L.gone id hid h).2.2

/-- `ProcessTimeout` on one record. -/
theorem timeout_obj (devs addrs : Nat → Bool) (d t : Int) {m : Mgr} (I : Inv m) (hd : m.doing ≠ 0) {id : Nat}
    (hid : id ∈ m.recs) :
    (¬ over ((turn devs addrs d m id).objs id).progress →
      id ∈ (timeout devs addrs d t m).recs ∧
      (timeout devs addrs d t m).objs id = (turn devs addrs d m id).objs id ∧ (timeout devs addrs d t m).doing = m.doing) ∧
    (over ((turn devs addrs d m id).objs id).progress → id ∉ (timeout devs addrs d t m).recs ∧
      ((timeout devs addrs d t m).objs id).state = final ((turn devs addrs d m id).objs id).progress) := by
  rw [timeout_doing devs addrs d t hd]
  have T := Inv.turns devs addrs d m.recs I (fun _ h => h)
  have e := turns_at devs addrs d m.recs m I.nodup hid
  rw [← e]
  refine ⟨fun h => ?_, fun h => ?_⟩
  · obtain ⟨a, b⟩ := checkRecs_stay T.1.nodup (decide (m.left t = 0)) (by rw [T.2]; exact hid) h
    refine ⟨a, b, ?_⟩
    rw [checkRecs_doing T.1.nodup _ (fun h0 => by rw [h0] at a; simp at a), turns_doing]
  · exact checkRecs_gone T.1.nodup _ (by rw [T.2]; exact hid) h

theorem timeout_notin (devs addrs : Nat → Bool) (d t : Int) {m : Mgr} (I : Inv m) {id : Nat} (hid : id ∉ m.recs) :
    id ∉ (timeout devs addrs d t m).recs ∧ (timeout devs addrs d t m).objs id = m.objs id := by
  by_cases hd : m.doing = 0
  · rw [timeout_idle devs addrs d t hd]; exact ⟨hid, rfl⟩
  · rw [timeout_doing devs addrs d t hd]
    have T := Inv.turns devs addrs d m.recs I (fun _ h => h)
    obtain ⟨v, l, C⟩ := checkRecs_spec T.1.nodup (decide (m.left t = 0))
    refine ⟨?_, ?_⟩
    · rw [C.recs, mem_remaining, T.2]
      exact fun h => hid h.1
    · rw [checkRecs_notin T.1.nodup _ (by rw [T.2]; exact hid)]
      exact turns_out_of devs addrs d m.recs m hid

/-! ### Waiting for the device -/

/-- Arguments of one `ProcessTimeout`. -/
structure Tick where
  devs : Nat → Bool
  addrs : Nat → Bool
  diff : Int
  left : Int

def Tick.op (t : Tick) : Op := .timeout t.devs t.addrs t.diff t.left

theorem ticks_notin : ∀ (l : List Tick) {m : Mgr}, Inv m → ∀ {id : Nat}, id ∉ m.recs →
    id ∉ (run m (l.map Tick.op)).recs ∧ (run m (l.map Tick.op)).objs id = m.objs id
  | [], _, _, _, h => ⟨h, rfl⟩
  | t :: l, m, I, id, h => by
    obtain ⟨a, b⟩ := timeout_notin t.devs t.addrs t.diff t.left I h
    have J : Inv (timeout t.devs t.addrs t.diff t.left m) := I.step t.op
    obtain ⟨a2, b2⟩ := ticks_notin l J a
    exact ⟨a2, b2.trans b⟩

theorem turn_wait (devs addrs : Nat → Bool) (d : Int) {m : Mgr} {id : Nat} (hs : (m.objs id).set = 0)
    (hp : (m.objs id).progress = .doingInit) :
    ((m.objs id).acc > d → (turn devs addrs d m id).objs id = { m.objs id with acc := (m.objs id).acc - d }) ∧
    ((m.objs id).acc ≤ d → ((turn devs addrs d m id).objs id).progress = .failed) := by
  have hc : (m.objs id).check d = ({ m.objs id with acc := (m.objs id).acc - d }, (m.objs id).acc - d) := by
    unfold Rec.check
    rw [if_neg (by rw [hs]; decide)]
  unfold turn
  dsimp only
  rw [hc]
  refine ⟨fun h => ?_, fun h => ?_⟩
  · rw [if_pos (show (m.objs id).acc - d > 0 by omega), upd_self]
  · rw [if_neg (show ¬ (m.objs id).acc - d > 0 by omega)]
    unfold act
    dsimp only
    rw [upd_self]
    dsimp only
    rw [hp]
    simp [Mgr.setProgress]

theorem init_late : ∀ (l : List Tick) {m : Mgr}, Inv m → ∀ {id : Nat}, id ∈ m.recs → m.doing ≠ 0 →
    (m.objs id).progress = .doingInit → (m.objs id).set = 0 → 0 < (m.objs id).acc →
    (m.objs id).acc ≤ (l.map Tick.diff).sum →
    id ∉ (run m (l.map Tick.op)).recs ∧ ((run m (l.map Tick.op)).objs id).state = .failed
  | [], m, _, id, _, _, _, _, h0, h => by
    simp at h
    omega
  | t :: l, m, I, id, hid, hd, hp, hs, h0, h => by
    obtain ⟨W1, W2⟩ := turn_wait t.devs t.addrs t.diff hs hp
    obtain ⟨O1, O2⟩ := timeout_obj t.devs t.addrs t.diff t.left I hd hid
    have J : Inv (timeout t.devs t.addrs t.diff t.left m) := I.step t.op
    show id ∉ (run (timeout t.devs t.addrs t.diff t.left m) (l.map Tick.op)).recs ∧
      ((run (timeout t.devs t.addrs t.diff t.left m) (l.map Tick.op)).objs id).state = .failed
    by_cases hle : (m.objs id).acc ≤ t.diff
    · have hf := W2 hle
      obtain ⟨a, b⟩ := O2 (by rw [hf]; exact Or.inl rfl)
      obtain ⟨a2, b2⟩ := ticks_notin l J a
      refine ⟨a2, ?_⟩
      rw [b2, b, hf]
      rfl
    · have hw := W1 (by omega)
      obtain ⟨a, b, c⟩ := O1 (by rw [hw]; show ¬ over (m.objs id).progress; rw [hp]; simp [over])
      rw [hw] at b
      refine init_late l J a (by rw [c]; exact hd) (by rw [b]; exact hp) (by rw [b]; exact hs) ?_ ?_
      · rw [b]; show 0 < (m.objs id).acc - t.diff; omega
      · rw [b]
        show (m.objs id).acc - t.diff ≤ _
        simp only [List.map_cons, List.sum_cons] at h
        omega

/-! ### Waiting for the other node -/

theorem turn_waitReply (devs addrs : Nat → Bool) (d : Int) {m : Mgr} {id : Nat}
    (hp : (m.objs id).progress = .waitReply) : ((turn devs addrs d m id).objs id).progress = .waitReply := by
  unfold turn
  dsimp only
  split
  · simp [hp]
  · unfold act
    dsimp only
    rw [upd_self, check_progress, hp]
    simp [hp]

/-- Operations which can end the waiting for the answer of the other node. -/
def wakes (id : Nat) : Op → Bool
  | .connectReply .. => true
  | .handleReply k ok => k == id && !ok
  | _ => false

theorem stuck_step {m : Mgr} (I : Inv m) {id : Nat} (hp : (m.objs id).progress = .waitReply) {op : Op}
    (hop : wakes id op = false) : ((step m op).objs id).progress = .waitReply := by
  have hid : id ∈ m.recs := I.mem (by rw [hp]; decide) (by rw [hp]; decide)
  have hno : ¬ over (m.objs id).progress := by rw [hp]; simp [over]
  cases op with
  | event k v t =>
    show ((paramEvent m k v t).objs id).progress = _
    unfold paramEvent
    split
    · exact hp
    · split
      · exact hp
      · split
        · exact hp
        next hk =>
          have hne : id ≠ k := by rintro rfl; exact hk hid
          have N := number_facts (m.reset k) k
          show (((m.reset k).number k).objs id).progress = _
          rw [N.2.2.2.2.2.1 id hne, (Local.reset m k).other id hne]
          exact hp
  | timeout devs addrs d t =>
    show ((timeout devs addrs d t m).objs id).progress = _
    by_cases hd : m.doing = 0
    · rw [timeout_idle devs addrs d t hd]; exact hp
    · have T := turn_waitReply devs addrs d hp
      obtain ⟨O, _⟩ := timeout_obj devs addrs d t I hd hid
      rw [(O (by rw [T]; simp [over])).2.1]
      exact T
  | globalConnect devs c u1 u2 cl =>
    show ((globalConnect devs m c u1 u2 cl).objs id).progress = _
    unfold globalConnect
    split
    · exact hp
    next k hf =>
      split
      · exact hp
      · exact hp
      next hk =>
        have hne : id ≠ k := by rintro rfl; rw [hp] at hk; cases hk
        split
        · rw [(Local.fillAnswer m c k cl).other id hne]; exact hp
        · exact hp
      · exact hp
  | activate c => exact hp
  | shutdown c => exact hp
  | connectReply devs u1 u2 r i => simp [wakes] at hop
  | handleReply k ok =>
    show ((handleReply m k ok).objs id).progress = _
    unfold handleReply
    split
    next hok =>
      have hne : id ≠ k := by
        rintro rfl
        simp [wakes, hok] at hop
      rw [((Local.setProgress m k _).trans (Local.replyRemote _ k _)).other id hne]
      exact hp
    · split
      next hk =>
        have hne : id ≠ k := by rintro rfl; rw [hp] at hk; cases hk
        rw [((Local.setProgress m k _).trans (Local.upd _ k _)).other id hne]
        exact hp
      next hk =>
        have hne : id ≠ k := by rintro rfl; rw [hp] at hk; cases hk
        have e := (Local.setProgress m k .connected).other id hne
        rw [(checkRecs_stay (m := m.setProgress k .connected) I.nodup false hid (by rw [e]; exact hno)).2, e]
        exact hp
      · exact hp
  | answerRemote k ok =>
    show ((m.replyRemote k ok).objs id).progress = _
    by_cases hne : id = k
    · subst hne; simp [Mgr.replyRemote, hp]
    · rw [(Local.replyRemote m k ok).other id hne]; exact hp
  | setIds k s c =>
    simp only [step, upd_objs]
    split <;> exact hp
  | setState k s =>
    simp only [step, upd_objs]
    split <;> exact hp

theorem stuck_run {id : Nat} : ∀ (ops : List Op) {m : Mgr}, Inv m → (m.objs id).progress = .waitReply →
    (∀ op ∈ ops, wakes id op = false) → ((run m ops).objs id).progress = .waitReply ∧ id ∈ (run m ops).recs
  | [], _, I, hp, _ => ⟨hp, I.mem (by rw [hp]; decide) (by rw [hp]; decide)⟩
  | op :: ops, _, I, hp, h => stuck_run ops (I.step op) (stuck_step I hp (h op (List.mem_cons_self ..)))
      (fun o ho => h o (List.mem_cons_of_mem _ ho))

end Verif.ConnMgr
