import Verif.SyncExecRes

/-!
# C102: a synchronous call of a command returns the answer to the command
-/

namespace Verif.SyncExec

/-- **C102.**  Whatever other threads do meanwhile: the call returns `cmd_false`, or `cmd_timedout` - then the command has
a timeout, which is over for at least half a second -, or the result which the command had at some moment after a reply
to it was begun. -/
theorem C102_result (others : List Nat) (old deadline : Option Int) (now : Int) (as : List Act) (s : S) (r : Int)
    (h : run (start others old deadline now) as = some s) (hr : s.pc = .done r) :
    r = 0 ∨ (r = -1 ∧ ∃ d, s.deadline = some d ∧ d + 500 ≤ s.now) ∨
      ∃ p, p <+: as ∧ replies p ≠ [] ∧ r = answer (old.getD 0) (replies p) :=
  (res_of_run h).fin r (.inr hr)

/-- A new command which is accepted: the destination replies 7, the call returns 7. -/
def good : List Act :=
  [.call true fun _ => true, .loop false, .tick 30, .reply 7, .pop 0, .inform 0 true, .wake false, .check, .read, .remove]

example : (run (start [3] none none 1000) good).map (fun s => (s.pc, s.callers, s.stale)) =
    some (.done 7, [.other 3], false) := by decide

theorem answer_mem (old : Int) (rs : List Int) : answer old rs = old ∨ answer old rs ∈ rs := by
  induction rs generalizing old with
  | nil => exact .inl rfl
  | cons r rs ih =>
    simp only [answer]
    by_cases hr : 0 ≤ r
    · rw [if_pos hr]
      rcases ih r with h | h
      · right; rw [h]; simp
      · right; simp [h]
    · rw [if_neg hr]
      rcases ih old with h | h
      · exact .inl h
      · right; simp [h]

/-- **C102.**  For a new command (without result) success is reported only when some reply gave this result. -/
theorem C102_true_partial (others : List Nat) (deadline : Option Int) (now : Int) (as : List Act) (s : S) (r : Int)
    (h : run (start others none deadline now) as = some s) (hr : s.pc = .done r) (hp : 0 < r) : r ∈ replies as := by
  rcases C102_result others none deadline now as s r h hr with h1 | h1 | ⟨p, h1, h2, h3⟩
  · omega
  · omega
  · have := answer_mem 0 (replies p)
    simp only [Option.getD_none] at h3
    rw [← h3] at this
    rcases this with h4 | h4
    · omega
    · obtain ⟨q, rfl⟩ := h1
      rw [replies_append]
      exact List.mem_append_left _ h4

example : (run (start [] none none 0) good).map (·.pc) = some (.done 7) ∧ (7 : Int) ∈ replies good := by decide

/-- **C102, what fails**: a command which still has the result 1 of an earlier use is replied as canceled
(`cmd_canceled` = -5), and the call reports success. -/
theorem C102_true_counterexample :
    ∃ as s, run (start [] (some 1) none 0) as = some s ∧ s.pc = .done 1 ∧ replies as = [-5] :=
  ⟨[.call true fun _ => true, .loop false, .reply (-5), .pop 0, .inform 0 true, .wake false, .check, .read, .remove],
    _, rfl, rfl, rfl⟩

/-- **C102.**  When the command has no timeout, is accepted by its destination, the calling worker is not halted and no
exception comes out of the event loop, then the call returns only after a reply, with the result at that moment. -/
theorem C102_answer (others : List Nat) (old : Option Int) (now : Int) (as : List Act) (s : S) (r : Int)
    (h : run (start others old none now) as = some s) (hr : s.pc = .done r)
    (hacc : ∀ acc, Act.call false acc ∉ as) (hcalm : Act.throw ∉ as) (hhalt : Act.loop true ∉ as) :
    ∃ p, p <+: as ∧ replies p ≠ [] ∧ r = answer (old.getD 0) (replies p) := by
  have hd : s.deadline = none := by
    have : ∀ (h : List Act) (x : S), x.deadline = none → ∀ a y, step x a = some y → y.deadline = none := by
      intro _ x hx a y hs
      cases a with
      | call ok acc =>
        simp only [step] at hs; split at hs <;> cases hs
        unfold call; cases ok
        · simp only [Bool.false_eq_true, if_false]
          rw [(replyAll_frame _ _ _).2.2.1, (setRes_frame _ _).2.2.2.1]; exact hx
        · exact hx
      | loop halt =>
        simp only [step] at hs; split at hs <;> cases hs
        unfold loop; dsimp only; split
        · exact hx
        · split <;> exact hx
      | wake o =>
        simp only [step] at hs; split at hs
        · split at hs
          · cases hs; exact hx
          · split at hs
            · cases hs; exact hx
            · split at hs <;> cases hs; exact hx
        · cases hs
      | eat => simp only [step] at hs; split at hs <;> cases hs; exact hx
      | throw => simp only [step] at hs; split at hs <;> cases hs; exact hx
      | check => simp only [step] at hs; split at hs <;> cases hs; exact hx
      | read => simp only [step] at hs; split at hs <;> cases hs; exact hx
      | remove => simp only [step] at hs; split at hs <;> cases hs <;> exact hx
      | tick n => simp only [step] at hs; cases hs; exact hx
      | add n => simp only [step] at hs; cases hs; exact hx
      | del n => simp only [step] at hs; cases hs; exact hx
      | reply r => simp only [step] at hs; cases hs; exact (setRes_frame x r).2.2.2.1.trans hx
      | pop i =>
        simp only [step] at hs; split at hs
        · split at hs <;> cases hs <;> exact hx
        · cases hs
      | inform i acc =>
        simp only [step] at hs; split at hs
        · rename_i w _
          split at hs
          · cases hs
            cases w
            · simp only [inform]; split <;> exact hx
            · exact hx
          · cases hs; exact hx
        · cases hs
    exact run_induct (fun _ x => x.deadline = none) (fun h x a y hp hs => this h x hp a y hs) as [] _ s rfl h
  exact (res_of_run h).quietFin r hacc ⟨hcalm, hhalt, hd⟩ (.inr hr)

example : (run (start [3] none none 1000) good).map (·.pc) = some (.done 7) := by decide

/-- **C102.**  In such a call, when the command is replied only once and not with a negative code, the result of the call
is the result of the reply. -/
theorem C102_single (others : List Nat) (old : Option Int) (now : Int) (as : List Act) (s : S) (r v : Int)
    (h : run (start others old none now) as = some s) (hr : s.pc = .done r)
    (hacc : ∀ acc, Act.call false acc ∉ as) (hcalm : Act.throw ∉ as) (hhalt : Act.loop true ∉ as)
    (hone : replies as = [v]) (hv : 0 ≤ v) : r = v := by
  obtain ⟨p, ⟨q, hq⟩, h2, h3⟩ := C102_answer others old now as s r h hr hacc hcalm hhalt
  rw [← hq, replies_append] at hone
  have : replies p = [v] := by
    cases hp : replies p with
    | nil => exact absurd hp h2
    | cons a l =>
      rw [hp] at hone
      simp at hone
      simp [hone.1, hone.2.1]
  rw [h3, this]
  simp [answer, hv]

example : replies good = [7] := by decide

/-- **C102.**  After the call its record is no longer among the callers of the command. -/
theorem C102_removed (others : List Nat) (old deadline : Option Int) (now : Int) (as : List Act) (s : S) (r : Int)
    (h : run (start others old deadline now) as = some s) (hr : s.pc = .done r) : Who.me ∉ s.callers :=
  (uniq_of_run (Uniq.start others old deadline now) h).gone r hr

/-- **C102, what fails**: the replying thread has taken the record of the call when the timeout ends the call; then it
writes to the variable `exe_ready` of a function which has returned. -/
theorem C102_stale_counterexample :
    ∃ as s, run (start [] none (some 100) 0) as = some s ∧ s.pc = .done (-1) ∧ s.stale = true :=
  ⟨[.call true fun _ => true, .loop false, .reply 1, .pop 0, .tick 600, .wake false, .check, .loop false, .read, .remove,
    .inform 0 true], _, rfl, rfl, rfl⟩

/-- **C102, what holds**: this happens only when the call ended while a reply was about to inform it. -/
theorem C102_stale_partial (others : List Nat) (old deadline : Option Int) (now : Int) (as bs : List Act) (s t : S)
    (r : Int) (h : run (start others old deadline now) as = some s) (hr : s.pc = .done r)
    (hf : Fly.holds .me ∉ s.flying) (h0 : s.stale = false) (hb : run s bs = some t) : t.stale = false := by
  have hu := uniq_of_run (Uniq.start others old deadline now) h
  have hg := hu.gone r hr
  have key := run_induct
    (fun _ x => x.pc = .done r ∧ Who.me ∉ x.callers ∧ Fly.holds .me ∉ x.flying ∧ x.stale = false)
    (by
      rintro _ x a y ⟨h1, h2, h3, h4⟩ hs
      cases a with
      | call ok acc => simp [step, h1] at hs
      | loop halt => simp [step, h1] at hs
      | wake o => simp [step, h1] at hs
      | eat => simp [step, h1] at hs
      | throw => simp [step, h1] at hs
      | check => simp [step, h1] at hs
      | read => simp [step, h1] at hs
      | remove => simp [step, h1] at hs
      | tick n => simp only [step] at hs; cases hs; exact ⟨h1, h2, h3, h4⟩
      | add n => simp only [step] at hs; cases hs; exact ⟨h1, by simp [h2], h3, h4⟩
      | del n =>
        simp only [step] at hs; cases hs
        exact ⟨h1, fun hx => h2 (List.mem_filter.mp hx).1, h3, h4⟩
      | reply v =>
        simp only [step] at hs; cases hs
        obtain ⟨e1, e2, e3, e4, e5, e6, e7, e8⟩ := setRes_frame x v
        exact ⟨by simp [e3, h1], by simp [e1, h2], by simp [e2, h3], by simp [e7, h4]⟩
      | pop i =>
        simp only [step] at hs
        split at hs
        · split at hs
          · cases hs
            exact ⟨h1, h2, fun hx => h3 (List.mem_of_mem_eraseIdx hx), h4⟩
          · rename_i w hw
            cases hs
            have hmem : w ∈ x.callers := List.mem_of_getLast? hw
            refine ⟨h1, fun hx => h2 (List.dropLast_subset _ hx), fun hx => ?_, h4⟩
            rcases List.mem_or_eq_of_mem_set hx with hx | hx
            · exact h3 hx
            · cases hx; exact h2 hmem
        · cases hs
      | inform i acc =>
        simp only [step] at hs
        split at hs
        · rename_i w hw
          have hmem := List.mem_of_getElem? hw
          split at hs
          · cases hs
            cases w with
            | me => exact absurd hmem h3
            | other n => exact ⟨h1, h2, fun hx => h3 (List.mem_of_mem_eraseIdx hx), h4⟩
          · cases hs
            refine ⟨h1, h2, fun hx => ?_, h4⟩
            rcases List.mem_or_eq_of_mem_set hx with hx | hx
            · exact h3 hx
            · cases hx
        · cases hs)
    bs [] s t ⟨hr, hg, hf, h0⟩ hb
  exact key.2.2.2

example : (run (start [3] none none 1000) good).map (fun s => (s.flying, s.stale)) = some ([], false) := by decide

/-- **C102.**  A call which was informed is safe: nobody writes to its variable afterwards. -/
theorem C102_informed (others : List Nat) (old deadline : Option Int) (now : Int) (as : List Act) (s : S)
    (h : run (start others old deadline now) as = some s) (he : s.exe = true) :
    s.stale = false ∧ Who.me ∉ s.callers ∧ Fly.holds .me ∉ s.flying := by
  have h1 := (uniq_of_run (Uniq.start others old deadline now) h).one
  simp only [places, he] at h1
  simp at h1
  refine ⟨?_, ?_, ?_⟩
  · cases hx : s.stale
    · rfl
    · rw [hx] at h1; simp at h1
  · rw [← List.count_eq_zero]; omega
  · rw [← List.count_eq_zero]; omega

example : (run (start [3] none none 1000) good).map (·.exe) = some true := by decide

/-! ## The call ends -/

/-- Steps left for the calling thread once it was informed. -/
def rank : Pc → Nat
  | .idle => 6 | .top => 5 | .wait _ => 4 | .proc => 3 | .brk _ => 2 | .rem _ => 1 | .thrown => 1 | .done _ => 0

/-- Steps left once the timeout is over. -/
def rankLate : Pc → Nat
  | .idle => 8 | .wait _ => 7 | .proc => 6 | .top => 5 | .brk _ => 2 | .rem _ => 1 | .thrown => 1 | .done _ => 0

theorem own_exe {s t : S} {a : Act} (ha : own a = true) (he : s.exe = true) (hs : step s a = some t) :
    t.exe = true ∧ rank t.pc + t.evq + 1 ≤ rank s.pc + s.evq := by
  cases a <;> simp only [own, Bool.false_eq_true] at ha <;> simp only [step] at hs
  case loop halt =>
    split at hs
    · rename_i hpc
      cases hs
      unfold loop; dsimp only
      split
      · exact ⟨he, by simp [rank, hpc]; omega⟩
      · split <;> exact ⟨he, by simp [rank, hpc]; omega⟩
    · cases hs
  case wake o =>
    split at hs
    · rename_i till hpc
      split at hs
      · cases hs; exact ⟨he, by simp [rank, hpc]; omega⟩
      · split at hs
        · cases hs; exact ⟨he, by simp [rank, hpc]; omega⟩
        · split at hs
          · cases hs; exact ⟨he, by simp [rank, hpc]; omega⟩
          · cases hs
    · cases hs
  case eat =>
    split at hs
    · rename_i hpc
      cases hs; exact ⟨he, by simp [rank, hpc.1]; omega⟩
    · cases hs
  case throw =>
    split at hs
    · rename_i hpc
      cases hs
      rcases hpc with hpc | hpc <;> exact ⟨he, by simp [rank, hpc]; omega⟩
    · cases hs
  case check =>
    split at hs
    · rename_i hpc
      cases hs; exact ⟨he, by simp [rank, hpc, he]; omega⟩
    · cases hs
  case read =>
    split at hs
    · rename_i r hpc
      cases hs; exact ⟨he, by simp [rank, hpc]; omega⟩
    · cases hs
  case remove =>
    split at hs
    · rename_i r hpc
      cases hs; exact ⟨he, by simp [rank, hpc]; omega⟩
    · rename_i hpc
      cases hs; exact ⟨he, by simp [rank, hpc]; omega⟩
    · cases hs

/-- **C102.**  Once the call was informed it ends: the calling thread makes at most five further steps, plus one per
do-nothing event in its queues, and it is never blocked before it has returned. -/
theorem C102_ends (others : List Nat) (old deadline : Option Int) (now : Int) (as bs : List Act) (s t : S)
    (h : run (start others old deadline now) as = some s) (he : s.exe = true) (hown : ∀ a ∈ bs, own a = true)
    (hb : run s bs = some t) :
    bs.length ≤ 5 + s.evq ∧ ((∃ r, t.pc = .done r) ∨ ∃ a u, own a = true ∧ step t a = some u) := by
  have hu := uniq_of_run (Uniq.start others old deadline now) h
  have hi : s.pc ≠ .idle := by
    intro hx
    have := hu.idle hx
    simp only [places, he] at this; simp at this
  have hi5 : rank s.pc ≤ 5 := by cases hpc : s.pc <;> simp [rank, hpc] at hi ⊢
  have key : ∀ (bs : List Act) (s t : S), s.exe = true → (∀ a ∈ bs, own a = true) → run s bs = some t →
      t.exe = true ∧ bs.length + rank t.pc + t.evq ≤ rank s.pc + s.evq := by
    intro bs
    induction bs with
    | nil => intro s t he _ hb; cases hb; exact ⟨he, by simp⟩
    | cons a bs ih =>
      intro s t he hown hb
      simp only [run] at hb
      cases hs : step s a with
      | none => rw [hs] at hb; cases hb
      | some u =>
        rw [hs] at hb
        have h1 := own_exe (hown a (by simp)) he hs
        have h2 := ih u t h1.1 (fun b hb => hown b (by simp [hb])) hb
        refine ⟨h2.1, ?_⟩
        simp only [List.length_cons]
        omega
  obtain ⟨k1, k2⟩ := key bs s t he hown hb
  have hut := uniq_of_run hu hb
  refine ⟨by omega, ?_⟩
  cases hpc : t.pc with
  | idle =>
    have := hut.idle hpc
    simp only [places, k1] at this; simp at this
  | top => exact .inr ⟨.loop false, _, rfl, by simp [step, hpc]; rfl⟩
  | wait till =>
    have hev := hut.event (.inr ⟨till, hpc⟩) k1
    exact .inr ⟨.wake false, { t with pc := .proc, evq := t.evq - 1 }, rfl, by simp [step, hpc, hev]⟩
  | proc => exact .inr ⟨.check, _, rfl, by simp [step, hpc]; rfl⟩
  | brk r => exact .inr ⟨.read, _, rfl, by simp [step, hpc]; rfl⟩
  | rem r => exact .inr ⟨.remove, _, rfl, by simp [step, hpc]; rfl⟩
  | thrown => exact .inr ⟨.remove, _, rfl, by simp [step, hpc]; rfl⟩
  | done r => exact .inl ⟨r, rfl⟩

example : (run (start [3] none none 1000) (good.take 6)).map (fun s => (s.exe, s.pc)) = some (true, .wait 1100) := by decide

theorem wait_aux {s : S} {halt : Bool} {till : Int} (ht : (loop s halt).pc = .wait till) :
    s.now < till ∧ (s.deadline = none → till = s.now + 100) ∧ ∀ d, s.deadline = some d → till = d + 500 := by
  unfold loop timeTill at ht
  cases hd : s.deadline with
  | none =>
    rw [hd] at ht
    dsimp only at ht
    rw [if_neg (by decide)] at ht
    split at ht
    · simp at ht
    · simp at ht
      refine ⟨by omega, fun _ => ht.symm, by simp⟩
  | some d =>
    rw [hd] at ht
    dsimp only at ht
    by_cases h1 : s.now > d + 500
    · simp [h1] at ht
    · simp only [h1, if_false] at ht
      split at ht
      · simp at ht
      · split at ht
        · simp at ht
        · rw [if_neg (by omega)] at ht
          simp at ht
          refine ⟨by omega, by simp, ?_⟩
          intro d' hd'; cases hd'; omega

/-- **C102.**  `SingleLoop` is never told to wait without limit: 0.1 s for a command without timeout, else until half a
second after the timeout of the command. -/
theorem C102_wait (s t : S) (halt : Bool) (till : Int) (hs : step s (.loop halt) = some t) (ht : t.pc = .wait till) :
    s.now < till ∧ (s.deadline = none → till = s.now + 100) ∧ ∀ d, s.deadline = some d → till = d + 500 := by
  simp only [step] at hs
  split at hs
  · cases hs; exact wait_aux ht
  · cases hs

example : ((run (start [3] none (some 2000) 1000) (good.take 1)).bind fun s => step s (.loop false)).map (·.pc) =
    some (.wait 2500) := by decide

/-- Waiting ends with the timeout of the command. -/
def WaitOk (s : S) : Prop := ∀ till d, s.pc = .wait till → s.deadline = some d → till = d + 500

theorem waitOk_step {s t : S} {a : Act} (hw : WaitOk s) (hs : step s a = some t) : WaitOk t := by
  have same : ∀ {u : S}, u.pc = s.pc → u.deadline = s.deadline → WaitOk u := by
    intro u h1 h2 till d h3 h4; exact hw till d (h1 ▸ h3) (h2 ▸ h4)
  cases a with
  | call ok acc =>
    simp only [step] at hs; split at hs <;> cases hs
    unfold call; cases ok <;> (intro till d h1 _; simp at h1)
  | loop halt =>
    have hs' := hs
    intro till d h1 h2
    have hd : t.deadline = s.deadline := by
      simp only [step] at hs; split at hs <;> cases hs
      unfold loop; dsimp only; split
      · rfl
      · split <;> rfl
    simp only [step] at hs; split at hs <;> cases hs
    exact ((wait_aux (halt := halt) h1).2.2 d (hd ▸ h2))
  | wake o =>
    simp only [step] at hs; split at hs
    · split at hs
      · cases hs; intro till d h1 _; simp at h1
      · split at hs
        · cases hs; intro till d h1 _; simp at h1
        · split at hs <;> cases hs; intro till d h1 _; simp at h1
    · cases hs
  | eat => simp only [step] at hs; split at hs <;> cases hs; exact same rfl rfl
  | throw => simp only [step] at hs; split at hs <;> cases hs; intro till d h1 _; simp at h1
  | check =>
    simp only [step] at hs; split at hs <;> cases hs
    intro till d h1 _; cases he : s.exe <;> simp [he] at h1
  | read => simp only [step] at hs; split at hs <;> cases hs; intro till d h1 _; simp at h1
  | remove => simp only [step] at hs; split at hs <;> cases hs <;> (intro till d h1 _; simp at h1)
  | tick n => simp only [step] at hs; cases hs; exact same rfl rfl
  | add n => simp only [step] at hs; cases hs; exact same rfl rfl
  | del n => simp only [step] at hs; cases hs; exact same rfl rfl
  | reply r =>
    simp only [step] at hs; cases hs
    exact same (setRes_frame s r).2.2.1 (setRes_frame s r).2.2.2.1
  | pop i =>
    simp only [step] at hs; split at hs
    · split at hs <;> cases hs <;> exact same rfl rfl
    · cases hs
  | inform i acc =>
    simp only [step] at hs; split at hs
    · rename_i w _
      split at hs
      · cases hs
        cases w
        · simp only [inform]; split <;> exact same rfl rfl
        · exact same rfl rfl
      · cases hs; exact same rfl rfl
    · cases hs

theorem own_late {s t : S} {a : Act} (ha : own a = true) (d : Int) (hd : s.deadline = some d) (hl : d + 500 ≤ s.now)
    (hs : step s a = some t) :
    t.deadline = some d ∧ t.now = s.now ∧ rankLate t.pc + t.evq + 1 ≤ rankLate s.pc + s.evq := by
  cases a <;> simp only [own, Bool.false_eq_true] at ha <;> simp only [step] at hs
  case loop halt =>
    split at hs
    · rename_i hpc
      cases hs
      have h0 : timeTill s = 0 := by
        simp only [timeTill, hd]
        split <;> omega
      unfold loop; dsimp only
      rw [if_pos h0]
      exact ⟨hd, rfl, by simp [rankLate, hpc]; omega⟩
    · cases hs
  case wake o =>
    split at hs
    · rename_i till hpc
      split at hs
      · cases hs; exact ⟨hd, rfl, by simp [rankLate, hpc]; omega⟩
      · split at hs
        · cases hs; exact ⟨hd, rfl, by simp [rankLate, hpc]; omega⟩
        · split at hs
          · cases hs; exact ⟨hd, rfl, by simp [rankLate, hpc]; omega⟩
          · cases hs
    · cases hs
  case eat =>
    split at hs
    · rename_i hpc
      cases hs; exact ⟨hd, rfl, by simp [rankLate, hpc.1]; omega⟩
    · cases hs
  case throw =>
    split at hs
    · rename_i hpc
      cases hs
      rcases hpc with hpc | hpc <;> exact ⟨hd, rfl, by simp [rankLate, hpc]; omega⟩
    · cases hs
  case check =>
    split at hs
    · rename_i hpc
      cases hs
      refine ⟨hd, rfl, ?_⟩
      cases he : s.exe <;> simp [rankLate, hpc] <;> omega
    · cases hs
  case read =>
    split at hs
    · rename_i r hpc
      cases hs; exact ⟨hd, rfl, by simp [rankLate, hpc]; omega⟩
    · cases hs
  case remove =>
    split at hs
    · rename_i r hpc
      cases hs; exact ⟨hd, rfl, by simp [rankLate, hpc]; omega⟩
    · rename_i hpc
      cases hs; exact ⟨hd, rfl, by simp [rankLate, hpc]; omega⟩
    · cases hs

/-- **C102.**  Half a second after the timeout of the command the call ends, answered or not: the calling thread makes at
most seven further steps, plus one per do-nothing event in its queues, and it is never blocked before it has returned. -/
theorem C102_late (others : List Nat) (old deadline : Option Int) (now : Int) (as bs : List Act) (s t : S) (d : Int)
    (h : run (start others old deadline now) as = some s) (hd : s.deadline = some d) (hl : d + 500 ≤ s.now)
    (hi : s.pc ≠ .idle) (hown : ∀ a ∈ bs, own a = true) (hb : run s bs = some t) :
    bs.length ≤ 7 + s.evq ∧ ((∃ r, t.pc = .done r) ∨ ∃ a u, own a = true ∧ step t a = some u) := by
  have hi7 : rankLate s.pc ≤ 7 := by cases hpc : s.pc <;> simp [rankLate, hpc] at hi ⊢
  have key : ∀ (bs : List Act) (s t : S), s.deadline = some d → d + 500 ≤ s.now → s.pc ≠ .idle →
      (∀ a ∈ bs, own a = true) → run s bs = some t →
      t.deadline = some d ∧ d + 500 ≤ t.now ∧ t.pc ≠ .idle ∧ bs.length + rankLate t.pc + t.evq ≤ rankLate s.pc + s.evq := by
    intro bs
    induction bs with
    | nil => intro s t h1 h2 h3 _ hb; cases hb; exact ⟨h1, h2, h3, by simp⟩
    | cons a bs ih =>
      intro s t h1 h2 h3 hown hb
      simp only [run] at hb
      cases hs : step s a with
      | none => rw [hs] at hb; cases hb
      | some u =>
        rw [hs] at hb
        obtain ⟨u1, u2, u3⟩ := own_late (hown a (by simp)) d h1 h2 hs
        have hui : u.pc ≠ .idle := by
          intro hx
          have : rankLate s.pc ≤ 7 := by cases hpc : s.pc <;> simp [rankLate, hpc] at h3 ⊢
          have hev : u.evq = s.evq ∨ u.pc = .proc := by
            have ha := hown a (by simp)
            cases a <;> simp only [own, Bool.false_eq_true] at ha <;> simp only [step] at hs
            case loop halt =>
              split at hs <;> cases hs
              left; unfold loop; dsimp only; split
              · rfl
              · split <;> rfl
            case wake o =>
              split at hs
              · right
                split at hs
                · cases hs; rfl
                · split at hs
                  · cases hs; rfl
                  · split at hs <;> cases hs; rfl
              · cases hs
            case eat =>
              split at hs
              · rename_i hp; cases hs; exact .inr hp.1
              · cases hs
            case throw => split at hs <;> cases hs; exact .inl rfl
            case check => split at hs <;> cases hs; exact .inl rfl
            case read => split at hs <;> cases hs; exact .inl rfl
            case remove => split at hs <;> cases hs <;> exact .inl rfl
          rcases hev with hev | hev
          · have h8 : rankLate u.pc = 8 := by rw [hx]; rfl
            omega
          · rw [hev] at hx; cases hx
        obtain ⟨k1, k2, k3, k4⟩ := ih u t u1 (by omega) hui (fun b hb => hown b (by simp [hb])) hb
        refine ⟨k1, k2, k3, ?_⟩
        simp only [List.length_cons]
        omega
  obtain ⟨k1, k2, k3, k4⟩ := key bs s t hd hl hi hown hb
  have hw : WaitOk t := by
    have h0 : WaitOk (start others old deadline now) := by intro till d h1 _; simp [start] at h1
    have h1 := run_induct (fun _ s => WaitOk s) (fun _ _ _ _ => waitOk_step) as [] _ s h0 h
    exact run_induct (fun _ s => WaitOk s) (fun _ _ _ _ => waitOk_step) bs [] _ t h1 hb
  refine ⟨by omega, ?_⟩
  cases hpc : t.pc with
  | idle => exact absurd hpc k3
  | top => exact .inr ⟨.loop false, _, rfl, by simp [step, hpc]; rfl⟩
  | wait till =>
    have h1 := hw till d hpc k1
    have : till ≤ t.now := by omega
    by_cases hev : t.evq > 0
    · exact .inr ⟨.wake false, { t with pc := .proc, evq := t.evq - 1 }, rfl, by simp [step, hpc, hev]⟩
    · exact .inr ⟨.wake false, { t with pc := .proc }, rfl, by simp [step, hpc, hev, this]⟩
  | proc => exact .inr ⟨.check, _, rfl, by simp [step, hpc]; rfl⟩
  | brk r => exact .inr ⟨.read, _, rfl, by simp [step, hpc]; rfl⟩
  | rem r => exact .inr ⟨.remove, _, rfl, by simp [step, hpc]; rfl⟩
  | thrown => exact .inr ⟨.remove, _, rfl, by simp [step, hpc]; rfl⟩
  | done r => exact .inl ⟨r, rfl⟩

example : (run (start [] none (some 100) 0) [.call true fun _ => true, .loop false, .tick 600]).map
    (fun s => (s.deadline, s.now, s.pc)) = some (some 100, 600, .wait 600) := by decide

/-- **C102, what fails**: without timeout a call whose command is never replied does not end: the thread can turn its
loop as often as one likes. -/
theorem C102_endless_counterexample (n : Nat) :
    ∃ as s, run (start [] none none 0) as = some s ∧ s.pc = .top ∧ s.now = 100 * n ∧ replies as = [] := by
  have key : ∀ n : Nat, ∃ as, run (start [] none none 0) as =
      some { start [] none none 0 with callers := [.me], pc := .top, now := 100 * n } ∧ replies as = [] := by
    intro n
    induction n with
    | zero => exact ⟨[.call true fun _ => true], rfl, rfl⟩
    | succ n ih =>
      obtain ⟨as, h1, h2⟩ := ih
      refine ⟨as ++ [.loop false, .tick 100, .wake false, .check], ?_, by rw [replies_append, h2]; rfl⟩
      rw [run_append, h1]
      simp [run, step, loop, timeTill, start]
      omega
  obtain ⟨as, h1, h2⟩ := key n
  exact ⟨as, _, h1, rfl, rfl, h2⟩

/-! ## Which way the command goes -/

/-- **C102.**  `Execute` leaves the calling thread waiting with a running event loop whenever the worker has a thread;
without thread the command is processed by the caller itself, and a null command is refused. -/
theorem C102_route (null thrd itself known : Bool) :
    (route null thrd itself known = .refuse ↔ null = true) ∧
    (route null thrd itself known = .direct ↔ null = false ∧ thrd = false) ∧
    (route null thrd itself known = .own ↔ null = false ∧ thrd = true ∧ itself = true) ∧
    (route null thrd itself known = .dummy ↔ null = false ∧ thrd = true ∧ itself = false ∧ known = false) := by
  cases null <;> cases thrd <;> cases itself <;> cases known <;> decide

/-- **C102, what fails**: `ExecuteIn` never executes anything: with a thread it returns false at once, without one it uses
a null pointer. -/
theorem C102_executeIn_counterexample (thrd : Bool) (res : Int) : executeIn thrd res ≠ some true := by
  cases thrd <;> simp [executeIn]

end Verif.SyncExec
