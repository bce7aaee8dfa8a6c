import Verif.SockCmdLive
import Verif.Spec.SockCmd

/-!
# C77: the command channel answers every command once and with its own result
-/

namespace Verif.SockCmd

open Spec

/-- What holds in all runs. -/
structure Inv (s : S) : Prop where
  line : ∀ e, (line s e).Sublist (s.submitted e)
  nodup : (s.submitted false ++ s.submitted true).Nodup
  tally : ∀ c, tally s c = (s.submitted false).count c + (s.submitted true).count c
  base : ∀ e, Base s e
  exec : ∀ d, ∀ w ∈ (s.side (!d)).exec, w.2 ∈ s.executed d
  count : ∀ c, (s.finished.map (·.1)).count c + (((s.side false).exec.map (·.2)).count c +
    ((s.side true).exec.map (·.2)).count c) ≤ (s.executed false).count c + (s.executed true).count c

theorem inv_init : Inv {} := by
  refine ⟨?_, ?_, ?_, ?_, ?_, ?_⟩
  · intro e; simp [Verif.SockCmd.line]
  · simp
  · intro c; simp [Verif.SockCmd.tally, Side.kept]
  · intro e; exact ⟨by simp, by simp, by simp⟩
  · intro d w hw; simp at hw
  · intro c; simp

theorem submitted_nodup_step {s : S} (h : (s.submitted false ++ s.submitted true).Nodup) (op : Op) :
    ((step s op).submitted false ++ (step s op).submitted true).Nodup := by
  rcases line_step s op false with ⟨_, h1⟩ | ⟨c, env, rfl, hc, _, h1⟩
  · rcases line_step s op true with ⟨_, h2⟩ | ⟨c, env, rfl, hc, _, h2⟩
    · rw [h1, h2]; exact h
    · rw [h1, h2, ← List.append_assoc]
      rw [List.nodup_append]
      exact ⟨h, by simp, fun a ha b hb e => hc (by rw [List.mem_singleton.1 hb] at e; rw [← e]; exact ha)⟩
  · rcases line_step s (.submit false c env) true with ⟨_, h2⟩ | ⟨c', env', he, _, _, _⟩
    · rw [h1, h2]
      have hp : (s.submitted false ++ [c] ++ s.submitted true).Perm (c :: (s.submitted false ++ s.submitted true)) := by
        rw [List.append_assoc]
        exact List.perm_middle
      rw [hp.nodup_iff, List.nodup_cons]
      exact ⟨hc, h⟩
    · cases he

theorem sublist_count_map {l l' : List (Nat × Nat)} (h : l.Sublist l') (c : Nat) :
    (l.map (·.2)).count c ≤ (l'.map (·.2)).count c := (h.map _).count_le c

theorem inv_step {s : S} (h : Inv s) (op : Op) : Inv (step s op) := by
  refine ⟨?_, submitted_nodup_step h.nodup op, fun c => tally_step s op c (h.tally c), fun e => base_step (h.base e) op, ?_,
    ?_⟩
  · intro e
    rcases line_step s op e with ⟨h1, h2⟩ | ⟨c, env, rfl, _, h1, h2⟩
    · rw [h2]; exact h1.trans (h.line e)
    · rw [h2]; exact h1.trans ((h.line e).append (List.Sublist.refl _))
  · intro d w hw
    rcases calm_step s op with hc | ⟨d', i, v, env, w', _, hw', he, _, hx, _⟩ | ⟨d', p, _, _, _, he, hx, _⟩ |
        ⟨d', p, w', _, _, _, _, _, he, hx, _⟩
    · rw [hc.executed]; exact h.exec d w ((hc.exec _).subset hw)
    · rw [he]
      have := (hx (!d)).subset hw
      split at this
      · rename_i hd; exact h.exec d w (by rw [hd]; exact List.mem_of_mem_eraseIdx this)
      · exact h.exec d w this
    · rw [he]
      rw [hx] at hw
      split at hw
      · rename_i hd
        have hd' : d = !d' := by cases d <;> cases d' <;> simp_all
        rcases List.mem_append.1 hw with h1 | h1
        · have := h.exec d w (by rw [hd]; exact h1)
          rw [hd'] at this ⊢
          rw [put_same]; exact List.mem_append_left _ this
        · rw [List.mem_singleton.1 h1, hd', put_same]
          exact List.mem_append_right _ (by simp)
      · rename_i hd
        have hd' : d ≠ !d' := by cases d <;> cases d' <;> simp_all
        have := h.exec d w hw
        simpa [put, hd'] using this
    · rw [he]; rw [hx] at hw; exact h.exec d w hw
  · intro c
    have hb := h.count c
    rcases calm_step s op with hc | ⟨d', i, v, env, w', _, hw', he, hf, hx, _⟩ | ⟨d', p, _, _, hf, he, hx, _⟩ |
        ⟨d', p, w', _, _, _, _, hf, he, hx, _⟩
    · rw [hc.executed, hc.finished]
      have h1 := sublist_count_map (hc.exec false) c
      have h2 := sublist_count_map (hc.exec true) c
      omega
    · rw [he, hf]
      have h1 := sublist_count_map (hx false) c
      have h2 := sublist_count_map (hx true) c
      have h3 := count_eraseIdx_map _ i w' hw' (·.2) c
      simp only [List.count_cons, List.count_nil, beq_iff_eq] at h3
      cases d' <;> simp [List.count_append, List.count_cons] at * <;> omega
    · rw [he, hf, hx, hx]
      cases d' <;> simp [List.count_append, List.count_cons] <;> omega
    · rw [he, hf, hx, hx]; exact hb

theorem inv_run {s : S} (h : Inv s) (ops : List Op) : Inv (run s ops) := by
  induction ops generalizing s with
  | nil => exact h
  | cons op ops ih => exact ih (inv_step h op)

/-- **C77**, account: in every run each submitted command is in exactly one place, the send queue, the queue of waiting
commands or the answers, and there once; a command which was not submitted is nowhere. -/
theorem C77_account (ops : List Op) (c : Nat) :
    answered (run {} ops) c + (queued (run {} ops) false c + waiting (run {} ops) false c) +
        (queued (run {} ops) true c + waiting (run {} ops) true c) =
      if c ∈ (run {} ops).submitted false ∨ c ∈ (run {} ops).submitted true then 1 else 0 := by
  have h := inv_run inv_init ops
  generalize run {} ops = s at h
  have h1 := h.tally c
  have hown : ∀ l : List Item, (l.filterMap Item.own).count c = l.countP (fun it => decide (it = .cmd c)) := by
    intro l
    induction l with
    | nil => rfl
    | cons x t ih =>
      cases x with
      | cmd c' => simp [Item.own, List.count_cons, List.countP_cons, ih]
      | reply a b v => simp [Item.own, List.filterMap_cons, List.countP_cons, ih]
  have hcnt : ∀ {α : Type} (f : α → Nat) (l : List α), (l.map f).count c = l.countP (fun x => decide (f x = c)) := by
    intro α f l
    induction l with
    | nil => rfl
    | cons x t ih => simp [List.count_cons, List.countP_cons, ih]
  simp only [tally, Side.kept, hown, hcnt] at h1
  have h2 := List.nodup_iff_count.1 h.nodup c
  rw [List.count_append] at h2
  unfold answered queued waiting
  split
  · rename_i hm
    have : 0 < (s.submitted false).count c + (s.submitted true).count c := by
      rcases hm with hm | hm
      · have := List.count_pos_iff.2 hm; omega
      · have := List.count_pos_iff.2 hm; omega
    omega
  · rename_i hm
    rw [not_or] at hm
    rw [List.count_eq_zero.2 hm.1, List.count_eq_zero.2 hm.2] at h1
    omega

example : answered (run {} [.retry, .connect {}, .submit false 5 {}, .read true, .dispatch true {}, .read true,
    .dispatch true {}, .finish true 0 9 {}, .read false, .dispatch false {}, .read false, .dispatch false {}]) 5 = 1 := by
  decide

/-- **C77**, order: the commands which the other side executes are a part of those submitted, in their order and each
at most once. -/
theorem C77_order (ops : List Op) (d : Bool) :
    ((run {} ops).executed d).Sublist ((run {} ops).submitted d) ∧ ((run {} ops).submitted d).Nodup := by
  have h := inv_run inv_init ops
  refine ⟨(List.sublist_append_left _ _).trans (h.line d), ?_⟩
  have := List.nodup_append.1 h.nodup
  cases d
  · exact this.1
  · exact this.2.1

example : (run {} [.submit false 1 {}, .submit false 2 {}, .retry, .connect {}, .read true, .dispatch true {}, .read true,
    .dispatch true {}]).executed false = [1] := by decide

/-- **C77**, one result: an executed command finishes once. -/
theorem C77_finished (ops : List Op) (c v v' : Nat) (h : (c, v) ∈ (run {} ops).finished)
    (h' : (c, v') ∈ (run {} ops).finished) : v = v' := by
  have hi := inv_run inv_init ops
  generalize run {} ops = s at h h' hi
  have h1 := hi.count c
  have h2 : (s.executed false).count c + (s.executed true).count c ≤ 1 := by
    have h3 := List.nodup_iff_count.1 hi.nodup c
    rw [List.count_append] at h3
    have h4 := (((List.sublist_append_left _ _).trans (hi.line false)).count_le c)
    have h5 := (((List.sublist_append_left _ _).trans (hi.line true)).count_le c)
    omega
  have h3 : (s.finished.map (·.1)).count c ≤ 1 := by omega
  have key : ∀ l : List (Nat × Nat), (l.map (·.1)).count c ≤ 1 → (c, v) ∈ l → (c, v') ∈ l → v = v' := by
    intro l
    induction l with
    | nil => intro _ hm; cases hm
    | cons x t ih =>
      intro hl h1 h2
      simp only [List.map_cons, List.count_cons, beq_iff_eq] at hl
      rcases List.mem_cons.1 h1 with rfl | h1'
      · rcases List.mem_cons.1 h2 with h | h2'
        · exact (Prod.mk.inj h).2.symm
        · have : 0 < (t.map (·.1)).count c := List.count_pos_iff.2 (List.mem_map.2 ⟨_, h2', rfl⟩)
          simp at hl; omega
      · rcases List.mem_cons.1 h2 with rfl | h2'
        · have : 0 < (t.map (·.1)).count c := List.count_pos_iff.2 (List.mem_map.2 ⟨_, h1', rfl⟩)
          simp at hl; omega
        · exact ih (by omega) h1' h2'
  exact key _ h3 h h'

example : (5, 9) ∈ (run {} [.retry, .connect {}, .submit false 5 {}, .read true, .dispatch true {}, .read true,
    .dispatch true {}, .finish true 0 9 {}]).finished := by decide

/-- What is under way fits and the results given belong to the commands. -/
structure Good (s : S) (e : Bool) : Prop where
  fits : Fits s e
  ans : ∀ c v, (c, Res.val v) ∈ s.answers → c ∈ s.submitted e → (c, v) ∈ s.finished

theorem disjoint_submitted {s : S} (h : Inv s) {c : Nat} {d e : Bool} (h1 : c ∈ s.submitted d) (h2 : c ∈ s.submitted e) :
    d = e := by
  have := (List.nodup_append.1 h.nodup).2.2
  cases d <;> cases e
  · rfl
  · exact absurd rfl (this c h1 c h2)
  · exact absurd rfl (this c h2 c h1)
  · rfl

theorem given_unique {s : S} {d : Bool} (hb : Base s d) (hl : (s.submitted d).length < 4294967296) {w w' : Nat × Nat}
    (hw : w ∈ (s.side d).given) (hw' : w' ∈ (s.side d).given) (he : w.1 = w'.1) : w = w' := by
  have hlen : (s.side d).given.length ≤ (s.submitted d).length := by
    have := hb.sub.length_le
    simp only [List.length_append, List.length_map] at this
    omega
  have hn := (hb.num (by omega)).2
  have hnd : ((s.side d).given.map (·.1)).Nodup := by rw [hn]; exact List.nodup_range'
  obtain ⟨i, hi, rfl⟩ := List.getElem_of_mem hw
  obtain ⟨j, hj, rfl⟩ := List.getElem_of_mem hw'
  have : i = j := by
    refine (List.getElem_inj (xs := (s.side d).given.map (·.1)) (h₀ := by simpa using hi) (h₁ := by simpa using hj)
      hnd).1 ?_
    simpa using he
  subst this; rfl

theorem answers_submitted {s : S} (h : Inv s) {c : Nat} {r : Res} (hm : (c, r) ∈ s.answers) :
    c ∈ s.submitted false ++ s.submitted true := by
  have h1 := h.tally c
  have : 0 < (s.answers.map (·.1)).count c := List.count_pos_iff.2 (List.mem_map.2 ⟨_, hm, rfl⟩)
  rw [← List.count_pos_iff, List.count_append]
  unfold tally at h1
  omega

theorem good_step {s : S} {e : Bool} (hi : Inv s) (h : Good s e) (op : Op) (hf : e = false ∨ Spec.Fresh s op)
    (hl : (s.submitted e).length < 4294967296) : Good (step s op) e := by
  refine ⟨?_, ?_⟩
  · rcases hf with hf | hf
    · exact fits_step h.fits op (Or.inl hf)
    · cases op with
      | connect env =>
        cases hio : (s.side false).io with
        | true =>
          have : step s (.connect env) = s := by
            unfold step
            split
            · rfl
            · simp [S.connect, hio]
          rw [this]; exact h.fits
        | false =>
          refine fits_step h.fits _ (Or.inr ⟨(hf hio).1, ?_⟩)
          intro it hit ho
          cases it with
          | cmd c => cases ho
          | reply a b v => exact (hf hio).2 a b v hit
      | _ => exact fits_step h.fits _ (Or.inr trivial)
  · intro c v hm hs
    have old : ∀ {F : List (Nat × Nat)}, (∀ x ∈ s.finished, x ∈ F) → (c, Res.val v) ∈ s.answers → (c, v) ∈ F := by
      intro F hF ha
      refine hF _ (h.ans c v ha ?_)
      rcases line_step s op e with ⟨_, h2⟩ | ⟨c', env, _, hc', _, h2⟩
      · rw [h2] at hs; exact hs
      · rw [h2] at hs
        rcases List.mem_append.1 hs with hs | hs
        · exact hs
        · rw [List.mem_singleton.1 hs] at ha
          exact absurd (answers_submitted hi ha) hc'
    rcases calm_step s op with hc | ⟨d', i, v', env, w', _, _, _, hf', _, ha⟩ | ⟨d', p, _, _, hf', _, _, ha⟩ |
        ⟨d', p, w', hp, hk, hw, hid, hf', _, _, ha⟩
    · rw [hc.finished]; exact old (fun _ h => h) (hc.answers c v hm)
    · rw [hf']; exact old (fun _ h => List.mem_append_left _ h) (ha c v hm)
    · rw [hf']; rw [ha] at hm; exact old (fun _ h => h) hm
    · rw [hf']
      rw [ha] at hm
      rcases List.mem_append.1 hm with hm | hm
      · exact old (fun _ h => h) hm
      · simp only [List.mem_singleton, Prod.mk.injEq, Res.val.injEq] at hm
        obtain ⟨rfl, rfl⟩ := hm
        have hg := (hi.base d').wait w' hw
        have hsub : w'.2 ∈ s.submitted d' :=
          (hi.base d').sub.subset (List.mem_append_left _ (List.mem_map.2 ⟨w', hg, rfl⟩))
        have hsub' : w'.2 ∈ s.submitted e := by
          rcases line_step s op e with ⟨_, h2⟩ | ⟨c', env, _, hc', _, h2⟩
          · rw [h2] at hs; exact hs
          · rw [h2] at hs
            rcases List.mem_append.1 hs with hs | hs
            · exact hs
            · rw [List.mem_singleton.1 hs] at hsub
              exfalso; apply hc'
              cases d'
              · exact List.mem_append_left _ hsub
              · exact List.mem_append_right _ hsub
        have hde := disjoint_submitted hi hsub hsub'
        subst hde
        obtain ⟨h1, h2⟩ := h.fits.repBuf p hp hk
        have := given_unique (hi.base d') hl hg h1 hid
        rw [show w'.2 = p.c from congrArg Prod.snd this]
        exact h2

theorem submitted_mono (s : S) (op : Op) (e : Bool) : (s.submitted e).length ≤ ((step s op).submitted e).length := by
  rcases line_step s op e with ⟨_, h⟩ | ⟨c, env, _, _, _, h⟩ <;> rw [h] <;> simp

theorem submitted_mono_run (s : S) (ops : List Op) (e : Bool) :
    (s.submitted e).length ≤ ((run s ops).submitted e).length := by
  induction ops generalizing s with
  | nil => exact Nat.le_refl _
  | cons op ops ih => exact Nat.le_trans (submitted_mono s op e) (ih (step s op))

theorem good_run {s : S} {e : Bool} (hi : Inv s) (h : Good s e) (ops : List Op) (hf : e = false ∨ AllFresh s ops)
    (hl : ((run s ops).submitted e).length < 4294967296) : Good (run s ops) e := by
  induction ops generalizing s with
  | nil => exact h
  | cons op ops ih =>
    have hlen : (s.submitted e).length < 4294967296 := by
      have := submitted_mono_run s (op :: ops) e
      omega
    refine ih (inv_step hi op) (good_step hi h op ?_ hlen) ?_ hl
    · rcases hf with hf | hf
      · exact Or.inl hf
      · exact Or.inr hf.1
    · rcases hf with hf | hf
      · exact Or.inl hf
      · exact Or.inr hf.2

theorem good_init (e : Bool) : Good {} e := by
  refine ⟨⟨?_, ?_, ?_, ?_, ?_, ?_⟩, ?_⟩ <;> simp

theorem finished_executed {s : S} (h : Inv s) {c v : Nat} (hm : (c, v) ∈ s.finished) {e : Bool} (hs : c ∈ s.submitted e) :
    c ∈ s.executed e := by
  have h1 := h.count c
  have h2 : 0 < (s.finished.map (·.1)).count c := List.count_pos_iff.2 (List.mem_map.2 ⟨_, hm, rfl⟩)
  have h3 : ∃ d, c ∈ s.executed d := by
    by_cases hf : c ∈ s.executed false
    · exact ⟨false, hf⟩
    · refine ⟨true, List.count_pos_iff.1 ?_⟩
      have := List.count_eq_zero.2 hf
      omega
  obtain ⟨d, hd⟩ := h3
  have : c ∈ s.submitted d := ((List.sublist_append_left _ _).trans (h.line d)).subset hd
  rw [disjoint_submitted h hs this]
  exact hd

/-- **C77**, result: a command of the connecting side which is answered with a result was executed at the other side and
this is its result; for any loss of connections, timeouts and cancelled commands. -/
theorem C77_result (ops : List Op) (c v : Nat) (h : (c, Res.val v) ∈ (run {} ops).answers)
    (hc : c ∈ (run {} ops).submitted false) (hn : ((run {} ops).submitted false).length < 4294967296) :
    c ∈ (run {} ops).executed false ∧ (c, v) ∈ (run {} ops).finished := by
  have hi := inv_run inv_init ops
  have hg := good_run inv_init (good_init false) ops (Or.inl rfl) hn
  exact ⟨finished_executed hi (hg.ans c v h hc) hc, hg.ans c v h hc⟩

example : (5, Res.val 9) ∈ (run {} [.retry, .connect {}, .submit false 5 {}, .read true, .dispatch true {}, .read true,
    .dispatch true {}, .finish true 0 9 {}, .read false, .dispatch false {}, .read false, .dispatch false {}]).answers := by
  decide

/-- **C77**, result at the accepting side: the same, when at every new connection nothing is left of commands which came
by the old one. -/
theorem C77_result_partial (ops : List Op) (hf : AllFresh {} ops) (c v : Nat) (h : (c, Res.val v) ∈ (run {} ops).answers)
    (hc : c ∈ (run {} ops).submitted true) (hn : ((run {} ops).submitted true).length < 4294967296) :
    c ∈ (run {} ops).executed true ∧ (c, v) ∈ (run {} ops).finished := by
  have hi := inv_run inv_init ops
  have hg := good_run inv_init (good_init true) ops (Or.inr hf) hn
  exact ⟨finished_executed hi (hg.ans c v h hc) hc, hg.ans c v h hc⟩

/-- Operations by which a packet of side `!d` gets to side `d`. -/
def take (d : Bool) : List Op := [.read d, .dispatch d {}, .read d, .dispatch d {}]

example : AllFresh {} ([.retry, .connect {}, .submit true 5 {}] ++ take false ++ [.finish false 0 9 {}] ++ take true) ∧
    (5, Res.val 9) ∈
      (run {} ([.retry, .connect {}, .submit true 5 {}] ++ take false ++ [.finish false 0 9 {}] ++ take true)).answers := by
  constructor
  · simp [take, AllFresh, Spec.Fresh, step, S.retry, S.upd]
  · decide

theorem distinct_of_inv {s : S} (h : Inv s) (hl : ∀ d, (s.submitted d).length < 4294967296) : Distinct s := by
  intro d
  refine ⟨?_, fun w hw w' hw' he => given_unique (h.base d) (hl d) ((h.base d).wait w hw) ((h.base d).wait w' hw') he⟩
  rw [List.nodup_iff_count]
  intro w
  have h1 := h.tally w.2
  have h2 := List.nodup_iff_count.1 h.nodup w.2
  have h3 : (s.side d).waitq.count w ≤ ((s.side d).waitq.map (·.2)).count w.2 := List.count_le_count_map
  rw [List.count_append] at h2
  unfold tally Side.kept at h1
  cases d <;> omega

/-- An undisturbed channel. -/
structure Und (s : S) : Prop where
  inv : Inv s
  good : ∀ d, Good s d
  state : Idle s ∨ (Live s ∧ Tok s ∧ Clean s)

theorem und_step {s : S} (h : Und s) {op : Op} (hu : Undisturbed op) (hl : ∀ d, (s.submitted d).length < 4294967296) :
    Und (step s op) := by
  refine ⟨inv_step h.inv op, fun d => good_step h.inv (h.good d) op (Or.inr ?_) (hl d), ?_⟩
  · cases op with
    | connect env =>
      intro hio
      rcases h.state with hi | ⟨hv, _⟩
      · refine ⟨hi.exec false, fun id c v hm => ?_⟩
        obtain ⟨c', hc'⟩ := hi.items _ hm
        cases hc'
      · rw [(hv.ok false).io] at hio; cases hio
    | _ => trivial
  · rcases h.state with hi | ⟨hv, ht, hc⟩
    · exact idle_step hi hu
    · exact Or.inr ⟨live_step hv hu, tok_step hv ht hc (distinct_of_inv h.inv hl) hu, clean_step hv hc hu⟩

theorem und_run {s : S} (h : Und s) (ops : List Op) (hu : ∀ op ∈ ops, Undisturbed op)
    (hl : ∀ d, ((run s ops).submitted d).length < 4294967296) : Und (run s ops) := by
  induction ops generalizing s with
  | nil => exact h
  | cons op ops ih =>
    refine ih (und_step h (hu op (List.mem_cons_self ..)) fun d => ?_) (fun o ho => hu o (List.mem_cons_of_mem _ ho)) hl
    have := submitted_mono_run s (op :: ops) d
    have := hl d
    omega

theorem und_init : Und {} := ⟨inv_init, good_init, Or.inl idle_init⟩

/-- **C77**, nothing is lost: when no connection breaks and no command times out or is cancelled, and nothing is under way
any more, then every submitted command was executed and is replied with its result. -/
theorem C77_delivered (ops : List Op) (hu : ∀ op ∈ ops, Undisturbed op)
    (hl : ∀ d, ((run {} ops).submitted d).length < 4294967296) (hq : Quiet (run {} ops)) (d : Bool) (c : Nat)
    (hc : c ∈ (run {} ops).submitted d) :
    ∃ v, (c, Res.val v) ∈ (run {} ops).answers ∧ (c, v) ∈ (run {} ops).finished ∧ c ∈ (run {} ops).executed d := by
  have h := und_run und_init ops hu hl
  have ha := C77_account ops c
  generalize run {} ops = s at *
  rw [if_pos (by cases d; exact Or.inl hc; exact Or.inr hc)] at ha
  have hs : ∀ e, queued s e c = 0 := fun e => by simp [queued, (hq e).1]
  have hw : ∀ e, (s.side e).waitq = [] := by
    intro e
    rcases h.state with hi | ⟨hv, ht, _⟩
    · exact hi.waitq e
    · refine List.eq_nil_iff_forall_not_mem.2 fun w hw => ?_
      have hb : ∀ e, (s.side e).rbuf = none := by
        intro e
        rcases (hv.ok e).rcv with ⟨_, _, h1, _⟩ | ⟨_, h1, _⟩
        · exact h1
        · simp [(hq e).2.2.2] at h1
      have := ht e w hw
      simp [flight, hb, (hq _).1, (hq _).2.1, (hq _).2.2.1] at this
  have hw' : ∀ e, waiting s e c = 0 := fun e => by simp [waiting, hw e]
  rw [hs, hs, hw', hw'] at ha
  have hpos : 0 < s.answers.countP (fun a => decide (a.1 = c)) := by unfold answered at ha; omega
  obtain ⟨a, ham, hac⟩ := List.countP_pos_iff.1 hpos
  have hac' : a.1 = c := by simpa using hac
  rcases h.state with hi | ⟨hv, ht, hcl⟩
  · rw [hi.answers] at ham; cases ham
  · obtain ⟨v, hval⟩ := hcl.val a ham
    have hm : (c, Res.val v) ∈ s.answers := by
      rw [← hac', ← hval]; exact ham
    have hf := (h.good d).ans c v hm hc
    exact ⟨v, hm, hf, finished_executed h.inv hf hc⟩

theorem connected_live {s : S} (h : Und s) (hio : (s.side false).io = true) : Live s ∧ Clean s := by
  rcases h.state with hi | ⟨hv, _, hc⟩
  · rw [hi.io] at hio; cases hio
  · exact ⟨hv, hc⟩

theorem moving_bound {s : S} (h : Live s) (hc : Clean s) (ops : List Op) (hu : ∀ op ∈ ops, Undisturbed op)
    (hn : ∀ op ∈ ops, NoSubmit op) (hm : Moving s ops) : ops.length ≤ cost s := by
  induction ops generalizing s with
  | nil => exact Nat.zero_le _
  | cons op ops ih =>
    have hu' := hu op (List.mem_cons_self ..)
    have := ih (live_step h hu') (clean_step h hc hu') (fun o ho => hu o (List.mem_cons_of_mem _ ho))
      (fun o ho => hn o (List.mem_cons_of_mem _ ho)) hm.2
    rcases cost_step h hc hu' (hn op (List.mem_cons_self ..)) with h1 | h1
    · exact absurd h1 hm.1
    · simp only [List.length_cons]; omega

/-- **C77**, nothing stands still: in a connected channel something can always be done while anything is under way. -/
theorem C77_moves (ops : List Op) (hu : ∀ op ∈ ops, Undisturbed op)
    (hl : ∀ d, ((run {} ops).submitted d).length < 4294967296) (hio : ((run {} ops).side false).io = true)
    (hq : ¬ Quiet (run {} ops)) : ∃ op, Undisturbed op ∧ NoSubmit op ∧ step (run {} ops) op ≠ run {} ops := by
  obtain ⟨h1, h2⟩ := connected_live (und_run und_init ops hu hl) hio
  exact moves h1 h2 hq

/-- **C77**, the work ends: without new commands, however the steps of the two workers and sockets follow each other,
only so many of them have an effect. -/
theorem C77_ends (pre : List Op) (hu : ∀ op ∈ pre, Undisturbed op)
    (hl : ∀ d, ((run {} pre).submitted d).length < 4294967296) (hio : ((run {} pre).side false).io = true) :
    ∃ N, ∀ ops : List Op, (∀ op ∈ ops, Undisturbed op) → (∀ op ∈ ops, NoSubmit op) → Moving (run {} pre) ops →
      ops.length ≤ N := by
  obtain ⟨h1, h2⟩ := connected_live (und_run und_init pre hu hl) hio
  exact ⟨cost (run {} pre), fun ops hu' hn hm => moving_bound h1 h2 ops hu' hn hm⟩

example : (∀ op ∈ ([.retry, .submit false 5 {}, .connect {}] : List Op), Undisturbed op) ∧
    ((run {} [.retry, .submit false 5 {}, .connect {}]).side false).io = true ∧
    ¬ Quiet (run {} [.retry, .submit false 5 {}, .connect {}]) := by
  refine ⟨?_, by decide, fun h => ?_⟩
  · intro op hop
    simp at hop
    rcases hop with rfl | rfl | rfl
    · trivial
    · exact fine_default
    · exact fine_default
  · exact absurd (h false).2.1 (by decide)

example : Quiet (run {} ([.retry, .submit false 5 {}, .connect {}] ++ take true ++ [.finish true 0 9 {}] ++ take false ++
    [.wrote false, .dispatch false {}, .wrote true, .dispatch true {}])) := by
  intro d; cases d <;> decide

/-- **C77** is violated at the accepting side: the connecting side answers a command of the old connection by the new
one, where its number belongs to another command; this is replied with the result of the first and was never executed. -/
theorem C77_stale_counterexample :
    ∃ ops : List Op, (2, Res.val 77) ∈ (run {} ops).answers ∧ 2 ∉ (run {} ops).executed true ∧
      (1, 77) ∈ (run {} ops).finished :=
  ⟨[.retry, .connect {}, .submit true 1 {}] ++ take false ++ [.fail false, .dispatch false {}, .retry, .connect {},
    .submit true 2 {}, .finish false 0 77 {}] ++ take true, by decide⟩

theorem never_executed {s : S} {d : Bool} {c : Nat} (hc : c ∈ s.submitted d) (hn : c ∉ line s d) (ops : List Op) :
    c ∈ (run s ops).submitted d ∧ c ∉ line (run s ops) d := by
  induction ops generalizing s with
  | nil => exact ⟨hc, hn⟩
  | cons op ops ih =>
    rcases line_step s op d with ⟨h1, h2⟩ | ⟨c', env, _, hc', h1, h2⟩
    · exact ih (by rw [h2]; exact hc) (fun hm => hn (h1.subset hm))
    · refine ih (by rw [h2]; exact List.mem_append_left _ hc) (fun hm => ?_)
      rcases List.mem_append.1 (h1.subset hm) with hm | hm
      · exact hn hm
      · rw [List.mem_singleton] at hm
        subst hm
        apply hc'
        cases d
        · exact List.mem_append_left _ hc
        · exact List.mem_append_right _ hc

/-- A command which is in no queue and in no packet is never executed and gets no result. -/
theorem lost_run (pre : List Op) (c : Nat) (hc : c ∈ (run {} pre).submitted false) (hn : c ∉ line (run {} pre) false)
    (ops : List Op) (hl : ((run {} (pre ++ ops)).submitted false).length < 4294967296) :
    c ∉ (run {} (pre ++ ops)).executed false ∧ ∀ v, (c, Res.val v) ∉ (run {} (pre ++ ops)).answers := by
  have hr : run {} (pre ++ ops) = run (run {} pre) ops := by simp [run]
  have h1 := never_executed hc hn ops
  rw [← hr] at h1
  have h2 : c ∉ (run {} (pre ++ ops)).executed false := fun hm => h1.2 (List.mem_append_left _ hm)
  exact ⟨h2, fun v hv => h2 (C77_result _ c v hv h1.1 hl).1⟩

/-- **C77** is violated: a command which is submitted after the connection was lost while nothing was sent is numbered but
never sent; whatever comes later, also a new connection, the other side does not execute it and it gets no result. -/
theorem C77_lost_counterexample :
    ∃ pre : List Op, ∃ c, c ∈ (run {} pre).submitted false ∧ (run {} pre).crashed = false ∧
      ∀ ops : List Op, ((run {} (pre ++ ops)).submitted false).length < 4294967296 →
        c ∉ (run {} (pre ++ ops)).executed false ∧ ∀ v, (c, Res.val v) ∉ (run {} (pre ++ ops)).answers :=
  ⟨[.retry, .connect {}, .fail false, .dispatch false {}, .submit false 3 {}], 3, by decide, by decide,
    lost_run _ 3 (by decide) (by decide)⟩

/-- **C77** is violated: the submission of a command stops the attempt to open a new connection. -/
theorem C77_attempt_counterexample :
    ∃ pre : List Op, ((run {} pre).side false).trying = true ∧
      ((run {} (pre ++ [.submit false 3 {}])).side false).trying = false ∧
      ((run {} (pre ++ [.submit false 3 {}, .connect {}])).side false).io = false :=
  ⟨[.retry, .connect {}, .fail false, .dispatch false {}, .retry], by decide⟩

/-- **C77** is violated: commands sent before the connection was lost are not sent again and, without timeout, not
answered. -/
theorem C77_dropped_counterexample :
    ∃ pre : List Op, ∃ c, c ∈ (run {} pre).submitted false ∧ (run {} pre).crashed = false ∧
      ∀ ops : List Op, ((run {} (pre ++ ops)).submitted false).length < 4294967296 →
        c ∉ (run {} (pre ++ ops)).executed false ∧ ∀ v, (c, Res.val v) ∉ (run {} (pre ++ ops)).answers :=
  ⟨[.retry, .connect {}, .submit false 3 {}, .fail true, .dispatch true {}, .fail false, .wrote false, .dispatch false {},
    .dispatch false {}, .retry, .connect {}], 3, by decide, by decide, lost_run _ 3 (by decide) (by decide)⟩

/-- **C77** is violated: a command which is cancelled before it is sent is taken by the other side as an answer, a command
of that side with the same number is replied as timed out. -/
theorem C77_cancel_counterexample :
    ∃ ops : List Op, (1, Res.timedout) ∈ (run {} ops).answers ∧ 1 ∈ (run {} ops).submitted true ∧
      ((run {} ops).side false).exec = [(1, 1)] ∧ waiting (run {} ops) false 2 = 1 ∧
      ∀ op ∈ ops, ∀ d i, op ≠ .expireWait d i ∧ op ≠ .expireSend d i :=
  ⟨[.retry, .connect {}, .submit true 1 {}] ++ take false ++ [.submit false 2 { canc := fun c => decide (c = 2) }] ++
    take true, by decide, by decide, by decide, by decide, by
      intro op hop d i
      simp [take] at hop
      rcases hop with rfl | rfl | rfl | rfl | rfl | rfl | rfl | rfl | rfl | rfl | rfl | rfl <;> simp⟩

/-- **C77** is violated: when the error of a socket is reported before a header which was read, the worker uses the addon
which it has dropped. -/
theorem C77_crash_counterexample :
    ∃ ops : List Op, (run {} ops).crashed = true :=
  ⟨[.retry, .connect {}, .submit true 1 {}, .fail false, .read false, .dispatch false {}, .dispatch false {}], by decide⟩

end Verif.SockCmd
