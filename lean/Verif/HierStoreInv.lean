import Verif.HierStoreLemmas

/-! # Files tell what was stored -/

namespace Verif.HierStore
open Verif.Hierarchy
variable {D X : Type} [Inhabited D] [Inhabited X]

structure Inv (s : St D X) (l : List (Snap D X)) : Prop where
  sys : SysOK .full (follower s)
  tells : ∀ n, Tells s.h.name (recsOf n s.disk) (l.filter fun x => x.file = n)
  curIn : ∀ n, s.cur = some n → ∃ f ∈ s.disk, f.name = n
  curRecs : ∀ n, s.cur = some n → recsOf n s.disk ≠ []
  first : ∀ n x, (l.filter fun x => x.file = n)[0]? = some x → x.all = true
  start : s.cur = none → s.doStore = false ∧ (s.lastStore = 0 ∨ s.doFlush = true)

/-! ## Stages of a request -/

/-- Writing of the difference. -/
def st1 (s : St D X) : St D X :=
  if s.doStore then { writeDiff .ok (stream .full s.lastVersion s.h) s with lastVersion := s.h.data.nodeVer, doStore := false } else s
/-- Writing of the full hierarchy. -/
def st2 (clock : Nat) (s : St D X) : St D X :=
  if s.doFlush then { startFile clock true .ok (stream .full 0 s.h) s with lastVersion := s.h.data.nodeVer, doFlush := false } else s
/-- Marking. -/
def st3 (setTm stamp : Nat → X → X) (b : Bool) (s : St D X) : St D X :=
  if b then
    let h := setVal (setTm s.lastStore s.h.data.val) s.h
    { s with h := (markAt (nextVersion h) (stamp s.lastStore) [] h).1 }
  else s

omit [Inhabited D] [Inhabited X] in
theorem exec_eq {setTm stamp : Nat → X → X} {io : Io} {s : St D X} (h1 : io.diff = .ok) (h2 : io.opn = true) (h3 : io.full = .ok) :
    exec setTm stamp io s = st3 setTm stamp (s.doFlush || s.doStore) (st2 io.clock (st1 s)) := by
  obtain ⟨d, c, o, f⟩ := io
  simp only at h1 h2 h3
  subst h1 h2 h3
  obtain ⟨h, ls, lf, ds, df, lv, cur, disk⟩ := s
  cases ds <;> cases df <;> cases cur <;> rfl

/-! ## Snapshots -/

theorem tells_snoc {name : String} {recs : List (Option (Msg D X))} {sn : List (Snap D X)} {m : Msg D X} {x : Snap D X} (h : Tells name recs sn)
    (hx : x.all = true → (apply m (replay name recs)).view .full = x.view) : Tells name (recs ++ [some m]) (sn ++ [x]) := by
  obtain ⟨h1, h0, h2⟩ := h
  refine ⟨by simp [h1], ?_, ?_⟩
  · intro r hr
    rcases List.mem_append.1 hr with hr | hr
    · exact h0 r hr
    · simp at hr; subst hr; rfl
  intro i y hy ha
  by_cases hi : i < sn.length
  · rw [List.getElem?_append_left hi] at hy
    rw [List.take_append_of_le_length (by omega)]
    exact h2 i y hy ha
  · have hi' : i = sn.length := by
      have := (List.getElem?_eq_some_iff.1 hy).1
      simp at this
      omega
    subst hi'
    rw [List.getElem?_append_right (Nat.le_refl _)] at hy
    simp at hy
    subst hy
    rw [List.take_of_length_le (by simp [h1]), replay_snoc]
    exact hx ha

omit [Inhabited D] [Inhabited X] in
theorem follower_cur {s : St D X} [Inhabited D] [Inhabited X] {n : Nat} (h : s.cur = some n) :
    follower s = ⟨s.h, replay s.h.name (recsOf n s.disk), s.lastVersion⟩ := by
  unfold follower
  rw [h]

theorem st1_inv {s : St D X} {l : List (Snap D X)} (h : Inv s l) :
    Inv (st1 s) (l ++ match s.doStore, s.cur with | true, some n => [⟨n, s.h.view .full, !s.h.dirty⟩] | _, _ => []) := by
  unfold st1
  cases hd : s.doStore with
  | false => simpa using h
  | true =>
    cases hc : s.cur with
    | none => exact absurd (h.start hc).1 (by simp [hd])
    | some n =>
      simp only [if_true, writeDiff, hc, Wr.recs]
      have hin := h.curIn n hc
      have hsys := h.sys
      rw [follower_cur hc] at hsys
      refine ⟨?_, ?_, ?_, ?_, ?_, ?_⟩
      · rw [follower_cur (n := n) rfl]
        simp only [recsOf_addTo n n _ _ hin, if_true]
        rw [replay_snoc]
        exact fetch_ok hsys
      · intro m
        simp only [recsOf_addTo n m _ _ hin, List.filter_append]
        by_cases hm : m = n
        · subst hm
          rw [if_pos rfl]
          have : [(⟨m, s.h.view .full, !s.h.dirty⟩ : Snap D X)].filter (fun x => decide (x.file = m)) = [⟨m, s.h.view .full, !s.h.dirty⟩] := by simp
          rw [this]
          refine tells_snoc (h.tells m) ?_
          intro ha
          simp only [Bool.not_eq_true'] at ha
          exact fetch_view s.h _ hsys.wf ha hsys.name hsys.mir
        · rw [if_neg hm]
          have : [(⟨n, s.h.view .full, !s.h.dirty⟩ : Snap D X)].filter (fun x => decide (x.file = m)) = [] := by
            simpa using fun e : n = m => hm e.symm
          rw [this, List.append_nil]
          exact h.tells m
      · intro m hm
        injection hm with hm
        subst hm
        obtain ⟨f, h1, h2⟩ := hin
        refine ⟨_, List.mem_map_of_mem h1, ?_⟩
        split <;> exact h2
      · intro m hm
        injection hm with hm
        subst hm
        simp [recsOf_addTo n n _ _ hin]
      · intro m x
        have hne : 0 < (l.filter fun x => decide (x.file = n)).length := by
          rw [← (h.tells n).1]
          exact List.length_pos_iff.2 (h.curRecs n hc)
        rw [List.filter_append]
        by_cases hm : m = n
        · subst hm
          rw [List.getElem?_append_left hne]
          exact h.first m x
        · have : [(⟨n, s.h.view .full, !s.h.dirty⟩ : Snap D X)].filter (fun x => decide (x.file = m)) = [] := by
            simpa using fun e : n = m => hm e.symm
          rw [this, List.append_nil]
          exact h.first m x
      · intro hm
        cases hm

omit [Inhabited D] [Inhabited X] in
theorem recsOf_absent {n : Nat} {disk : List (File D X)} (hn : ∀ f ∈ disk, f.name ≠ n) : recsOf n disk = [] := by
  unfold recsOf
  have : disk.find? (fun f : File D X => decide (f.name = n)) = none := by
    rw [List.find?_eq_none]
    intro f hf
    simpa using hn f hf
  rw [this]

omit [Inhabited D] [Inhabited X] in
theorem addTo_snoc {n : Nat} {r : Msg D X} {disk : List (File D X)} (hn : ∀ f ∈ disk, f.name ≠ n) :
    addTo n [some r] (disk ++ [⟨n, []⟩]) = disk ++ [⟨n, [some r]⟩] := by
  unfold addTo
  rw [List.map_append]
  have : disk.map (fun f => if f.name = n then { f with recs := f.recs ++ [some r] } else f) = disk := by
    rw [List.map_congr_left (g := id)]
    · simp
    · intro f hf
      rw [if_neg (hn f hf)]
      rfl
  rw [this]
  simp

theorem st2_inv {s : St D X} {l : List (Snap D X)} {clock : Nat} (h : Inv s l) (hn : ∀ f ∈ s.disk, f.name ≠ clock / 1000000) :
    Inv (st2 clock s) (l ++ if s.doFlush then [⟨clock / 1000000, s.h.view .full, true⟩] else []) := by
  unfold st2
  cases hd : s.doFlush with
  | false => simpa using h
  | true =>
    have hfil : s.disk.filter (fun f => decide (f.name ≠ clock / 1000000)) = s.disk := by
      rw [List.filter_eq_self]
      intro f hf
      simpa using hn f hf
    simp only [if_true, startFile, writeDiff, Wr.recs]
    generalize clock / 1000000 = n at *
    rw [hfil, addTo_snoc hn]
    have hsys := h.sys
    have hf : follower s = ⟨s.h, (follower s).c, (follower s).v⟩ := by
      unfold follower
      split <;> rfl
    rw [hf] at hsys
    have hfr := fresh_ok hsys
    have hl : l.filter (fun x => decide (x.file = n)) = [] := by
      have := (h.tells n).1
      rw [recsOf_absent hn] at this
      exact List.length_eq_zero_iff.1 this.symm
    refine ⟨?_, ?_, ?_, ?_, ?_, ?_⟩
    · rw [follower_cur (n := n) rfl]
      simp only [recsOf_new n n _ _ hn, if_true]
      exact fetch_ok hfr
    · intro m
      simp only [recsOf_new n m _ _ hn, List.filter_append]
      by_cases hm : m = n
      · subst hm
        rw [if_pos rfl, hl]
        have : [(⟨m, s.h.view .full, true⟩ : Snap D X)].filter (fun x => decide (x.file = m)) = [⟨m, s.h.view .full, true⟩] := by simp
        rw [this]
        exact tells_snoc (recs := []) (sn := []) ⟨rfl, by simp, by intro i x hx; simp at hx⟩ fun _ => full_view .full s.h
      · rw [if_neg hm]
        have : [(⟨n, s.h.view .full, true⟩ : Snap D X)].filter (fun x => decide (x.file = m)) = [] := by
          simpa using fun e : n = m => hm e.symm
        rw [this, List.append_nil]
        exact h.tells m
    · intro m hm
      injection hm with hm
      subst hm
      exact ⟨⟨n, _⟩, List.mem_append_right _ (List.mem_singleton.2 rfl), rfl⟩
    · intro m hm
      injection hm with hm
      subst hm
      simp [recsOf_new n n _ _ hn]
    · intro m x
      rw [List.filter_append]
      by_cases hm : m = n
      · subst hm
        rw [hl]
        intro hx
        simp at hx
        subst hx
        rfl
      · have : [(⟨n, s.h.view .full, true⟩ : Snap D X)].filter (fun x => decide (x.file = m)) = [] := by
          simpa using fun e : n = m => hm e.symm
        rw [this, List.append_nil]
        exact h.first m x
    · intro hm
      cases hm

/-- A step of the hierarchy. -/
theorem change_inv {s : St D X} {l : List (Snap D X)} {h' : H D X} (h : Inv s l) (hs : SysOK .full (⟨h', (follower s).c, (follower s).v⟩ : Sys D X)) :
    Inv ({ s with h := h' } : St D X) l := by
  have hname : h'.name = s.h.name := by
    have h1 := hs.name
    have h2 := h.sys.name
    rw [follower_h] at h2
    exact h1.symm.trans h2
  refine ⟨?_, ?_, h.curIn, h.curRecs, h.first, h.start⟩
  · have : follower ({ s with h := h' } : St D X) = ⟨h', (follower s).c, (follower s).v⟩ := by
      unfold follower
      cases s.cur <;> simp only [hname]
    rw [this]
    exact hs
  · intro n
    rw [show ({ s with h := h' } : St D X).h = h' from rfl, hname]
    exact h.tells n

theorem st3_inv {setTm stamp : Nat → X → X} {b : Bool} {s : St D X} {l : List (Snap D X)} (h : Inv s l) : Inv (st3 setTm stamp b s) l := by
  unfold st3
  cases b with
  | false => exact h
  | true =>
    refine change_inv h ?_
    have hf : follower s = ⟨s.h, (follower s).c, (follower s).v⟩ := by
      unfold follower
      split <;> rfl
    have := h.sys
    rw [hf] at this
    exact stored_ok s.lastStore this

theorem check_inv {s : St D X} {l : List (Snap D X)} {now : Nat} {sp fp : Int} (h : Inv s l) : Inv (check now sp fp s).1 l := by
  unfold check
  split
  · exact h
  rename_i hfl
  simp only [Bool.or_eq_true, not_or, Bool.not_eq_true] at hfl
  dsimp only
  split
  · exact ⟨h.sys, h.tells, h.curIn, h.curRecs, h.first, fun hc => ⟨rfl, .inr rfl⟩⟩
  split
  · have hcur : s.cur ≠ none := by
      intro hc
      rcases (h.start hc).2 with h1 | h1
      · contradiction
      · rw [hfl.2] at h1; cases h1
    split
    · exact ⟨h.sys, h.tells, h.curIn, h.curRecs, h.first, fun hc => absurd hc hcur⟩
    · exact ⟨h.sys, h.tells, h.curIn, h.curRecs, h.first, fun hc => absurd hc hcur⟩
  · exact h

theorem reach_inv {setTm stamp : Nat → X → X} {s : St D X} {l : List (Snap D X)} (h : Reach setTm stamp s l) : Inv s l := by
  induction h with
  | init name =>
    refine ⟨(HReach.init (k := .full) (stamp := id) name).ok, ?_, ?_, ?_, ?_, fun _ => ⟨rfl, .inl rfl⟩⟩
    · intro n
      exact ⟨rfl, by simp [recsOf], by intro i x hx; simp at hx⟩
    · intro n hn
      cases hn
    · intro n hn
      cases hn
    · intro n x hx
      simp at hx
  | @step s l op _ hl ih =>
    cases op with
    | change op tm =>
      simp only [List.append_nil]
      cases op with
      | fetch =>
        have : (Sys.step .full (stamp tm) (follower s) .fetch).s = s.h := follower_h s
        show Inv ({ s with h := (Sys.step .full (stamp tm) (follower s) .fetch).s } : St D X) l
        rw [this]
        exact ih
      | setVal p x => exact change_inv ih (ih.sys.step (stamp := stamp tm) (op := .setVal p x) hl)
      | setDns p x => exact change_inv ih (ih.sys.step (stamp := stamp tm) (op := .setDns p x) hl)
      | create p pos name => exact change_inv ih (ih.sys.step (stamp := stamp tm) (op := .create p pos name) hl)
      | remove p n => exact change_inv ih (ih.sys.step (stamp := stamp tm) (op := .remove p n) hl)
      | mark p => exact change_inv ih (ih.sys.step (stamp := stamp tm) (op := .mark p) hl)
    | check now sp fp =>
      simp only [List.append_nil]
      exact check_inv ih
    | exec io =>
      obtain ⟨h1, h2, h3, h4⟩ := hl
      show Inv (exec setTm stamp io s) (l ++ snaps s io)
      rw [exec_eq h1 h2 h3, snaps, ← List.append_assoc]
      refine st3_inv ?_
      have e1 : (st1 s).doFlush = s.doFlush ∧ (st1 s).h = s.h ∧ ∀ f ∈ (st1 s).disk, f.name ≠ io.clock / 1000000 := by
        unfold st1 writeDiff
        split
        · split
          · exact ⟨rfl, rfl, h4⟩
          · refine ⟨rfl, rfl, ?_⟩
            intro f hf
            obtain ⟨g, hg, rfl⟩ := List.mem_map.1 hf
            have := h4 g hg
            split <;> exact this
        · exact ⟨rfl, rfl, h4⟩
      have := st2_inv (clock := io.clock) (st1_inv ih) e1.2.2
      rw [e1.1, e1.2.1] at this
      exact this

end Verif.HierStore
