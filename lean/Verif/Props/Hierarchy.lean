import Verif.HierarchyMirror

/-! # C45, C52: versions of items; a client following a hierarchy -/

namespace Verif.Hierarchy
variable {D X : Type} [Inhabited D] [Inhabited X]

/-! ## Invariant -/

structure SysOK (k : Kind) (sys : Sys D X) : Prop where
  wf : WF k sys.s
  wt : WFT sys.c
  mir : Mir k sys.v sys.s sys.c
  name : sys.c.name = sys.s.name
  ver : sys.v ≤ sys.s.data.nodeVer

omit [Inhabited D] [Inhabited X] in
theorem childsChanged_DOK {d : Data D X} (h : DOK d) : DOK d.childsChanged :=
  ⟨fun _ => rfl, fun _ => rfl, h.fnames, h.cv, h.nv⟩

omit [Inhabited D] [Inhabited X] in
theorem nodup_insert {l : List String} {n : String} (h : l.Nodup) (hn : n ∉ l) (pos : Nat) : (l.take pos ++ n :: l.drop pos).Nodup := by
  have hp : (l.take pos ++ n :: l.drop pos).Perm (n :: l) := by
    have := @List.perm_middle _ n (l.take pos) (l.drop pos)
    rwa [List.take_append_drop] at this
  rw [hp.nodup_iff]
  exact List.nodup_cons.mpr ⟨hn, h⟩

theorem WF_fresh (k : Kind) (name : String) : WF k (.node { name := name, dns := (default : D), val := (default : X) } []) := by
  refine ⟨⟨?_, ?_, ?_, Nat.le_refl _, Nat.le_refl _⟩, by simp, ?_, trivial⟩
  · intro h; cases h
  · intro h; cases h
  · intro h; cases h
  · intro z hz; cases hz

theorem SysOK.step {k : Kind} {stamp : X → X} {sys : Sys D X} {op : HOp D X} (h : SysOK k sys) (hl : HLegal k sys op) : SysOK k (sys.step k stamp op) := by
  obtain ⟨hw, ht, hm, hn, hv⟩ := h
  have hP0 : ∀ n : String, (fun _ : T D X => True) (T.empty n) := fun _ => trivial
  cases op with
  | setVal p x =>
    obtain ⟨a, b, c, e⟩ := modAt_WF (f := Hierarchy.setVal x) p sys.s hw (fun y _ hy => by
      cases y with
      | node d ch =>
        obtain ⟨h1, h2, h3, h4⟩ := hy
        exact ⟨⟨⟨h1.names, h1.childs, fun _ => rfl, h1.cv, h1.nv⟩, h2, h3, h4⟩, rfl, rfl, rfl⟩)
    obtain ⟨m, _⟩ := modAt_mir (f := Hierarchy.setVal x) (P := fun _ => True) hP0 p sys.s sys.c (fun y _ => by cases y; rfl)
      (fun y t' _ _ _ h => setVal_mir h) (fun _ _ => trivial) ht hm
    exact ⟨a, ht, m, hn.trans b.symm, by show sys.v ≤ _; rw [Sys.step, c]; exact hv⟩
  | setDns p x =>
    obtain ⟨a, b, c, e⟩ := modAt_WF (f := Hierarchy.setDns x) p sys.s hw (fun y _ hy => by
      cases y with
      | node d ch =>
        obtain ⟨h1, h2, h3, h4⟩ := hy
        exact ⟨⟨⟨h1.names, h1.childs, fun _ => rfl, h1.cv, h1.nv⟩, h2, h3, h4⟩, rfl, rfl, rfl⟩)
    obtain ⟨m, _⟩ := modAt_mir (f := Hierarchy.setDns x) (P := fun _ => True) hP0 p sys.s sys.c (fun y _ => by cases y; rfl)
      (fun y t' _ _ _ h => setDns_mir h) (fun _ _ => trivial) ht hm
    exact ⟨a, ht, m, hn.trans b.symm, by show sys.v ≤ _; rw [Sys.step, c]; exact hv⟩
  | create p pos name =>
    obtain ⟨a, b, c, e⟩ := modAt_WF (f := Hierarchy.create pos name) p sys.s hw (fun y hy hyw => by
      cases y with
      | node d ch =>
        obtain ⟨h1, h2, h3, h4⟩ := hyw
        have hne : name ∉ ch.map H.name := by
          intro hm
          obtain ⟨z, hz, he⟩ := List.mem_map.mp hm
          exact hl.1 _ hy z hz he
        refine ⟨⟨childsChanged_DOK h1, ?_, ?_, ?_⟩, rfl, rfl, rfl⟩
        · have := nodup_insert h2 hne pos
          simpa [List.map_take, List.map_drop, H.name, H.data] using this
        · intro z hz
          rw [List.mem_append, List.mem_cons] at hz
          rcases hz with hz | rfl | hz
          · exact h3 z (List.mem_of_mem_take hz)
          · refine ⟨?_, Nat.zero_le _⟩
            unfold mver
            split <;> exact Nat.zero_le _
          · exact h3 z (List.mem_of_mem_drop hz)
        · rw [WFL_iff]
          intro z hz
          rw [List.mem_append, List.mem_cons] at hz
          rcases hz with hz | rfl | hz
          · exact WFL_iff.mp h4 z (List.mem_of_mem_take hz)
          · exact WF_fresh k name
          · exact WFL_iff.mp h4 z (List.mem_of_mem_drop hz))
    obtain ⟨m, _⟩ := modAt_mir (f := Hierarchy.create pos name) (P := fun t => name ∉ t.ch.map T.name) (fun n => by simp [T.empty, T.ch]) p sys.s sys.c
      (fun y _ => by cases y; rfl) (fun y t' _ hp _ h => create_mir hp h) (fun t' ht' hmem => by
        obtain ⟨z, hz, he⟩ := List.mem_map.mp hmem
        exact hl.2 t' ht' z hz he) ht hm
    exact ⟨a, ht, m, hn.trans b.symm, by show sys.v ≤ _; rw [Sys.step, c]; exact hv⟩
  | remove p n =>
    obtain ⟨a, b, c, e⟩ := modAt_WF (f := removeChild n) p sys.s hw (fun y _ hy => by
      cases y with
      | node d ch =>
        obtain ⟨h1, h2, h3, h4⟩ := hy
        rw [removeChild]
        by_cases hlt : n < ch.length
        · rw [if_pos hlt]
          have hsub : (ch.eraseIdx n).Sublist ch := List.eraseIdx_sublist ch n
          exact ⟨⟨childsChanged_DOK h1, h2.sublist (hsub.map _), fun z hz => h3 z (hsub.subset hz),
            WFL_iff.mpr fun z hz => WFL_iff.mp h4 z (hsub.subset hz)⟩, rfl, rfl, rfl⟩
        · rw [if_neg hlt]; exact ⟨⟨h1, h2, h3, h4⟩, rfl, rfl, rfl⟩)
    obtain ⟨m, _⟩ := modAt_mir (f := removeChild n) (P := fun _ => True) hP0 p sys.s sys.c (fun y _ => by
      cases y with
      | node d ch => by_cases hlt : n < ch.length <;> simp [removeChild, hlt, H.name, H.data, Data.childsChanged])
      (fun y t' _ _ hw h => remove_mir hw h) (fun _ _ => trivial) ht hm
    exact ⟨a, ht, m, hn.trans b.symm, by show sys.v ≤ _; rw [Sys.step, c]; exact hv⟩
  | mark p =>
    have hlt : sys.s.data.nodeVer ≤ nextVersion sys.s := Nat.le_succ _
    have hmk := markAt_marked stamp p sys.s hw hlt hl
    refine ⟨hmk.wf, ht, markAt_mir stamp (Nat.le_trans hv hlt) p sys.s sys.c hw hlt hl hm, hn.trans hmk.name.symm, ?_⟩
    show sys.v ≤ (markAt (nextVersion sys.s) stamp p sys.s).1.data.nodeVer
    rcases hmk.nv with h | h
    · rw [h]; exact hv
    · rw [h.1]; exact Nat.le_trans hv hlt
  | fetch =>
    obtain ⟨a, b⟩ := fetch_mir sys.s.data.nodeVer sys.s sys.c hw ht hm
    exact ⟨hw, b, a, (apply_name _ _).trans hn, Nat.le_refl _⟩

theorem HReach.ok {k : Kind} {stamp : X → X} {sys : Sys D X} (h : HReach k stamp sys) : SysOK k sys := by
  induction h with
  | init name =>
    refine ⟨WF_fresh k name,
      WFT_empty _, ?_, rfl, Nat.le_refl _⟩
    show Mir k 0 _ _
    rw [Mir_parts]
    exact ⟨⟨Or.inr (Or.inr rfl), Or.inr (Or.inr rfl)⟩, by simp [MirL]⟩
  | step op _ hl ih => exact ih.step hl

/-! ## C45 -/

omit [Inhabited D] [Inhabited X] in
theorem WF_versions {k : Kind} : ∀ (q : List Nat) (s y : H D X), WF k s → sub q s = some y → y.data.nodeVer ≤ s.data.nodeVer
  | [], s, y, _, h => by simp only [sub, Option.some.injEq] at h; rw [h]; exact Nat.le_refl _
  | i :: q, .node d ch, y, ⟨_, _, h3, h4⟩, h => by
    simp only [sub] at h
    cases hx : ch[i]? with
    | none => rw [hx] at h; cases h
    | some x =>
      rw [hx] at h
      have hm := List.mem_of_getElem? hx
      exact Nat.le_trans (WF_versions q x y (WFL_iff.mp h4 x hm) h) (h3 x hm).2

omit [Inhabited D] [Inhabited X] in
theorem sub_dirty_prefix : ∀ (q : List Nat) (s y : H D X), sub q s = some y → y.dirty = true → s.dirty = true
  | [], s, y, h, hd => by simp only [sub, Option.some.injEq] at h; rw [h]; exact hd
  | i :: q, .node d ch, y, h, hd => by
    simp only [sub] at h
    cases hx : ch[i]? with
    | none => rw [hx] at h; cases h
    | some x =>
      rw [hx] at h
      have hxd := sub_dirty_prefix q x y h hd
      have : dirtyL ch = true := by
        cases hc : dirtyL ch with
        | true => rfl
        | false => rw [dirtyL_iff.mp hc x (List.mem_of_getElem? hx)] at hxd; cases hxd
      simp [H.dirty, this]

omit [Inhabited D] [Inhabited X] in
/-- What marking at `p` does to the item at `q`. -/
theorem sub_markAt (ver : Nat) (stamp : X → X) : ∀ (p q : List Nat) (s y : H D X), sub q s = some y →
    ∃ y', sub q (markAt ver stamp p s).1 = some y' ∧
      (Touched s p q → y'.data.nodeVer = ver ∧ y'.data.nodeCh = false ∧ y'.data.fch = false ∧ y'.data.dns = y.data.dns ∧ y'.data.val = stamp y.data.val) ∧
      (¬ Touched s p q → y'.data = y.data)
  | [], q, s, y, h => by
    rw [markAt, sub_markAll, h]
    refine ⟨_, rfl, ?_, ?_⟩
    · intro ht
      have hd : y.dirty = true := by
        rcases ht with ⟨hq, x, hx, hd⟩ | ⟨_, z, hz, hd⟩
        · have : q = [] := List.prefix_nil.mp hq
          subst this
          simp only [sub, Option.some.injEq] at hx h
          rw [← h, hx]; exact hd
        · rw [h] at hz; cases hz; exact hd
      cases y with
      | node d ch =>
        dsimp only
        rw [(markAll_dirty_node (ver := ver) (stamp := stamp) hd).1]
        exact ⟨rfl, rfl, rfl, rfl, rfl⟩
    · intro ht
      have hd : y.dirty = false := by
        cases hd : y.dirty with
        | false => rfl
        | true => exact absurd (Or.inr ⟨List.nil_prefix, y, h, hd⟩) ht
      dsimp only
      rw [markAll_clean ver stamp y hd]
  | i :: p, q, .node d ch, y, h => by
    cases hx : ch[i]? with
    | none =>
      rw [markAt, hx]
      refine ⟨y, h, ?_, fun _ => rfl⟩
      intro ht
      exfalso
      rcases ht with ⟨_, x, hx', _⟩ | ⟨⟨r, hr⟩, z, hz, _⟩
      · simp only [sub, hx] at hx'; cases hx'
      · rw [← hr] at hz; simp only [List.cons_append, sub, hx] at hz; cases hz
    | some x =>
      have hset : (ch.set i (markAt ver stamp p x).1)[i]? = some (markAt ver stamp p x).1 := by
        rw [List.getElem?_set_self]; exact (List.getElem?_eq_some_iff.mp hx).1
      have hch : (markAt ver stamp (i :: p) (.node d ch)).1.ch = ch.set i (markAt ver stamp p x).1 := by
        rw [markAt, hx]; simp only; split <;> rfl
      cases q with
      | nil =>
        simp only [sub, Option.some.injEq] at h
        subst h
        refine ⟨_, rfl, ?_, ?_⟩
        · intro ht
          have ha : (markAt ver stamp p x).2.any = true := by
            rcases ht with ⟨_, z, hz, hd⟩ | ⟨hp, _⟩
            · simp only [sub, hx] at hz
              rw [markAt_any ver stamp p x z hz]; exact hd
            · exact absurd (List.prefix_nil.mp hp) (by simp)
          rw [markAt_cons hx ha]
          exact ⟨rfl, rfl, rfl, rfl, rfl⟩
        · intro ht
          have ha : (markAt ver stamp p x).2.any = false := by
            cases hz : sub p x with
            | none => rw [markAt_clean ver stamp p x (fun z h => by rw [hz] at h; cases h)]; rfl
            | some z =>
              rw [markAt_any ver stamp p x z hz]
              cases hd : z.dirty with
              | false => rfl
              | true => exact absurd (Or.inl ⟨List.nil_prefix, z, by simp only [sub, hx]; exact hz, hd⟩) ht
          rw [markAt, hx]
          simp only [ha]
          rfl
      | cons j q =>
        have hsub : ∀ (s' : H D X), sub (j :: q) s' = match s'.ch[j]? with | none => none | some x => sub q x := by
          intro s'; cases s'; rfl
        rw [hsub, hch]
        by_cases hij : i = j
        · subst hij
          rw [hset]
          simp only
          simp only [sub, hx] at h
          obtain ⟨y', e1, e2, e3⟩ := sub_markAt ver stamp p q x y h
          have hT : Touched (.node d ch) (i :: p) (i :: q) ↔ Touched x p q := by
            simp only [Touched, sub, hx, List.cons_prefix_cons, true_and]
          rw [hT]
          exact ⟨y', e1, e2, e3⟩
        · rw [List.getElem?_set_ne hij]
          simp only [sub] at h
          refine ⟨y, h, ?_, fun _ => rfl⟩
          intro ht
          exfalso
          rcases ht with ⟨hp, _⟩ | ⟨hp, _⟩
          · exact hij (List.cons_prefix_cons.mp hp).1.symm
          · exact hij (List.cons_prefix_cons.mp hp).1

/-- **C45**: marking at `p` gives the new version, higher than all versions in the hierarchy and than the one the client has, to
exactly the changed items below `p` with their parents up to the top; all other items keep everything. -/
theorem C45_versions {stamp : X → X} {sys : Sys D X} (h : HReach .full stamp sys) (p : List Nat) :
    sys.v < nextVersion sys.s ∧
    (∀ q y, sub q sys.s = some y → y.data.nodeVer < nextVersion sys.s) ∧
    ∀ q y, sub q sys.s = some y → ∃ y', sub q (sys.step .full stamp (.mark p)).s = some y' ∧
      (Touched sys.s p q → y'.data.nodeVer = nextVersion sys.s ∧ y'.data.nodeCh = false ∧ y'.data.fch = false ∧ y'.data.dns = y.data.dns ∧
        y'.data.val = stamp y.data.val) ∧
      (¬ Touched sys.s p q → y'.data = y.data) := by
  have hok := h.ok
  refine ⟨Nat.lt_succ_of_le hok.ver, fun q y hy => Nat.lt_succ_of_le (WF_versions q _ y hok.wf hy), ?_⟩
  intro q y hy
  exact sub_markAt _ stamp p q sys.s y hy

/-- Marking from the top leaves nothing unmarked. -/
theorem C45_all_marked (k : Kind) (stamp : X → X) (sys : Sys D X) : (sys.step k stamp (.mark [])).s.dirty = false :=
  markAll_dirty _ stamp sys.s

/-! ## C52 -/

/-- **C52** (partial: names of removed items are not used again while the client has them, and names-only clients need marking
from above pending changes): after a transfer without unmarked changes, the client sees the hierarchy of the server. -/
theorem C52_mirror_partial {k : Kind} {stamp : X → X} {sys : Sys D X} (h : HReach k stamp sys) (hd : sys.s.dirty = false) :
    (sys.step k stamp .fetch).c.view k = sys.s.view k := by
  have hok := h.ok
  exact fetch_view sys.s sys.c hok.wf hd hok.name hok.mir

/-- The same for any history followed by marking from the top. -/
theorem C52_marked_partial {k : Kind} {stamp : X → X} {sys : Sys D X} (h : HReach k stamp sys) :
    ((sys.step k stamp (.mark [])).step k stamp .fetch).c.view k = (sys.step k stamp (.mark [])).s.view k := by
  refine C52_mirror_partial (h.step (.mark []) ?_) (C45_all_marked k stamp sys)
  right
  intro q hq hne
  exact absurd (List.prefix_nil.mp hq) hne

/-! ## Examples and counterexamples -/

/-- Some actions, starting with nothing. -/
def run (k : Kind) (ops : List (HOp Nat Nat)) : Sys Nat Nat :=
  ops.foldl (fun sys op => sys.step k id op) ⟨.node { name := "top", dns := 0, val := 0 } [], .empty "top", 0⟩

def vnames : V Nat Nat → List String | .node _ _ ch => ch.map fun | .node n _ _ => n
def vvals : V Nat Nat → List (Nat × Option Nat) | .node _ _ ch => ch.map fun | .node _ c _ => c
def vtop : V Nat Nat → Nat × Option Nat | .node _ c _ => c
def vchilds : V Nat Nat → List Nat | .node _ _ ch => ch.map fun | .node _ _ ch => ch.length

/-- Two items with values reach the client. -/
example : vvals ((run .full [.create [] 0 "B", .create [] 0 "A", .setVal [0] 5, .setVal [1] 7, .mark [], .fetch]).c.view .full) = [(0, some 5), (0, some 7)] := by decide

/-- A history as needed by the theorems. -/
example : ∃ sys : Sys Nat Nat, HReach .full id sys ∧ sys.s.dirty = true := by
  refine ⟨_, (HReach.init "top").step (.create [] 0 "A") ?_, rfl⟩
  constructor
  · intro x hx y hy
    simp only [sub, Option.some.injEq] at hx
    subst hx
    cases hy
  · intro d hd y hy
    simp only [clientAt, Option.some.injEq] at hd
    subst hd
    cases hy

/-- Name used again: the new item without fields shows the old fields at the client. -/
theorem C52_recreated_fields_counterexample :
    let sys := run .full [.create [] 0 "A", .setVal [0] 5, .mark [], .fetch, .remove [] 0, .create [] 0 "A", .mark [], .fetch]
    vvals (sys.s.view .full) = [(0, some 0)] ∧ vvals (sys.c.view .full) = [(0, some 5)] ∧ sys.s.dirty = false := by decide

/-- Name used again: the new item without childs has the old childs at the client. -/
theorem C52_recreated_childs_counterexample :
    let sys := run .full [.create [] 0 "A", .create [0] 0 "X", .mark [], .fetch, .remove [] 0, .create [] 0 "A", .mark [], .fetch]
    vchilds (sys.s.view .full) = [0] ∧ vchilds (sys.c.view .full) = [1] ∧ sys.s.dirty = false := by decide

/-- Name used again at another place: the unchanged item beside it loses its fields at the client. -/
theorem C52_recreated_sibling_counterexample :
    let sys := run .full [.create [] 0 "A", .create [] 0 "B", .setVal [0] 7, .mark [], .fetch, .setVal [] 1, .mark [], .fetch, .remove [] 1, .create [] 0 "A", .mark [], .fetch]
    vnames (sys.s.view .full) = ["A", "B"] ∧ vvals (sys.s.view .full) = [(0, some 0), (0, some 7)] ∧
    vnames (sys.c.view .full) = ["A", "B"] ∧ vvals (sys.c.view .full) = [(0, some 0), (0, some 0)] ∧ sys.s.dirty = false := by decide

/-- Marking of an item with pending change of names above: a client following names never gets that change. -/
theorem C52_names_counterexample :
    let sys := run .names [.create [] 0 "A", .create [0] 0 "B", .mark [], .setVal [] 1, .mark [], .fetch, .setDns [0] 3, .setVal [0, 0] 1, .mark [0, 0], .fetch, .mark [], .fetch]
    vvals (sys.s.view .names) = [(3, none)] ∧ vvals (sys.c.view .names) = [(0, none)] ∧ sys.s.dirty = false := by decide

end Verif.Hierarchy
