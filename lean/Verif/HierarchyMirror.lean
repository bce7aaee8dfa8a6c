import Verif.HierarchyInv

/-! # The client mirrors the server up to changes which are still to be sent -/

namespace Verif.Hierarchy
variable {D X : Type} [Inhabited D] [Inhabited X]

def T.content (k : Kind) : T D X → D × Option X | .node _ dns val _ => Hierarchy.content k dns val

/-- Unmarked changes of fields and of the list of childs. -/
def fpend (k : Kind) (d : Data D X) : Bool := if k = .full then d.nodeCh || d.fch else d.namesCh || d.fnames
def cpend (k : Kind) (d : Data D X) : Bool := if k = .full then d.childsCh else d.namesCh

/-- Item and list of childs: to be sent with version `v`, not yet marked, or equal. -/
def Parts (k : Kind) (v : Nat) (d : Data D X) (chn : List String) (t : T D X) : Prop :=
  (v ≤ fver k d ∨ fpend k d = true ∨ content k d.dns d.val = t.content k) ∧
  (v ≤ cver k d ∨ cpend k d = true ∨ chn = t.ch.map T.name)

mutual
def Mir (k : Kind) (v : Nat) : H D X → T D X → Prop
  | .node d ch, t => Parts k v d (ch.map H.name) t ∧ MirL k v (t.ch.map T.name) ch t.ch
def MirL (k : Kind) (v : Nat) (all : List String) : List (H D X) → List (T D X) → Prop
  | [], _ => True
  | x :: xs, cs => match findSplit x.name cs with
    | none => x.name ∉ all ∧ Mir k v x (.empty x.name) ∧ MirL k v all xs cs
    | some (d, post) => Mir k v x d ∧ MirL k v all xs post
end

mutual
/-- Names of childs of the client are different. -/
def WFT : T D X → Prop
  | .node _ _ _ ch => (ch.map T.name).Nodup ∧ WFTL ch
def WFTL : List (T D X) → Prop
  | [] => True
  | x :: xs => WFT x ∧ WFTL xs
end

omit [Inhabited D] [Inhabited X] in
theorem WFTL_iff {l : List (T D X)} : WFTL l ↔ ∀ x ∈ l, WFT x := by
  induction l with
  | nil => simp [WFTL]
  | cons x xs ih => simp [WFTL, ih]

omit [Inhabited D] [Inhabited X] in
theorem findSplit_none {n : String} {cs : List (T D X)} : findSplit n cs = none ↔ n ∉ cs.map T.name := by
  induction cs with
  | nil => simp [findSplit]
  | cons c cs ih =>
    unfold findSplit
    by_cases h : c.name = n
    · simp [h]
    · rw [if_neg h, ih]
      simp only [List.map_cons, List.mem_cons, not_or]
      exact ⟨fun hh => ⟨fun e => h e.symm, hh⟩, fun hh => hh.2⟩

omit [Inhabited D] [Inhabited X] in
theorem findSplit_some {n : String} {cs : List (T D X)} {d : T D X} {post : List (T D X)} (h : findSplit n cs = some (d, post)) :
    ∃ pre, cs = pre ++ d :: post ∧ d.name = n ∧ n ∉ pre.map T.name := by
  induction cs with
  | nil => cases h
  | cons c cs ih =>
    unfold findSplit at h
    by_cases hc : c.name = n
    · rw [if_pos hc] at h
      cases h
      exact ⟨[], rfl, hc, by simp⟩
    · rw [if_neg hc] at h
      obtain ⟨pre, h1, h2, h3⟩ := ih h
      refine ⟨c :: pre, by rw [h1]; rfl, h2, ?_⟩
      simp only [List.map_cons, List.mem_cons, not_or]
      exact ⟨fun e => hc e.symm, h3⟩

omit [Inhabited D] [Inhabited X] in
theorem findSplit_append {n : String} {pre post : List (T D X)} (h : n ∉ pre.map T.name) : findSplit n (pre ++ post) = findSplit n post := by
  induction pre with
  | nil => rfl
  | cons c pre ih =>
    simp only [List.map_cons, List.mem_cons, not_or] at h
    rw [List.cons_append, findSplit, if_neg (fun e => h.1 e.symm), ih h.2]

/-- More childs of the client in front. -/
theorem MirL_widen {k : Kind} {v : Nat} {all : List String} {xs : List (H D X)} : ∀ {post pre : List (T D X)},
    MirL k v all xs post → ((pre ++ post).map T.name).Nodup → (∀ n ∈ (pre ++ post).map T.name, n ∈ all) → MirL k v all xs (pre ++ post) := by
  induction xs with
  | nil => intro post pre _ _ _; simp [MirL]
  | cons y ys ih =>
    intro post pre h hnd hall
    unfold MirL at h ⊢
    cases hf : findSplit y.name post with
    | none =>
      rw [hf] at h
      have : findSplit y.name (pre ++ post) = none := by
        rw [findSplit_none]
        exact fun hm => h.1 (hall _ hm)
      rw [this]
      exact ⟨h.1, h.2.1, ih h.2.2 hnd hall⟩
    | some r =>
      obtain ⟨d, post'⟩ := r
      rw [hf] at h
      obtain ⟨pre', he, hd, _⟩ := findSplit_some hf
      have : y.name ∉ pre.map T.name := by
        rw [List.map_append, List.nodup_append] at hnd
        intro hm
        exact hnd.2.2 _ hm _ (by rw [he, ← hd]; simp) rfl
      rw [findSplit_append this, hf]
      exact h

theorem Mir_parts {k : Kind} {v : Nat} {d : Data D X} {ch : List (H D X)} {t : T D X} :
    Mir k v (.node d ch) t ↔ Parts k v d (ch.map H.name) t ∧ MirL k v (t.ch.map T.name) ch t.ch := by
  rw [Mir]

omit [Inhabited D] [Inhabited X] in
theorem parts_mark {k : Kind} {v ver : Nat} {stamp : X → X} {d : Data D X} {m : Mask} {chn : List String} {t : T D X} (hv : v ≤ ver)
    (hd : DOK d) (h : Parts k v d chn t) : Parts k v (parentMark ver stamp d m) chn t := by
  obtain ⟨h1, h2⟩ := h
  cases k with
  | full =>
    refine ⟨Or.inl hv, ?_⟩
    simp only [cver, cpend, if_true, parentMark] at h2 ⊢
    by_cases hc : (d.childsCh || m.value || m.childs) = true
    · rw [if_pos hc]; exact Or.inl hv
    · rw [if_neg hc]
      rcases h2 with h | h | h
      · exact Or.inl h
      · simp [h] at hc
      · exact Or.inr (Or.inr h)
  | names =>
    simp only [Parts, fver, cver, fpend, cpend, parentMark, reduceCtorEq, if_false] at h1 h2 ⊢
    by_cases hc : (d.namesCh || m.names || (d.fch && d.fnames)) = true
    · rw [if_pos hc]; exact ⟨Or.inl hv, Or.inl hv⟩
    · rw [if_neg hc]
      simp only [Bool.or_eq_true, Bool.and_eq_true, not_or, not_and] at hc
      constructor
      · rcases h1 with h | h | h
        · exact Or.inl h
        · rw [Bool.or_eq_true] at h
          rcases h with h | h
          · exact absurd h hc.1.1
          · exact absurd h (hc.2 (hd.fnames h))
        · exact Or.inr (Or.inr h)
      · rcases h2 with h | h | h
        · exact Or.inl h
        · exact absurd h hc.1.1
        · exact Or.inr (Or.inr h)

mutual
theorem markAll_mir {k : Kind} {v ver : Nat} (stamp : X → X) (hv : v ≤ ver) : ∀ (s : H D X) (t : T D X), WF k s → s.data.nodeVer ≤ ver → Mir k v s t →
    Mir k v (markAll ver stamp s).1 t
  | .node d ch, t, hw, hn, h => by
    obtain ⟨hp, hl⟩ := Mir_parts.mp h
    obtain ⟨h1, h2, h3, h4⟩ := hw
    have hn : d.nodeVer ≤ ver := hn
    by_cases hd : (H.node d ch).dirty = true
    · have hnames : (markList ver stamp ch).1.map H.name = ch.map H.name := by
        rw [markList_eq, List.map_map]
        apply List.map_congr_left
        intro x hx
        exact (markList_marked (k := k) stamp ch h4 (fun x hx => Nat.le_trans (h3 x hx).2 hn) x hx).name
      rw [(markAll_dirty_node (ver := ver) (stamp := stamp) hd).1, Mir_parts]
      refine ⟨?_, markList_mir stamp hv _ ch t.ch h4 (fun x hx => Nat.le_trans (h3 x hx).2 hn) hl⟩
      rw [hnames]
      exact parts_mark hv h1 hp
    · rw [markAll_clean ver stamp _ (by simpa using hd)]; exact h
theorem markList_mir {k : Kind} {v ver : Nat} (stamp : X → X) (hv : v ≤ ver) (all : List String) : ∀ (l : List (H D X)) (cs : List (T D X)), WFL k l →
    (∀ x ∈ l, x.data.nodeVer ≤ ver) → MirL k v all l cs → MirL k v all (markList ver stamp l).1 cs
  | [], _, _, _, _ => by simp [markList, MirL]
  | x :: xs, cs, ⟨h1, h2⟩, hn, h => by
    have hname : (markAll ver stamp x).1.name = x.name := (markAll_marked stamp x h1 (hn x (by simp))).name
    have hn' : ∀ y ∈ xs, y.data.nodeVer ≤ ver := fun y hy => hn y (by simp [hy])
    have e : (markList ver stamp (x :: xs)).1 = (markAll ver stamp x).1 :: (markList ver stamp xs).1 := rfl
    rw [e]
    unfold MirL at h ⊢
    rw [hname]
    cases hf : findSplit x.name cs with
    | none =>
      rw [hf] at h
      exact ⟨h.1, markAll_mir stamp hv x _ h1 (hn x (by simp)) h.2.1, markList_mir stamp hv all xs cs h2 hn' h.2.2⟩
    | some r =>
      rw [hf] at h
      exact ⟨markAll_mir stamp hv x _ h1 (hn x (by simp)) h.1, markList_mir stamp hv all xs _ h2 hn' h.2⟩
end

/-- One child is replaced. -/
theorem MirL_set {k : Kind} {v : Nat} {all : List String} {y : H D X} : ∀ {xs : List (H D X)} {i : Nat} {x : H D X} {cs : List (T D X)},
    xs[i]? = some x → y.name = x.name →
    (∀ t, (t = T.empty x.name ∨ (t ∈ cs ∧ t.name = x.name)) → Mir k v x t → Mir k v y t) → MirL k v all xs cs → MirL k v all (xs.set i y) cs := by
  intro xs
  induction xs with
  | nil => intro i x cs hx; simp at hx
  | cons z zs ih =>
    intro i x cs hx hn hm h
    cases i with
    | zero =>
      simp only [List.getElem?_cons_zero, Option.some.injEq] at hx
      subst hx
      simp only [List.set_cons_zero]
      unfold MirL at h ⊢
      rw [hn]
      cases hf : findSplit z.name cs with
      | none =>
        rw [hf] at h
        exact ⟨h.1, hm _ (Or.inl rfl) h.2.1, h.2.2⟩
      | some r =>
        rw [hf] at h
        obtain ⟨pre, he, hd, _⟩ := findSplit_some hf
        exact ⟨hm _ (Or.inr ⟨by rw [he]; simp, hd⟩) h.1, h.2⟩
    | succ i =>
      simp only [List.getElem?_cons_succ] at hx
      simp only [List.set_cons_succ]
      unfold MirL at h ⊢
      cases hf : findSplit z.name cs with
      | none =>
        rw [hf] at h
        exact ⟨h.1, h.2.1, ih hx hn hm h.2.2⟩
      | some r =>
        rw [hf] at h
        obtain ⟨pre, he, _, _⟩ := findSplit_some hf
        refine ⟨h.1, ih hx hn (fun t ht => hm t ?_) h.2⟩
        rcases ht with ht | ⟨ht, ht2⟩
        · exact Or.inl ht
        · exact Or.inr ⟨by rw [he]; simp [ht], ht2⟩

omit [Inhabited D] [Inhabited X] in
theorem find_of_nodup {l : List (T D X)} (hn : (l.map T.name).Nodup) {d : T D X} (hd : d ∈ l) : l.find? (fun c => c.name = d.name) = some d := by
  induction l with
  | nil => cases hd
  | cons c l ih =>
    simp only [List.map_cons, List.nodup_cons] at hn
    rcases List.mem_cons.mp hd with rfl | hd
    · simp
    · have : c.name ≠ d.name := fun e => hn.1 (by rw [e]; exact List.mem_map_of_mem hd)
      rw [List.find?_cons_of_neg (by simpa using this)]
      exact ih hn.2 hd

theorem WFT_empty (n : String) : WFT (T.empty n : T D X) := by simp [T.empty, WFT, WFTL]

omit [Inhabited D] [Inhabited X] in
theorem WFT.nodup {t : T D X} (h : WFT t) : (t.ch.map T.name).Nodup ∧ ∀ x ∈ t.ch, WFT x := by
  cases t with
  | node n y x ch => exact ⟨h.1, WFTL_iff.mp h.2⟩

/-- Changing an item at the end of a path. -/
theorem modAt_mir {k : Kind} {v : Nat} {f : H D X → H D X} {P : T D X → Prop} (hP0 : ∀ n, P (T.empty n)) : ∀ (p : List Nat) (s : H D X) (t : T D X),
    (∀ x, sub p s = some x → (f x).name = x.name) → (∀ x t', sub p s = some x → P t' → WFT t' → Mir k v x t' → Mir k v (f x) t') →
    (∀ t', clientAt p s t = some t' → P t') → WFT t → Mir k v s t → Mir k v (modAt f p s) t ∧ (modAt f p s).name = s.name
  | [], s, t, hn, hm, hP, hw, h => by
    rw [modAt]; exact ⟨hm s t rfl (hP t rfl) hw h, hn s rfl⟩
  | i :: p, .node d ch, t, hn, hm, hP, hw, h => by
    rw [modAt]
    cases hx : ch[i]? with
    | none => exact ⟨h, rfl⟩
    | some x =>
      refine ⟨?_, rfl⟩
      obtain ⟨hp, hl⟩ := Mir_parts.mp h
      have hs : ∀ y, sub p x = some y → sub (i :: p) (.node d ch) = some y := fun y hy => by simp only [sub, hx]; exact hy
      have hname : (modAt f p x).name = x.name := by
        have : ∀ (p : List Nat) (x : H D X), (∀ y, sub p x = some y → (f y).name = y.name) → (modAt f p x).name = x.name := by
          intro p
          cases p with
          | nil => intro x h; rw [modAt]; exact h x rfl
          | cons j p =>
            intro x h
            cases x with
            | node d ch => rw [modAt]; split <;> rfl
        exact this p x (fun y hy => hn y (hs y hy))
      rw [Mir_parts, map_name_set hx hname]
      refine ⟨hp, MirL_set hx hname ?_ hl⟩
      intro t' ht' hm'
      have hcl : ∀ t'', clientAt p x t' = some t'' → P t'' := by
        intro t'' ht''
        rcases ht' with rfl | ⟨hmem, hnm⟩
        · cases p with
          | nil => simp only [clientAt, Option.some.injEq] at ht''; rw [← ht'']; exact hP0 _
          | cons j p =>
            cases x with
            | node dx chx =>
              simp only [clientAt, T.empty, T.ch] at ht''
              split at ht'' <;> simp at ht''
        · apply hP
          simp only [clientAt, hx]
          have := find_of_nodup hw.nodup.1 hmem
          rw [hnm] at this
          rw [this]
          exact ht''
      have hwt : WFT t' := by
        rcases ht' with rfl | ⟨hmem, _⟩
        · exact WFT_empty _
        · exact hw.nodup.2 _ hmem
      exact (modAt_mir hP0 p x t' (fun y hy => hn y (hs y hy)) (fun y t'' hy => hm y t'' (hs y hy)) hcl hwt hm').1

theorem markAt_mir {k : Kind} {v ver : Nat} (stamp : X → X) (hv : v ≤ ver) : ∀ (p : List Nat) (s : H D X) (t : T D X), WF k s → s.data.nodeVer ≤ ver → PathOK k p s →
    Mir k v s t → Mir k v (markAt ver stamp p s).1 t
  | [], s, t, hw, hn, _, h => by rw [markAt]; exact markAll_mir stamp hv s t hw hn h
  | i :: p, .node d ch, t, hw, hn, hp, h => by
    cases hx : ch[i]? with
    | none => rw [markAt, hx]; exact h
    | some x =>
      obtain ⟨h1, h2, h3, h4⟩ := hw
      have hn : d.nodeVer ≤ ver := hn
      have hxm := List.mem_of_getElem? hx
      have hxv := Nat.le_trans (h3 x hxm).2 hn
      have hwx := WFL_iff.mp h4 x hxm
      have hm := markAt_marked stamp p x hwx hxv (hp.cons hx).1
      obtain ⟨hpt, hl⟩ := Mir_parts.mp h
      have hl' : MirL k v (t.ch.map T.name) (ch.set i (markAt ver stamp p x).1) t.ch :=
        MirL_set hx hm.name (fun t' _ h' => markAt_mir stamp hv p x t' hwx hxv (hp.cons hx).1 h') hl
      by_cases ha : (markAt ver stamp p x).2.any = true
      · rw [markAt_cons hx ha, Mir_parts, map_name_set hx hm.name]
        exact ⟨parts_mark hv h1 hpt, hl'⟩
      · rw [markAt, hx]
        simp only
        rw [if_neg ha, Mir_parts, map_name_set hx hm.name]
        exact ⟨hpt, hl'⟩

/-! ## Single changes -/

theorem setVal_mir {k : Kind} {v : Nat} {x : X} {s : H D X} {t : T D X} (h : Mir k v s t) : Mir k v (setVal x s) t := by
  cases s with
  | node d ch =>
    obtain ⟨⟨h1, h2⟩, hl⟩ := Mir_parts.mp h
    rw [setVal, Mir_parts]
    refine ⟨⟨?_, h2⟩, hl⟩
    cases k with
    | full => right; left; simp [fpend]
    | names => exact h1

theorem setDns_mir {k : Kind} {v : Nat} {y : D} {s : H D X} {t : T D X} (h : Mir k v s t) : Mir k v (setDns y s) t := by
  cases s with
  | node d ch =>
    obtain ⟨⟨h1, h2⟩, hl⟩ := Mir_parts.mp h
    rw [setDns, Mir_parts]
    refine ⟨⟨?_, h2⟩, hl⟩
    right; left; unfold fpend; split <;> simp

omit [Inhabited D] [Inhabited X] in
theorem parts_childs {k : Kind} {v : Nat} {d : Data D X} {chn : List String} {t : T D X} : Parts k v d.childsChanged chn t := by
  constructor
  · right; left; unfold fpend Data.childsChanged; split <;> simp
  · right; left; unfold cpend Data.childsChanged; split <;> simp

theorem MirL_insert {k : Kind} {v : Nat} {all : List String} {y : H D X} (hy : y.name ∉ all) (hm : Mir k v y (.empty y.name)) (pos : Nat) :
    ∀ {xs : List (H D X)} {cs : List (T D X)}, (∀ n ∈ cs.map T.name, n ∈ all) → MirL k v all xs cs → MirL k v all (xs.take pos ++ y :: xs.drop pos) cs := by
  induction pos with
  | zero =>
    intro xs cs hall h
    simp only [List.take_zero, List.drop_zero, List.nil_append]
    unfold MirL
    rw [findSplit_none.mpr (fun hh => hy (hall _ hh))]
    exact ⟨hy, hm, h⟩
  | succ pos ih =>
    intro xs cs hall h
    cases xs with
    | nil =>
      simp only [List.take_nil, List.drop_nil, List.nil_append]
      unfold MirL
      rw [findSplit_none.mpr (fun hh => hy (hall _ hh))]
      exact ⟨hy, hm, h⟩
    | cons x xs =>
      simp only [List.take_succ_cons, List.drop_succ_cons, List.cons_append]
      unfold MirL at h ⊢
      cases hf : findSplit x.name cs with
      | none =>
        rw [hf] at h
        exact ⟨h.1, h.2.1, ih hall h.2.2⟩
      | some r =>
        rw [hf] at h
        obtain ⟨pre, he, _, _⟩ := findSplit_some hf
        refine ⟨h.1, ih (fun n hn => hall n ?_) h.2⟩
        rw [he]; simp only [List.map_append, List.map_cons, List.mem_append, List.mem_cons]; exact Or.inr (Or.inr hn)

theorem create_mir {k : Kind} {v pos : Nat} {name : String} {s : H D X} {t : T D X} (hn : name ∉ t.ch.map T.name) (h : Mir k v s t) :
    Mir k v (create pos name s) t := by
  cases s with
  | node d ch =>
    obtain ⟨_, hl⟩ := Mir_parts.mp h
    rw [create, Mir_parts]
    refine ⟨parts_childs, MirL_insert hn ?_ pos (fun n hn => hn) hl⟩
    rw [Mir_parts]
    exact ⟨⟨Or.inr (Or.inr rfl), Or.inr (Or.inr rfl)⟩, by simp [MirL]⟩

theorem MirL_erase {k : Kind} {v : Nat} {all : List String} : ∀ {n : Nat} {xs : List (H D X)} {cs : List (T D X)}, (cs.map T.name).Nodup →
    (∀ n ∈ cs.map T.name, n ∈ all) → MirL k v all xs cs → MirL k v all (xs.eraseIdx n) cs := by
  intro n xs
  induction xs generalizing n with
  | nil => intro cs _ _ h; simpa using h
  | cons x xs ih =>
    intro cs hnd hall h
    cases n with
    | zero =>
      simp only [List.eraseIdx_cons_zero]
      unfold MirL at h
      cases hf : findSplit x.name cs with
      | none => rw [hf] at h; exact h.2.2
      | some r =>
        obtain ⟨d, post⟩ := r
        rw [hf] at h
        obtain ⟨pre, he, _, _⟩ := findSplit_some hf
        have : cs = (pre ++ [d]) ++ post := by rw [he]; simp
        rw [this] at hnd hall ⊢
        exact MirL_widen h.2 hnd hall
    | succ n =>
      simp only [List.eraseIdx_cons_succ]
      unfold MirL at h ⊢
      cases hf : findSplit x.name cs with
      | none =>
        rw [hf] at h
        exact ⟨h.1, h.2.1, ih hnd hall h.2.2⟩
      | some r =>
        obtain ⟨d, post⟩ := r
        rw [hf] at h
        obtain ⟨pre, he, _, _⟩ := findSplit_some hf
        have hsub : (post.map T.name).Sublist (cs.map T.name) := by
          rw [he]
          exact (((List.sublist_cons_self d post).trans (List.sublist_append_right pre _)).map _)
        exact ⟨h.1, ih (hnd.sublist hsub) (fun n hn => hall n (hsub.subset hn)) h.2⟩

theorem remove_mir {k : Kind} {v n : Nat} {s : H D X} {t : T D X} (ht : WFT t) (h : Mir k v s t) : Mir k v (removeChild n s) t := by
  cases s with
  | node d ch =>
    obtain ⟨_, hl⟩ := Mir_parts.mp h
    rw [removeChild]
    split
    · rw [Mir_parts]
      exact ⟨parts_childs, MirL_erase ht.nodup.1 (fun n hn => hn) hl⟩
    · exact h

/-! ## Transfer -/

mutual
/-- Items older than the version need nothing to be sent. -/
theorem mir_raise {k : Kind} {v v' : Nat} : ∀ (s : H D X) (t : T D X), WF k s → mver k s.data < v → Mir k v s t → Mir k v' s t
  | .node d ch, t, ⟨h1, h2, h3, h4⟩, hlt, h => by
    have hlt : mver k d < v := hlt
    obtain ⟨⟨hp1, hp2⟩, hl⟩ := Mir_parts.mp h
    have hc := cver_mver (k := k) h1
    rw [Mir_parts]
    refine ⟨⟨?_, ?_⟩, mirL_raise _ ch t.ch h4 (fun x hx => by have := (h3 x hx).1; omega) hl⟩
    · rcases hp1 with hp | hp
      · rw [fver_mver] at hp; omega
      · exact Or.inr hp
    · rcases hp2 with hp | hp
      · omega
      · exact Or.inr hp
theorem mirL_raise {k : Kind} {v v' : Nat} (all : List String) : ∀ (xs : List (H D X)) (cs : List (T D X)), WFL k xs →
    (∀ x ∈ xs, mver k x.data < v) → MirL k v all xs cs → MirL k v' all xs cs
  | [], _, _, _, _ => by simp [MirL]
  | x :: xs, cs, ⟨h1, h2⟩, hlt, h => by
    have hlt' : ∀ y ∈ xs, mver k y.data < v := fun y hy => hlt y (by simp [hy])
    unfold MirL at h ⊢
    cases hf : findSplit x.name cs with
    | none =>
      rw [hf] at h
      exact ⟨h.1, mir_raise x _ h1 (hlt x (by simp)) h.2.1, mirL_raise all xs cs h2 hlt' h.2.2⟩
    | some r =>
      rw [hf] at h
      exact ⟨mir_raise x _ h1 (hlt x (by simp)) h.1, mirL_raise all xs _ h2 hlt' h.2⟩
end

theorem apply_name (m : Msg D X) (t : T D X) : (apply m t).name = t.name := by
  cases m; cases t; rfl

theorem stream_eq (k : Kind) (v : Nat) (x : H D X) : ∃ f c, stream k v x = .mk x.name f c := by
  cases x with
  | node d ch => exact ⟨_, _, rfl⟩

theorem applyList_cons {k : Kind} {v : Nat} (x : H D X) (ms : List (Msg D X)) (cs : List (T D X)) :
    applyList (stream k v x :: ms) cs = match findSplit x.name cs with
      | none => apply (stream k v x) (.empty x.name) :: applyList ms cs
      | some (d, post) => apply (stream k v x) d :: applyList ms post := by
  obtain ⟨f, c, e⟩ := stream_eq k v x
  rw [e, applyList]
  cases findSplit x.name cs <;> rfl

theorem apply_node (k : Kind) (v : Nat) (d : Data D X) (ch : List (H D X)) (t : T D X) :
    (apply (stream k v (.node d ch)) t).content k = (if fver k d ≥ v then content k d.dns d.val else t.content k) ∧
    (apply (stream k v (.node d ch)) t).ch = if cver k d ≥ v then applyList (streamList k v ch) t.ch else t.ch := by
  cases t with
  | node n y x tch =>
    constructor
    · by_cases h : fver k d ≥ v
      · simp only [stream, apply, T.content, if_pos h]
        cases k <;> simp [content]
      · simp only [stream, apply, T.content, if_neg h]
    · by_cases h : cver k d ≥ v
      · simp only [stream, apply, T.ch, if_pos h]
      · simp only [stream, apply, T.ch, if_neg h]

mutual
theorem fetch_mir {k : Kind} {v : Nat} (v' : Nat) : ∀ (s : H D X) (t : T D X), WF k s → WFT t → Mir k v s t →
    Mir k v' s (apply (stream k v s) t) ∧ WFT (apply (stream k v s) t)
  | .node d ch, t, ⟨h1, h2, h3, h4⟩, ht, h => by
    obtain ⟨⟨hp1, hp2⟩, hl⟩ := Mir_parts.mp h
    obtain ⟨e1, e2⟩ := apply_node k v d ch t
    have hF : v' ≤ fver k d ∨ fpend k d = true ∨ content k d.dns d.val = (apply (stream k v (.node d ch)) t).content k := by
      rw [e1]
      split
      · exact Or.inr (Or.inr rfl)
      · rename_i hlt
        rcases hp1 with hp | hp
        · exact absurd hp hlt
        · exact Or.inr hp
    have hT : ∀ t' : T D X, WFT t' ↔ (t'.ch.map T.name).Nodup ∧ WFTL t'.ch := by
      intro t'; cases t'; simp [WFT, T.ch]
    rw [Mir_parts, hT]
    unfold Parts
    rw [e2]
    by_cases hc : cver k d ≥ v
    · rw [if_pos hc]
      obtain ⟨hn, hm, hw⟩ := fetchL v' _ ch t.ch h4 ht.nodup.1 (WFTL_iff.mpr ht.nodup.2) hl
      rw [hn]
      exact ⟨⟨⟨hF, Or.inr (Or.inr rfl)⟩, hm _⟩, h2, hw⟩
    · rw [if_neg hc]
      refine ⟨⟨⟨hF, ?_⟩, mirL_raise _ ch t.ch h4 (fun x hx => by have := (h3 x hx).1; omega) hl⟩, ht.nodup.1, WFTL_iff.mpr ht.nodup.2⟩
      rcases hp2 with hp | hp
      · exact absurd hp hc
      · exact Or.inr hp
theorem fetchL {k : Kind} {v : Nat} (v' : Nat) (all : List String) : ∀ (xs : List (H D X)) (cs : List (T D X)), WFL k xs → (cs.map T.name).Nodup → WFTL cs →
    MirL k v all xs cs →
    (applyList (streamList k v xs) cs).map T.name = xs.map H.name ∧ (∀ all', MirL k v' all' xs (applyList (streamList k v xs) cs)) ∧
    WFTL (applyList (streamList k v xs) cs)
  | [], cs, _, _, _, _ => by simp [streamList, applyList, MirL, WFTL]
  | x :: xs, cs, ⟨h1, h2⟩, hnd, hw, h => by
    have key : ∀ (d : T D X) (post : List (T D X)), d.name = x.name → WFT d → (post.map T.name).Nodup → WFTL post → Mir k v x d → MirL k v all xs post →
        (apply (stream k v x) d :: applyList (streamList k v xs) post).map T.name = (x :: xs).map H.name ∧
        (∀ all', MirL k v' all' (x :: xs) (apply (stream k v x) d :: applyList (streamList k v xs) post)) ∧
        WFTL (apply (stream k v x) d :: applyList (streamList k v xs) post) := by
      intro d post hd hwd hnp hwp hm hml
      obtain ⟨a1, a2⟩ := fetch_mir v' x d h1 hwd hm
      obtain ⟨b1, b2, b3⟩ := fetchL v' all xs post h2 hnp hwp hml
      refine ⟨?_, ?_, a2, b3⟩
      · simp only [List.map_cons, b1, apply_name, hd]
      · intro all'
        unfold MirL
        have : findSplit x.name (apply (stream k v x) d :: applyList (streamList k v xs) post) =
            some (apply (stream k v x) d, applyList (streamList k v xs) post) := by
          unfold findSplit
          rw [if_pos (by rw [apply_name, hd])]
        rw [this]
        exact ⟨a1, b2 all'⟩
    rw [streamList, applyList_cons]
    unfold MirL at h
    cases hf : findSplit x.name cs with
    | none =>
      rw [hf] at h
      exact key (.empty x.name) cs rfl (WFT_empty _) hnd hw h.2.1 h.2.2
    | some r =>
      obtain ⟨d, post⟩ := r
      rw [hf] at h
      obtain ⟨pre, he, hd, _⟩ := findSplit_some hf
      have hsub : (post.map T.name).Sublist (cs.map T.name) := by
        rw [he]
        exact (((List.sublist_cons_self d post).trans (List.sublist_append_right pre _)).map _)
      have hwa := WFTL_iff.mp hw
      exact key d post hd (hwa d (by rw [he]; simp)) (hnd.sublist hsub)
        (WFTL_iff.mpr fun y hy => hwa y (by rw [he]; simp [hy])) h.1 h.2
end

omit [Inhabited D] [Inhabited X] in
theorem clean_parts {k : Kind} {d : Data D X} {ch : List (H D X)} (hd : DOK d) (h : (H.node d ch).dirty = false) : fpend k d = false ∧ cpend k d = false ∧ dirtyL ch = false := by
  simp only [H.dirty, Bool.or_eq_false_iff] at h
  obtain ⟨⟨h1, h2⟩, h3⟩ := h
  have hn : d.namesCh = false := by
    cases hh : d.namesCh with
    | false => rfl
    | true => rw [hd.names hh] at h2; cases h2
  have hc : d.childsCh = false := by
    cases hh : d.childsCh with
    | false => rfl
    | true => rw [hd.childs hh] at h2; cases h2
  have hf : d.fnames = false := by
    cases hh : d.fnames with
    | false => rfl
    | true => rw [hd.fnames hh] at h1; cases h1
  refine ⟨?_, ?_, h3⟩
  · unfold fpend; split <;> simp [*]
  · unfold cpend; split <;> simp [*]

theorem view_eq (k : Kind) (t : T D X) : t.view k = .node t.name (t.content k) (tviewL k t.ch) := by
  cases t; simp [T.view, T.name, T.content, T.ch]

mutual
/-- Nothing is sent and nothing is pending: the client has everything. -/
theorem mir_view_old {k : Kind} {v : Nat} : ∀ (s : H D X) (t : T D X), WF k s → s.dirty = false → mver k s.data < v → t.name = s.name → Mir k v s t →
    t.view k = s.view k
  | .node d ch, t, ⟨h1, h2, h3, h4⟩, hd, hlt, hn, h => by
    have hlt : mver k d < v := hlt
    obtain ⟨⟨hp1, hp2⟩, hl⟩ := Mir_parts.mp h
    obtain ⟨c1, c2, c3⟩ := clean_parts (k := k) h1 hd
    have hc := cver_mver (k := k) h1
    have hcont : content k d.dns d.val = t.content k := by
      rcases hp1 with hp | hp | hp
      · rw [fver_mver] at hp; omega
      · rw [c1] at hp; cases hp
      · exact hp
    have hnames : ch.map H.name = t.ch.map T.name := by
      rcases hp2 with hp | hp | hp
      · omega
      · rw [c2] at hp; cases hp
      · exact hp
    rw [view_eq, H.view, hcont, mirL_view_old _ ch t.ch h4 c3 (fun x hx => by have := (h3 x hx).1; omega) hnames hl, hn]
    rfl
theorem mirL_view_old {k : Kind} {v : Nat} (all : List String) : ∀ (xs : List (H D X)) (cs : List (T D X)), WFL k xs → dirtyL xs = false →
    (∀ x ∈ xs, mver k x.data < v) → xs.map H.name = cs.map T.name → MirL k v all xs cs → tviewL k cs = viewL k xs
  | [], cs, _, _, _, hn, _ => by
    cases cs with
    | nil => rfl
    | cons c cs => simp at hn
  | x :: xs, cs, ⟨h1, h2⟩, hd, hlt, hn, h => by
    cases cs with
    | nil => simp at hn
    | cons c cs =>
      simp only [List.map_cons, List.cons.injEq] at hn
      simp only [dirtyL, Bool.or_eq_false_iff] at hd
      unfold MirL at h
      have : findSplit x.name (c :: cs) = some (c, cs) := by unfold findSplit; rw [if_pos hn.1.symm]
      rw [this] at h
      rw [tviewL, viewL, mir_view_old x c h1 hd.1 (hlt x (by simp)) hn.1.symm h.1,
        mirL_view_old all xs cs h2 hd.2 (fun y hy => hlt y (by simp [hy])) hn.2 h.2]
end

mutual
/-- After a transfer without pending changes the client sees what the server has. -/
theorem fetch_view {k : Kind} {v : Nat} : ∀ (s : H D X) (t : T D X), WF k s → s.dirty = false → t.name = s.name → Mir k v s t →
    (apply (stream k v s) t).view k = s.view k
  | .node d ch, t, ⟨h1, h2, h3, h4⟩, hd, hn, h => by
    obtain ⟨⟨hp1, hp2⟩, hl⟩ := Mir_parts.mp h
    obtain ⟨c1, c2, c3⟩ := clean_parts (k := k) h1 hd
    obtain ⟨e1, e2⟩ := apply_node k v d ch t
    have hcont : (apply (stream k v (.node d ch)) t).content k = content k d.dns d.val := by
      rw [e1]
      split
      · rfl
      · rename_i hlt
        rcases hp1 with hp | hp | hp
        · exact absurd hp hlt
        · rw [c1] at hp; cases hp
        · exact hp.symm
    have hch : tviewL k (apply (stream k v (.node d ch)) t).ch = viewL k ch := by
      rw [e2]
      split
      · exact fetch_viewL _ ch t.ch h4 c3 hl
      · rename_i hlt
        rcases hp2 with hp | hp | hp
        · exact absurd hp hlt
        · rw [c2] at hp; cases hp
        · exact mirL_view_old _ ch t.ch h4 c3 (fun x hx => by have := (h3 x hx).1; omega) hp hl
    rw [view_eq, H.view, hcont, hch, apply_name, hn]
    rfl
theorem fetch_viewL {k : Kind} {v : Nat} (all : List String) : ∀ (xs : List (H D X)) (cs : List (T D X)), WFL k xs → dirtyL xs = false →
    MirL k v all xs cs → tviewL k (applyList (streamList k v xs) cs) = viewL k xs
  | [], cs, _, _, _ => by simp [streamList, applyList, tviewL, viewL]
  | x :: xs, cs, ⟨h1, h2⟩, hd, h => by
    simp only [dirtyL, Bool.or_eq_false_iff] at hd
    rw [streamList, applyList_cons]
    unfold MirL at h
    cases hf : findSplit x.name cs with
    | none =>
      rw [hf] at h
      simp only
      rw [tviewL, viewL, fetch_view x _ h1 hd.1 rfl h.2.1, fetch_viewL all xs cs h2 hd.2 h.2.2]
    | some r =>
      obtain ⟨d, post⟩ := r
      rw [hf] at h
      obtain ⟨pre, he, hdn, _⟩ := findSplit_some hf
      simp only
      rw [tviewL, viewL, fetch_view x _ h1 hd.1 hdn h.1, fetch_viewL all xs post h2 hd.2 h.2]
end

end Verif.Hierarchy
