import Verif.PublTreeSend

/-!
# Theorems about items of hierarchies and requests for them (C88)
-/

namespace Verif.PublTree
open Verif.Bytes Verif.Json Verif.Text Verif.Url Verif.FileName

/-- A path is followed name by name: empty pieces and `.` do nothing, `..` goes up, every other name goes to the first child with this
name. -/
theorem C88_path (t : Tree) (s : Str) : getFolder t s = walk (comps s) ⟨t, []⟩ := getFolder_eq t s

/-- An item is found under its names joined with slashes, with or without slashes in front and behind. -/
theorem C88_full_name (t : Tree) (ns : List Str) (h : ∀ n ∈ ns, Plain n) :
    getFolder t (join ns) = item t ns ∧ getFolder t (slash :: join ns) = item t ns ∧ getFolder t (join ns ++ [slash]) = item t ns := by
  have hc : comps (join ns) = ns := comps_join fun n hn => ⟨(h n hn).1, (h n hn).2.1⟩
  rw [getFolder_eq, getFolder_eq, getFolder_eq, comps_slash, comps_end, hc, walk_plain h]
  exact ⟨rfl, rfl, rfl⟩

/-- The producer of an item is that of the deepest item on the way to it which names one; the name handed to the producer is the rest
of the way.  `topmost`: the item next to the top. -/
theorem C88_producer (t : Tree) (ns : List Str) (r : Ref) (h : item t ns = some r) (pr req : Str) :
    (findProducer false r = some (pr, req) ↔ ∃ j, NearestProducer t ns j pr ∧ req = join (ns.drop j)) ∧
    (findProducer true r = some (pr, req) ↔ ∃ j, TopProducer t ns j pr ∧ req = join (ns.drop j)) := by
  refine ⟨⟨fun hf => ?_, ?_⟩, fun hf => ?_, ?_⟩
  · unfold findProducer at hf
    rcases producer_nearest t ns r [] h with ⟨h1, _⟩ | ⟨j, p, h1, h2⟩
    · rw [h1] at hf; cases hf
    · rw [h2] at hf; cases hf; exact ⟨j, h1, by simp⟩
  · rintro ⟨j, ⟨g1, ⟨x, g2, g2'⟩, g3⟩, rfl⟩
    unfold findProducer
    rcases producer_nearest t ns r [] h with ⟨_, h2⟩ | ⟨k, p, ⟨h1, ⟨y, h2, h2'⟩, h3⟩, h4⟩
    · obtain ⟨z, hz, hz'⟩ := h2 j g1
      rw [g2] at hz; cases hz; rw [g2'] at hz'; cases hz'
    · have hjk : j = k := by
        rcases Nat.lt_trichotomy j k with hlt | he | hlt
        · obtain ⟨z, hz, hz'⟩ := g3 k hlt h1
          rw [h2] at hz; cases hz; rw [h2'] at hz'; cases hz'
        · exact he
        · obtain ⟨z, hz, hz'⟩ := h3 j hlt g1
          rw [g2] at hz; cases hz; rw [g2'] at hz'; cases hz'
      subst hjk
      rw [g2] at h2; cases h2; rw [g2'] at h2'; cases h2'
      rw [h4]; simp
  · unfold findProducer at hf
    rcases producer_top t ns r [] none h with ⟨h1, _⟩ | ⟨j, p, h1, h2⟩
    · rw [h1] at hf; cases hf
    · rw [h2] at hf; cases hf; exact ⟨j, h1, by simp⟩
  · rintro ⟨j, ⟨g1, ⟨x, g2, g2'⟩, g3⟩, rfl⟩
    unfold findProducer
    rcases producer_top t ns r [] none h with ⟨_, h2⟩ | ⟨k, p, ⟨h1, ⟨y, h2, h2'⟩, h3⟩, h4⟩
    · obtain ⟨z, hz, hz'⟩ := h2 j g1
      rw [g2] at hz; cases hz; rw [g2'] at hz'; cases hz'
    · have hjk : j = k := by
        rcases Nat.lt_trichotomy j k with hlt | he | hlt
        · obtain ⟨z, hz, hz'⟩ := h3 j hlt
          rw [g2] at hz; cases hz; rw [g2'] at hz'; cases hz'
        · exact he
        · obtain ⟨z, hz, hz'⟩ := g3 k hlt
          rw [h2] at hz; cases hz; rw [h2'] at hz'; cases hz'
      subst hjk
      rw [g2] at h2; cases h2; rw [g2'] at h2'; cases h2'
      rw [h4]; simp

/-- A request for an item goes to the worker which is responsible for it, with the name of the item inside what the worker has
published; also when the item itself does not exist there. -/
theorem C88_worker {m : Mgr} {p : Publ} {s : Str} {e : Entry} (hs : IsServer m.localAddr) (hp : Published m p)
    (hpl : ∀ n ∈ comps s, Plain n) (hr : Responsible p e (comps s)) (hl : LocalOnly p (comps s)) (analyzed : Bool) :
    ∃ w hier sub, redirect m p analyzed s = some (.worker w hier sub) ∧ bare w = bare e.worker ∧ comps e.path ++ comps sub = comps s := by
  obtain ⟨h1, h2, h3, h4⟩ := identify_local hp hpl hr hl
  obtain ⟨i, hi, h0, hw⟩ := (hp.names e hr.1 hr.2.1).2
  obtain ⟨g, hg, _, _, hb⟩ := find_worker hr.1 hr.2.1 hi hw
  refine ⟨g.worker, g.hier, (identifyItem p true s).request, ?_, hb, h4⟩
  unfold redirect
  dsimp only
  rw [h1, h3, decompose_worker hs hi h0 hw, h2]
  simp [hg]

/-- When no worker has registered two hierarchies, the request also names the hierarchy which was registered.
Full statement: as in `C88_worker`, with `w = e.worker` and `hier = e.hier` also when the worker has several registrations; this is
wrong, see `C88_hierarchy_counterexample`. -/
theorem C88_hierarchy_partial {m : Mgr} {p : Publ} {s : Str} {e : Entry} (hs : IsServer m.localAddr) (hp : Published m p)
    (hpl : ∀ n ∈ comps s, Plain n) (hr : Responsible p e (comps s)) (hl : LocalOnly p (comps s)) (h1 : OneEach p) (analyzed : Bool) :
    ∃ sub, redirect m p analyzed s = some (.worker e.worker e.hier sub) ∧ comps e.path ++ comps sub = comps s := by
  obtain ⟨g1, g2, g3, g4⟩ := identify_local hp hpl hr hl
  obtain ⟨i, hi, h0, hw⟩ := (hp.names e hr.1 hr.2.1).2
  obtain ⟨g, hg, hgm, hgl, hb⟩ := find_worker hr.1 hr.2.1 hi hw
  have := h1 g hgm e hr.1 hgl hr.2.1 hb
  subst this
  refine ⟨(identifyItem p true s).request, ?_, g4⟩
  unfold redirect
  dsimp only
  rw [g1, g3, decompose_worker hs hi h0 hw, g2]
  simp [hg]

/-- An item which is only known from another node is asked for there, once: a request which already came from another node is refused. -/
theorem C88_node {m : Mgr} {p : Publ} {s a b : Str} {h : Ref} {server i : Str} (hsv : IsServer server) (hi : IsItem i)
    (hfar : ¬(server = m.localAddr ∨ server = lit "localhost"))
    (hc : Cut p true s (identifyItem p true s) a b false h)
    (hpr : ∃ req, findProducer true h = some (composeAddr m server i, req)) :
    redirect m p false s = some (.node (composeAddr m server dfltName)) ∧ redirect m p true s = some .refused := by
  obtain ⟨req, hpr⟩ := hpr
  have e1 : (identifyItem p true s).producer = composeAddr m server i := by
    rw [hc.producer]
    simp [found, hpr]
  have e2 : (identifyItem p true s).ok = true := by rw [hc.ok, found_true_ok]
  have e3 := hc.isLocal
  unfold redirect
  dsimp only
  rw [e1, e2, e3, C16_address hsv hi]
  simp [hfar]

/-- An item which is only known from another node, but is produced by a worker of this node, is asked for at this worker. -/
theorem C88_own {m : Mgr} {p : Publ} {s a b : Str} {h : Ref} {e : Entry} (hs : IsServer m.localAddr) (he : e ∈ p.entries) (hel : e.isLocal = true)
    (hwn : WorkerName e.worker) (hc : Cut p true s (identifyItem p true s) a b false h)
    (hpr : ∃ req, findProducer true h = some (composeAddr m [] e.worker, req)) (analyzed : Bool) :
    ∃ w hier, redirect m p analyzed s = some (.worker w hier (identifyItem p true s).request) ∧ bare w = bare e.worker := by
  obtain ⟨req, hpr⟩ := hpr
  have e1 : (identifyItem p true s).producer = composeAddr m [] e.worker := by
    rw [hc.producer]
    simp [found, hpr]
  have e2 : (identifyItem p true s).ok = true := by rw [hc.ok, found_true_ok]
  have e3 := hc.isLocal
  obtain ⟨i, hi, h0, hw⟩ := hwn
  obtain ⟨g, hg, _, _, hb⟩ := find_worker he hel hi hw
  refine ⟨g.worker, g.hier, ?_, hb⟩
  unfold redirect
  dsimp only
  rw [e1, e2, e3, decompose_worker hs hi h0 hw]
  simp [hg]

/-- A request of which no part is known is refused, when the top of no hierarchy has a producer. -/
theorem C88_unknown (m : Mgr) (p : Publ) (analyzed : Bool) (s : Str) (h : ∀ q, q ≠ [] → q <+: comps s → Unknown p q)
    (h0 : p.loc.info.producer = none) : redirect m p analyzed s = some .refused := by
  have hd : decomposeAddr m [] = some none := rfl
  have key : (identifyItem p true s).ok = false ∨ (identifyItem p true s).producer = [] := by
    by_cases hs : s = []
    · left; subst hs; rfl
    rcases identify_cut p true (s.length + 1) s (by omega) (fun _ => hs) with ⟨a, b, loc, x, hc⟩ | ⟨h1, _, _, _⟩
    · right
      have hk := hc.hit
      have hka : comps a = [] := by
        by_contra hna
        have hu := h (comps a) hna (by rw [hc.comps_split]; exact List.prefix_append _ _)
        cases loc with
        | true => simp at hk; rw [getFolder_eq, hu.1] at hk; cases hk
        | false =>
          simp at hk
          obtain ⟨e, he, hel, hes⟩ := findRemote_some hk.2
          rw [getFolder_eq, hu.2 e he hel] at hes; cases hes
      have hloc : getFolder p.loc a = some ⟨p.loc, []⟩ := by rw [getFolder_eq, hka]; rfl
      have : (identifyItem p true s).producer = (found true loc x a).producer := hc.producer
      rw [this]
      cases loc with
      | false => simp at hk; rw [hloc] at hk; cases hk.1
      | true =>
        simp at hk
        rw [hloc] at hk; cases hk
        simp [found, findProducer, Ref.chain, producerLoop, h0]
    · right; exact h1
  unfold redirect
  dsimp only
  rcases key with hk | hk
  · rw [hk]; rfl
  · rw [hk, hd]
    cases (identifyItem p true s).ok <;> rfl

/-- A command item is executed by the producer of the item, with its name inside what was published.
Full statement: the producer is the responsible worker, as for other requests, also when other nodes are known; this is wrong, see
`C88_execute_counterexample`. -/
theorem C88_execute_partial {m : Mgr} {p : Publ} {s : Str} {e : Entry} (hp : Published m p) (hg : p.glob = none)
    (hpl : ∀ n ∈ comps s, Plain n) (hr : Responsible p e (comps s)) {d : Ref} (hd : item p.loc (comps s) = some d)
    (hk : d.cur.info.kind = lit "DABC.Command") :
    ∃ req, exeTarget p s = some (composeAddr m [] e.worker, req) ∧ comps e.path ++ comps req = comps s := by
  obtain ⟨he, hel, hpre, hdeep⟩ := hr
  obtain ⟨re, hre, hpe⟩ := hp.node e he hel
  obtain ⟨hne, hw⟩ := hp.names e he hel
  have hwi : workItem p s = some d := by
    have hs : s ≠ [] := by rintro rfl; exact hne (List.prefix_nil.1 hpre)
    have hs2 : s ≠ [slash] := by rintro rfl; exact hne (List.prefix_nil.1 hpre)
    unfold workItem
    rw [if_neg (by simp [hs, hs2])]
    unfold Publ.top
    rw [hg]
    rw [← hd, ← getFolder_plain hpl]; rfl
  have hnear : NearestProducer p.loc (comps s) (comps e.path).length (composeAddr m [] e.worker) := by
    refine ⟨hpre.length_le, ⟨re, by rw [← List.prefix_iff_eq_take.1 hpre]; exact hre, hpe⟩, fun k h1 h2 => ?_⟩
    have : ∃ r, item p.loc ((comps s).take k) = some r := by
      have : item p.loc ((comps s).take k ++ (comps s).drop k) = some d := by rw [List.take_append_drop]; exact hd
      unfold item at this ⊢
      rw [down_append] at this
      obtain ⟨r, hr, _⟩ := Option.bind_eq_some_iff.1 this
      exact ⟨r, hr⟩
    obtain ⟨r, hr⟩ := this
    refine ⟨r, hr, ?_⟩
    cases hpr : r.cur.info.producer with
    | none => rfl
    | some pr =>
      obtain ⟨f, hf, hfl, hfp, _⟩ := hp.only _ _ _ hr hpr
      have := hdeep f hf hfl (by rw [hfp]; exact List.take_prefix _ _)
      rw [hfp] at this
      simp at this
      omega
  have hfp := ((C88_producer p.loc (comps s) d hd _ _).1).2 ⟨_, hnear, rfl⟩
  refine ⟨join ((comps s).drop (comps e.path).length), ?_, ?_⟩
  · unfold exeTarget
    rw [hwi]
    dsimp only
    rw [if_neg (by simp [hk]), hg]
    show (match findProducer false d with | none => none | some (pr, req) => if pr = [] then none else some (pr, req)) = _
    rw [hfp]
    dsimp only
    rw [if_neg]
    obtain ⟨i, hi, h0, hw⟩ := hw
    rw [compose_worker hi h0 hw]
    unfold composeAddr
    cases i with
    | nil => exact absurd rfl h0
    | cons c r => simp
  · rw [comps_join (fun n hn => comps_names (List.mem_of_mem_drop hn))]
    obtain ⟨c, hc⟩ := hpre
    rw [← hc]; simp

/-- The address of a page is split into the longest known item and the rest, without loss; a rest with further slashes counts to the
item, except for its last name. -/
theorem C88_uri {p : Publ} {uri path fname : Str} (h : uiKind p uri = some (false, path, fname)) :
    uri = path ++ fname ∨ (uri = path ++ slash :: fname ∧ slash ∉ fname) := by
  unfold uiKind at h
  dsimp only at h
  by_cases h0 : uri = []
  · subst h0
    rw [if_pos rfl] at h
    simp [rfind] at h
    split at h <;> simp at h
    exact .inl (by rw [h.1, h.2]; rfl)
  rw [if_neg h0] at h
  split at h
  · cases h
  rename_i hok
  obtain ⟨e1, _, _⟩ := identify_uri h0 (by simpa using hok)
  generalize identifyItem p false uri = r at *
  split at h
  · simp at h
  split at h
  · rename_i pos hpos
    split at h
    · simp at h
      obtain ⟨h1, h2⟩ := h
      obtain ⟨x, y, hxy, hx, hy⟩ := rfind_char hpos
      right
      rw [← h1, ← h2]
      refine ⟨?_, ?_⟩
      · rw [e1, hxy, ← hx]; simp
      · rw [hxy, ← hx]; simpa using hy
    · simp at h
      exact .inl (by rw [← h.1, ← h.2]; exact e1)
  · simp at h
    exact .inl (by rw [← h.1, ← h.2]; exact e1)

/-! ## Examples and counterexamples -/

/-- An application with the workers `Mod1`, which has published `A`, and `Mod2`, which has published `A/B` and `C`. -/
def exMgr : Mgr := ⟨lit "lxg0526:8090", 0, fun _ => []⟩
def exAddr (w : String) : Str := lit "dabc://lxg0526:8090/" ++ lit w
def exTree : Tree :=
  .node { name := lit "LOCAL" } [
    .node { name := lit "A", producer := some (exAddr "Mod1") } [
      .node { name := lit "B", producer := some (exAddr "Mod2") } [
        .node { name := lit "Cmd", kind := lit "DABC.Command", auth := some true } []]],
    .node { name := lit "C", producer := some (exAddr "Mod2") } []]
def exEntry (id : Nat) (path worker : String) : Entry := ⟨id, lit path, lit worker, [], id + 10, true, .node { name := [] } []⟩
def exPubl : Publ := ⟨exTree, none, [exEntry 0 "A" "/Mod1", exEntry 1 "A/B" "/Mod2", exEntry 2 "/C" "/Mod2"]⟩

theorem exServer : IsServer exMgr.localAddr :=
  ⟨lit "lxg0526", some (lit "8090"), by decide, by decide, by decide, by decide, by
    intro t ht; cases ht; exact ⟨⟨⟨by decide, by unfold isDigit; decide⟩, by decide⟩, by decide⟩⟩

theorem exItems {ns : List Str} {r : Ref} (h : item exTree ns = some r) :
    ns = [] ∨ ns = [lit "A"] ∨ ns = [lit "A", lit "B"] ∨ ns = [lit "A", lit "B", lit "Cmd"] ∨ ns = [lit "C"] := by
  match ns, h with
  | [], _ => simp
  | a :: ns, h =>
    by_cases ha : a = lit "A"
    · subst ha
      match ns, h with
      | [], _ => simp
      | b :: ns, h =>
        by_cases hb : b = lit "B"
        · subst hb
          match ns, h with
          | [], _ => simp
          | c :: ns, h =>
            by_cases hc : c = lit "Cmd"
            · subst hc
              match ns, h with
              | [], _ => simp
              | d :: ns, h => exact absurd h (by simp [item, down, exTree, Tree.kids, Tree.name, Tree.info, lit])
            · exact absurd h (by simp [item, down, exTree, Tree.kids, Tree.name, Tree.info, Ne.symm hc])
        · exact absurd h (by simp [item, down, exTree, Tree.kids, Tree.name, Tree.info, Ne.symm hb])
    · by_cases hc : a = lit "C"
      · subst hc
        match ns, h with
        | [], _ => simp
        | d :: ns, h => exact absurd h (by simp [item, down, exTree, Tree.kids, Tree.name, Tree.info, lit])
      · exact absurd h (by simp [item, down, exTree, Tree.kids, Tree.name, Tree.info, Ne.symm ha, Ne.symm hc])

theorem exPublished (g : Option Tree) : Published exMgr { exPubl with glob := g } := by
  constructor
  · intro e he _
    simp [exPubl] at he
    rcases he with rfl | rfl | rfl
    · exact ⟨⟨_, _⟩, rfl, (by decide : some (exAddr "Mod1") = some (composeAddr exMgr [] (lit "/Mod1")))⟩
    · exact ⟨⟨_, _⟩, rfl, (by decide : some (exAddr "Mod2") = some (composeAddr exMgr [] (lit "/Mod2")))⟩
    · exact ⟨⟨_, _⟩, rfl, (by decide : some (exAddr "Mod2") = some (composeAddr exMgr [] (lit "/Mod2")))⟩
  · intro ns r pr h hp
    have h' : item exTree ns = some r := h
    rcases exItems h' with rfl | rfl | rfl | rfl | rfl
    · cases h'; cases hp
    · cases h'; cases hp; exact ⟨exEntry 0 "A" "/Mod1", by simp [exPubl], rfl, by decide, by decide⟩
    · cases h'; cases hp; exact ⟨exEntry 1 "A/B" "/Mod2", by simp [exPubl], rfl, by decide, by decide⟩
    · cases h'; cases hp
    · cases h'; cases hp; exact ⟨exEntry 2 "/C" "/Mod2", by simp [exPubl], rfl, by decide, by decide⟩
  · intro e he _
    simp [exPubl] at he
    rcases he with rfl | rfl | rfl
    · exact ⟨by decide, lit "Mod1", ⟨by decide, by decide⟩, by decide, .inr (by decide)⟩
    · exact ⟨by decide, lit "Mod2", ⟨by decide, by decide⟩, by decide, .inr (by decide)⟩
    · exact ⟨by decide, lit "Mod2", ⟨by decide, by decide⟩, by decide, .inr (by decide)⟩

theorem exResponsible (g : Option Tree) :
    Responsible { exPubl with glob := g } (exEntry 1 "A/B" "/Mod2") (comps (lit "/A/B/Cmd")) ∧
    Responsible { exPubl with glob := g } (exEntry 2 "/C" "/Mod2") (comps (lit "/C/x/y")) := by
  refine ⟨⟨by simp [exPubl], rfl, by decide, ?_⟩, by simp [exPubl], rfl, by decide, ?_⟩
  all_goals
    intro f hf _ hp
    simp [exPubl] at hf
    rcases hf with rfl | rfl | rfl <;> first | decide | exact absurd hp (by decide)

theorem exLocal (g : Option Tree) (ns : List Str) : LocalOnly { exPubl with glob := g } ns := by
  intro e he h
  simp [exPubl] at he
  rcases he with rfl | rfl | rfl <;> cases h

instance (n : Str) : Decidable (Plain n) := by unfold Plain; infer_instance

example : ∃ w hier sub, redirect exMgr exPubl false (lit "/A/B/Cmd") = some (.worker w hier sub) ∧ bare w = bare (lit "/Mod2") ∧
    comps (lit "A/B") ++ comps sub = comps (lit "/A/B/Cmd") :=
  C88_worker exServer (exPublished none) (by decide) (exResponsible none).1 (exLocal none _) false

/-- A worker with two hierarchies gets the requests for the second one with the first one. -/
theorem C88_hierarchy_counterexample : ∃ (m : Mgr) (p : Publ) (s : Str) (e : Entry),
    IsServer m.localAddr ∧ Published m p ∧ (∀ n ∈ comps s, Plain n) ∧ Responsible p e (comps s) ∧ LocalOnly p (comps s) ∧
    ∃ w hier sub, redirect m p false s = some (.worker w hier sub) ∧ hier ≠ e.hier :=
  ⟨exMgr, exPubl, lit "/C/x/y", exEntry 2 "/C" "/Mod2", exServer, exPublished none, by decide, (exResponsible none).2, exLocal none _,
    lit "/Mod2", 11, lit "x/y", by decide +kernel, by decide⟩

/-- As soon as another node is known, a command published inside of the branch of another worker is sent to that worker. -/
theorem C88_execute_counterexample : ∃ (m : Mgr) (p : Publ) (s : Str) (e : Entry) (d : Ref),
    Published m p ∧ (∀ n ∈ comps s, Plain n) ∧ Responsible p e (comps s) ∧ LocalOnly p (comps s) ∧ item p.loc (comps s) = some d ∧
    d.cur.info.kind = lit "DABC.Command" ∧ p.glob = some p.loc ∧
    ∃ pr req, exeTarget p s = some (pr, req) ∧ pr ≠ composeAddr m [] e.worker :=
  ⟨exMgr, { exPubl with glob := some exTree }, lit "/A/B/Cmd", exEntry 1 "A/B" "/Mod2", _, exPublished _, by decide, (exResponsible _).1,
    exLocal _ _, rfl, by decide, rfl, exAddr "Mod1", lit "B/Cmd", by decide +kernel, by decide⟩

example : OneEach { exPubl with entries := exPubl.entries.take 2 } := by
  intro e he f hf _ _ hb
  simp [exPubl] at he hf
  rcases he with rfl | rfl <;> rcases hf with rfl | rfl <;> first | rfl | exact absurd hb (by decide)

example : exeTarget exPubl (lit "/A/B/Cmd") = some (exAddr "Mod2", lit "Cmd") := by decide +kernel
example : uiKind exPubl (lit "/A/B/Cmd/execute") = some (false, lit "/A/B/Cmd/", lit "execute") := by decide +kernel
example : uiKind exPubl (lit "/A/B/obj/sub/get.json") = some (false, lit "/A/B/obj/sub", lit "get.json") := by decide +kernel
example : redirect exMgr exPubl false (lit "/X/y") = some .refused := by decide +kernel
example : getFolder exTree (lit "A//./B/../B/Cmd/") = item exTree [lit "A", lit "B", lit "Cmd"] := rfl

/-- Another node `far:80` publishes `/D`. -/
def exFar : Publ := { exPubl with
  glob := some exTree
  entries := exPubl.entries ++ [⟨3, [], lit "/w", lit "dabc://far:80/publ", 0, false,
    .node { name := lit "remote" } [.node { name := lit "D", producer := some (lit "dabc://far:80/Mod3") } []]⟩] }

example : redirect exMgr exFar false (lit "/D/x") = some (.node (lit "dabc://far:80/publ")) ∧
    redirect exMgr exFar true (lit "/D/x") = some .refused := by decide +kernel

/-- A node which shows an item of `Mod1` of this node. -/
example : redirect exMgr { exPubl with entries := exPubl.entries ++ [⟨9, [], [], [], 0, false,
    .node { name := lit "remote" } [.node { name := lit "Z", producer := some (exAddr "Mod1") } []]⟩] } true (lit "/Z/x") =
    some (.worker (lit "/Mod1") 10 (lit "x")) := by decide +kernel

end Verif.PublTree
