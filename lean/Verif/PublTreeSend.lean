import Verif.PublTreeFind
import Verif.Props.Url

namespace Verif.PublTree
open Verif.Bytes Verif.Json Verif.Text Verif.Url Verif.FileName

theorem bare_name {w i : Str} (hi : IsItem i) (h : w = i ∨ w = slash :: i) : bare w = i := by
  unfold bare
  rcases h with rfl | rfl
  · exact if_neg hi.2
  · simp

theorem compose_worker {m : Mgr} {w i : Str} (hi : IsItem i) (h0 : i ≠ []) (h : w = i ∨ w = slash :: i) :
    composeAddr m [] w = composeAddr m [] i := by
  rcases h with rfl | rfl
  · rfl
  · unfold composeAddr
    dsimp only
    cases i with
    | nil => exact absurd rfl h0
    | cons c r =>
      have hc : c ≠ 47 := by simpa [IsItem] using hi.2
      show _ ++ (if slash = 47 then [] else [47]) ++ slash :: c :: r = _ ++ (if c = 47 then [] else [47]) ++ c :: r
      rw [if_pos rfl, if_neg hc]
      simp [slash]

theorem decompose_worker {m : Mgr} (hs : IsServer m.localAddr) {w i : Str} (hi : IsItem i) (h0 : i ≠ []) (h : w = i ∨ w = slash :: i) :
    decomposeAddr m (composeAddr m [] w) = some (some (true, m.localAddr, i)) := by
  rw [compose_worker hi h0 h, C16_address_local hs hi]

theorem plain_sub {ns q : List Str} (h : ∀ n ∈ ns, Plain n) (hq : q <+: ns) : ∀ n ∈ q, Plain n :=
  fun n hn => h n (hq.subset hn)

theorem walk_item {t : Tree} {q : List Str} (h : ∀ n ∈ q, Plain n) : walk q ⟨t, []⟩ = item t q := walk_plain h _

/-- Producer of an item of this node. -/
theorem found_local {t : Tree} {ns : List Str} {h : Ref} {a : Str} (hi : item t ns = some h) :
    ((found true true h a).producer = [] ∧ (found true true h a).request = [] ∧
        ∀ k, k ≤ ns.length → ∃ x, item t (ns.take k) = some x ∧ x.cur.info.producer = none) ∨
      ∃ j, NearestProducer t ns j (found true true h a).producer ∧ (found true true h a).request = join (ns.drop j) := by
  have := producer_nearest t ns h [] hi
  unfold found findProducer
  rcases this with ⟨h1, h2⟩ | ⟨j, pr, h1, h2⟩
  · left
    simp [h1]
    exact h2
  · right
    refine ⟨j, ?_, ?_⟩
    · simp [h2]; exact h1
    · simp [h2]

theorem found_remote {t : Tree} {ns : List Str} {h : Ref} {a : Str} (hi : item t ns = some h) :
    ((found true false h a).producer = [] ∧ (found true false h a).request = [] ∧
        ∀ k, k ≤ ns.length → ∃ x, item t (ns.take k) = some x ∧ x.cur.info.producer = none) ∨
      ∃ j, TopProducer t ns j (found true false h a).producer ∧ (found true false h a).request = join (ns.drop j) := by
  have := producer_top t ns h [] none hi
  unfold found findProducer
  rcases this with ⟨h1, h2⟩ | ⟨j, pr, h1, h2⟩
  · left
    simp [h1]
    exact h2
  · right
    refine ⟨j, ?_, ?_⟩
    · simp [h2]; exact h1
    · simp [h2]

theorem found_true_ok (loc : Bool) (h : Ref) (a : Str) : (found true loc h a).ok = true := by
  unfold found; simp

/-- What the publisher finds for an item for which a worker of this node is responsible. -/
theorem identify_local {m : Mgr} {p : Publ} {s : Str} {e : Entry} (hp : Published m p) (hpl : ∀ n ∈ comps s, Plain n)
    (hr : Responsible p e (comps s)) (hl : LocalOnly p (comps s)) :
    (identifyItem p true s).ok = true ∧ (identifyItem p true s).isLocal = true ∧
      (identifyItem p true s).producer = composeAddr m [] e.worker ∧
      comps e.path ++ comps (identifyItem p true s).request = comps s := by
  obtain ⟨he, hel, hpre, hdeep⟩ := hr
  obtain ⟨hne, hw⟩ := hp.names e he hel
  obtain ⟨re, hre, hpe⟩ := hp.node e he hel
  have hk : ¬Unknown p (comps e.path) := by
    rintro ⟨h, _⟩
    rw [walk_item (plain_sub hpl hpre), hre] at h
    cases h
  obtain ⟨a, b, loc, h, hc⟩ := identify_known p true s hne hpre hk
  have hsplit := hc.comps_split
  have hpa : ∀ n ∈ comps a, Plain n := plain_sub hpl (by rw [hsplit]; exact List.prefix_append _ _)
  have hapre : comps a <+: comps s := by rw [hsplit]; exact List.prefix_append _ _
  have hloc : loc = true := by
    cases loc with
    | true => rfl
    | false =>
      have hh := hc.hit
      simp at hh
      obtain ⟨x, hx, hxl, hxs⟩ := findRemote_some hh.2
      have h1 := hl x hx hxl (comps a) hapre
      rw [getFolder_plain hpa] at hxs hh
      exact absurd hh.1 (h1 (by rw [hxs]; simp))
  subst hloc
  have hhit : item p.loc (comps a) = some h := by
    have hh := hc.hit
    simp at hh
    rw [← getFolder_plain hpa]; exact hh
  have hea : comps e.path <+: comps a := by
    rcases List.prefix_or_prefix_of_prefix hpre hapre with h1 | h1
    · exact h1
    · by_cases heq : comps e.path = comps a
      · rw [heq]; exact List.prefix_rfl
      · exact absurd (hc.best _ h1 heq hpre) hk
  have hetake : (comps a).take (comps e.path).length = comps e.path := (List.prefix_iff_eq_take.1 hea).symm
  refine ⟨by rw [hc.ok, found_true_ok], hc.isLocal, ?_⟩
  rcases found_local (a := a) hhit with ⟨_, _, h3⟩ | ⟨j, ⟨h1, ⟨rj, h2, h2'⟩, h3⟩, h4⟩
  · obtain ⟨x, hx, hxn⟩ := h3 (comps e.path).length hea.length_le
    rw [hetake, hre] at hx
    cases hx
    rw [hpe] at hxn; cases hxn
  · have hej : (comps e.path).length ≤ j := by
      by_contra hc'
      obtain ⟨x, hx, hxn⟩ := h3 (comps e.path).length (by omega) hea.length_le
      rw [hetake, hre] at hx
      cases hx
      rw [hpe] at hxn; cases hxn
    obtain ⟨f, hf, hfl, hfp, _⟩ := hp.only _ _ _ h2 h2'
    have hfd := hdeep f hf hfl (by rw [hfp]; exact (List.take_prefix _ _).trans hapre)
    rw [hfp] at hfd
    simp at hfd
    have hjj : j = (comps e.path).length := by omega
    rw [hjj, hetake, hre] at h2
    cases h2
    rw [hpe] at h2'
    have h2'' := Option.some.inj h2'
    refine ⟨by rw [hc.producer]; exact h2''.symm, ?_⟩
    rw [hc.request, h4, hjj, comps_join (fun n hn => comps_names (List.mem_of_mem_drop hn)), ← List.append_assoc]
    have hjoin : comps e.path ++ (comps a).drop (comps e.path).length = comps a := by
      obtain ⟨c, hc'⟩ := hea
      rw [← hc']; simp
    rw [hjoin, hsplit]

theorem find_worker {p : Publ} {e : Entry} {i : Str} (he : e ∈ p.entries) (hel : e.isLocal = true)
    (hi : IsItem i) (hw : e.worker = i ∨ e.worker = slash :: i) :
    ∃ g, (p.entries.find? fun x => x.isLocal && (x.worker = i || x.worker = slash :: i)) = some g ∧ g ∈ p.entries ∧ g.isLocal = true ∧
      bare g.worker = bare e.worker := by
  cases hf : p.entries.find? fun x => x.isLocal && (x.worker = i || x.worker = slash :: i) with
  | none =>
    have := List.find?_eq_none.1 hf e he
    simp [hel] at this
    rcases hw with hw | hw
    · exact absurd hw this.1
    · exact absurd hw this.2
  | some g =>
    have h1 := List.find?_some hf
    simp at h1
    refine ⟨g, rfl, List.mem_of_find?_eq_some hf, h1.1, ?_⟩
    rw [bare_name hi h1.2, bare_name hi hw]

/-! ## How a request of a browser is split -/

theorem identify_uri {p : Publ} {s : Str} (hs : s ≠ []) (hok : (identifyItem p false s).ok = true) :
    s = (identifyItem p false s).producer ++ (identifyItem p false s).request ∧ (identifyItem p false s).producer ≠ [] ∧
      ((identifyItem p false s).request = [] ∨ (identifyItem p false s).producer.getLast? = some slash) := by
  rcases identify_cut p false (s.length + 1) s (by omega) (fun h => by cases h) with ⟨a, b, loc, h, hc⟩ | ⟨_, _, h, _⟩
  · have e1 := hc.producer
    have e2 := hc.exact rfl
    have e3 : (found false loc h a).producer = a := rfl
    unfold identifyItem
    rw [e1, e2, e3]
    refine ⟨hc.split, ?_, hc.edge⟩
    rintro rfl
    rcases hc.edge with hb | hb
    · exact hs (by rw [hc.split, hb]; rfl)
    · cases hb
  · exact absurd (h hok) (by simp)

end Verif.PublTree
