import Verif.HistoryLemmas

/-! # Property C44: the history of an item -/

namespace Verif.Record
open Verif.Bytes Verif.Stream

theorem goBack_take {s : Node} {l} (h : HInv s l) (txt : Val → List Name) {e : Nat × Snap} {l' : List (Nat × Snap)} (hl : l = e :: l')
    {f : Fields} (hf : Sorted f.map) (hcur : SameSnap (value f.map) e.2) (k : Nat) (hk : k ≤ s.hist.length) :
    Sorted (goBack txt f (s.hist.reverse.take k)).map ∧
    ∃ a, l[k]? = some a ∧ SameSnap (value (goBack txt f (s.hist.reverse.take k)).map) a.2 := by
  induction k with
  | zero => exact ⟨by simpa [goBack] using hf, e, by rw [hl]; rfl, by simpa [goBack] using hcur⟩
  | succ k ih =>
    obtain ⟨hs, a, ha, hsa⟩ := ih (by omega)
    have hk' : k < s.hist.reverse.length := by simp; omega
    have hx : s.hist.reverse[k]? = some s.hist.reverse[k] := List.getElem?_eq_getElem hk'
    obtain ⟨a', b, ha', hb, _, hd⟩ := h.chain k _ hx
    rw [ha] at ha'
    cases ha'
    have hgb : goBack txt f (s.hist.reverse.take (k + 1)) = (goBack txt f (s.hist.reverse.take k)).applyDiff txt (s.hist.reverse[k]).2 := by
      unfold goBack
      rw [List.take_add_one, hx, List.foldl_append]
      rfl
    rw [hgb]
    obtain ⟨h1, h2⟩ := hd txt _ hs hsa
    exact ⟨h2, b, hb, h1⟩

/-- Full statement: at any time the history holds the versions of the latest changes before the last one, up to the
capacity, and going back from the current fields gives the fields at these changes.  Missing: the item is seen
between a change of fields and the following mark (the current fields are those of the newest entry of the log),
fields named "dabc:del", creation of fields without value, time stamps repeated (`C44_time_counterexample`). -/
theorem C44_history_partial {cap : Nat} {autoTime : Bool} {s : Node} {l : List (Nat × Snap)} (h : NReach cap autoTime s l) :
    s.hist.length = min cap (l.length - 1) ∧
    s.hist.reverse.map Prod.fst = (l.map Prod.fst).take s.hist.length ∧
    (∀ txt e, l.head? = some e → SameSnap (value s.fields.map) e.2 → ∀ k ≤ s.hist.length,
      ∃ a, l[k]? = some a ∧ SameSnap (value (goBack txt s.fields (s.hist.reverse.take k)).map) a.2) := by
  obtain ⟨hi, hc, _⟩ := h.inv
  refine ⟨by rw [← hc]; exact hi.len, ?_, ?_⟩
  · apply List.ext_getElem?
    intro i
    rw [List.getElem?_map, List.getElem?_take, List.getElem?_map]
    by_cases hlt : i < s.hist.length
    · rw [if_pos hlt]
      have hx : s.hist.reverse[i]? = some (s.hist.reverse[i]'(by simpa using hlt)) := List.getElem?_eq_getElem _
      obtain ⟨a, b, ha, _, he, _⟩ := hi.chain i _ hx
      rw [hx, ha]
      simp only [Option.map_some, he]
    · rw [if_neg hlt, List.getElem?_eq_none (by simp; omega)]
      rfl
  · intro txt e he hcur k hk
    cases l with
    | nil => cases he
    | cons e0 l' =>
      cases he
      exact (goBack_take hi txt rfl hi.sorted hcur k hk).2

/-- Directly after a mark with changed fields the current fields are those of the newest entry. -/
theorem C44_head {s : Node} {l : List (Nat × Snap)} {ver : Nat} {tm : Word} {child : Bool} (hw : s.fields.wasChanged = true) :
    ∃ e l', logStep s l (.mark ver tm child) = e :: l' ∧ SameSnap (value (s.step (.mark ver tm child)).fields.map) e.2 := by
  refine ⟨_, l, by unfold logStep Logs; rw [hw]; rfl, fun n => SameOpt.refl _⟩

theorem extractStep_full {s : Node} {l} (h : HInv s l) (txt : Val → List Name) (f : Fields) {k : Nat} (hfull : s.hist.length = s.cap) (hk : k < s.cap) :
    s.extractStep txt f k = some (goBack txt f ((s.hist.reverse.drop k).take 1), true) := by
  unfold Node.extractStep
  rw [if_neg (by omega)]
  have hk' : k < s.hist.reverse.length := by simp; omega
  have e : s.hist[s.cap - k - 1]? = s.hist.reverse[k]? := by
    rw [List.getElem?_reverse (by omega)]
    congr 1; omega
  rw [e, List.getElem?_eq_getElem hk', List.drop_eq_getElem_cons hk']
  rfl

/-- Full statement: `HistoryIter` goes through the current fields and all entries of the history, and then stops.
Missing: histories which are not full, see `C44_iterate_counterexample`. -/
theorem C44_iterate_partial {cap : Nat} {autoTime : Bool} {s : Node} {l : List (Nat × Snap)} (h : NReach cap autoTime s l)
    (hfull : s.hist.length = cap) (txt : Val → List Name) {e : Nat × Snap} (he : l.head? = some e) (hcur : SameSnap (value s.fields.map) e.2) :
    (∀ k ≤ cap, ∃ f a, s.iterate txt k = some (f, true) ∧ l[k]? = some a ∧ SameSnap (value f.map) a.2) ∧
    (∀ k > cap, ∃ f, s.iterate txt k = some (f, false)) := by
  obtain ⟨hi, hc, _⟩ := h.inv
  subst hc
  have hl : ∃ l', l = e :: l' := by
    cases l with
    | nil => cases he
    | cons e0 l' => cases he; exact ⟨l', rfl⟩
  obtain ⟨l', hl⟩ := hl
  have hpl : ∀ x ∈ s.fields.map, Plain x.2.val := fun x hx => (((mem_of_find_plain hi.sorted).mpr hi.good) x hx).2.2
  have hcl : SameSnap (value s.fields.clone.map) e.2 := by
    intro n
    rw [value_clone hi.sorted hpl]
    exact hcur n
  have hit : ∀ k ≤ s.cap, s.iterate txt k = some (goBack txt s.fields.clone (s.hist.reverse.take k), true) := by
    intro k
    induction k with
    | zero => intro _; rfl
    | succ k ih =>
      intro hk
      rw [Node.iterate, ih (by omega)]
      simp only [Option.bind_some, if_true]
      rw [extractStep_full hi txt _ hfull (by omega)]
      unfold goBack
      rw [← List.foldl_append, ← List.take_add]
  constructor
  · intro k hk
    obtain ⟨_, a, ha, hs⟩ := goBack_take hi txt hl (sorted_clone _) hcl k (by omega)
    exact ⟨_, a, hit k hk, ha, hs⟩
  · intro k hk
    obtain ⟨j, rfl⟩ : ∃ j, k = s.cap + 1 + j := ⟨k - s.cap - 1, by omega⟩
    refine ⟨goBack txt s.fields.clone (s.hist.reverse.take s.cap), ?_⟩
    induction j with
    | zero =>
      rw [Nat.add_zero, Node.iterate, hit s.cap (Nat.le_refl _)]
      simp only [Option.bind_some, if_true]
      unfold Node.extractStep
      rw [if_pos (Nat.le_refl _)]
    | succ j ih =>
      rw [show s.cap + 1 + (j + 1) = (s.cap + 1 + j) + 1 by omega, Node.iterate, ih (by omega)]
      rfl

/-- Two marked changes of field "a" fill a history of one entry; the hypotheses are met. -/
def demo (cap : Nat) (autoTime : Bool) : Node :=
  (((({ cap := cap, autoTime := autoTime } : Node).step (.set [97] (.int 1))).step (.mark 1 10 false)).step (.set [97] (.int 2))).step (.mark 2 20 false)

theorem demo_reach (cap : Nat) (hcap : cap = 1 ∨ cap = 5) : ∃ l e, NReach cap true (demo cap true) l ∧ l.head? = some e ∧ SameSnap (value (demo cap true).fields.map) e.2 ∧
    l.length = 2 ∧ (demo cap true).hist.length = 1 := by
  rcases hcap with rfl | rfl
  · have h0 : NReach 1 true _ [] := .init
    have h1 := h0.step (.set [97] (.int 1)) ⟨by decide, by decide, trivial, by simp⟩
    have h2 := h1.step (.mark 1 10 false) ⟨by decide, fun _ => by decide⟩
    have h3 := h2.step (.set [97] (.int 2)) ⟨by decide, by decide, trivial, by simp⟩
    have h4 := h3.step (.mark 2 20 false) ⟨by decide, fun _ => by decide⟩
    exact ⟨_, _, h4, rfl, fun n => SameOpt.refl _, rfl, rfl⟩
  · have h0 : NReach 5 true _ [] := .init
    have h1 := h0.step (.set [97] (.int 1)) ⟨by decide, by decide, trivial, by simp⟩
    have h2 := h1.step (.mark 1 10 false) ⟨by decide, fun _ => by decide⟩
    have h3 := h2.step (.set [97] (.int 2)) ⟨by decide, by decide, trivial, by simp⟩
    have h4 := h3.step (.mark 2 20 false) ⟨by decide, fun _ => by decide⟩
    exact ⟨_, _, h4, rfl, fun n => SameOpt.refl _, rfl, rfl⟩

example : ∃ s l e, NReach 1 true s l ∧ s.hist.length = 1 ∧ l.head? = some e ∧ SameSnap (value s.fields.map) e.2 := by
  obtain ⟨l, e, h1, h2, h3, _, h5⟩ := demo_reach 1 (Or.inl rfl)
  exact ⟨_, l, e, h1, h5, h2, h3⟩

/-- While the history is not yet full, the iteration accesses an empty element of the queue (null pointer). -/
theorem C44_iterate_counterexample : ∃ s l e, NReach 5 true s l ∧ l.head? = some e ∧ SameSnap (value s.fields.map) e.2 ∧
    s.hist.length = 1 ∧ ∀ txt, s.iterate txt 1 = none := by
  obtain ⟨l, e, h1, h2, h3, _, h5⟩ := demo_reach 5 (Or.inr rfl)
  refine ⟨_, l, e, h1, h2, h3, h5, fun txt => ?_⟩
  rfl

/-! ## What a client gets -/

theorem foldl_cross {version : Nat} (sel : List (Nat × FMap)) : ∀ b : Bool,
    sel.foldl (fun b h => if version > 0 && h.1 ≤ version then decide (h.1 < version) else b) b = true →
    b = true ∨ ∃ h ∈ sel, version > 0 ∧ h.1 < version := by
  induction sel with
  | nil => intro b hb; exact Or.inl hb
  | cons x sel ih =>
    intro b hb
    rw [List.foldl_cons] at hb
    rcases ih _ hb with h | ⟨y, hy, h⟩
    · split at h
      · rename_i hc
        simp only [Bool.and_eq_true, decide_eq_true_eq] at hc h
        exact Or.inr ⟨x, by simp, hc.1, h⟩
      · exact Or.inl h
    · exact Or.inr ⟨y, by simp [hy], h⟩

/-- On a list with falling versions the newer items are the first ones. -/
theorem filter_take {version : Nat} {r : List (Nat × FMap)} (hr : r.Pairwise fun x y => x.1 > y.1) :
    ∃ m ≤ r.length, r.filter (fun h => decide (version < h.1)) = r.take m ∧ (∀ i x, i < m → r[i]? = some x → version < x.1) ∧
      ∀ i x, m ≤ i → r[i]? = some x → x.1 ≤ version := by
  induction r with
  | nil => exact ⟨0, by simp, by simp, by simp, by simp⟩
  | cons y r ih =>
    obtain ⟨hy, hr⟩ := List.pairwise_cons.mp hr
    by_cases hlt : version < y.1
    · obtain ⟨m, hm, h1, h2, h3⟩ := ih hr
      refine ⟨m + 1, by simp; omega, by simp [hlt, h1], ?_, ?_⟩
      · intro i x hi hx
        cases i with
        | zero => simp at hx; rw [← hx]; exact hlt
        | succ i => exact h2 i x (by omega) (by simpa using hx)
      · intro i x hi hx
        cases i with
        | zero => omega
        | succ i => exact h3 i x (by omega) (by simpa using hx)
    · refine ⟨0, by simp, ?_, fun i x hi => by omega, ?_⟩
      · rw [List.take_zero, List.filter_eq_nil_iff]
        intro x hx
        rcases List.mem_cons.mp hx with rfl | hx
        · simpa using hlt
        · have := hy x hx; simp; omega
      · intro i x _ hx
        have hx := List.mem_of_getElem? hx
        rcases List.mem_cons.mp hx with rfl | hx
        · omega
        · have := hy x hx; omega

theorem hist_versions {s : Node} {l} (hi : HInv s l) : s.hist.reverse.Pairwise fun x y => x.1 > y.1 := by
  rw [List.pairwise_iff_getElem]
  intro i j hi' hj hij
  obtain ⟨a, _, ha, _, ha1, _⟩ := hi.chain i _ (List.getElem?_eq_getElem hi')
  obtain ⟨b, _, hb, _, hb1, _⟩ := hi.chain j _ (List.getElem?_eq_getElem hj)
  rw [ha1, hb1]
  obtain ⟨hli, rfl⟩ := List.getElem?_eq_some_iff.mp ha
  obtain ⟨hlj, rfl⟩ := List.getElem?_eq_some_iff.mp hb
  exact List.pairwise_iff_getElem.mp hi.vers.1 i j hli hlj hij

/-- Whenever the streamed history is declared to reach the version of the client, going back over it from the current
fields gives the fields which the client has seen. -/
theorem C44_stream_sound {cap : Nat} {autoTime : Bool} {s : Node} {l : List (Nat × Snap)} (h : NReach cap autoTime s l)
    {e : Nat × Snap} (he : l.head? = some e) (hcur : SameSnap (value s.fields.map) e.2) (txt : Val → List Name) (version hlimit : Nat)
    (hb : (streamItems s.hist version hlimit).2 = true) :
    ∃ a, LatestAt l version a ∧ SameSnap (value (goBack txt s.fields (streamItems s.hist version hlimit).1.reverse).map) a.2 := by
  obtain ⟨hi, hc, _⟩ := h.inv
  have hl : ∃ l', l = e :: l' := by
    cases l with
    | nil => cases he
    | cons e0 l' => cases he; exact ⟨l', rfl⟩
  obtain ⟨l', hl⟩ := hl
  unfold streamItems at hb ⊢
  generalize (if hlimit > 0 ∧ s.hist.length > hlimit then s.hist.length - hlimit else 0) = d at hb ⊢
  dsimp only at hb ⊢
  obtain ⟨x, hx, hv0, hxv⟩ := (foldl_cross _ false hb).resolve_left (by simp)
  have hsel : (s.hist.drop d).reverse = s.hist.reverse.take (s.hist.length - d) := by
    rw [List.reverse_drop]
  have hpw : ((s.hist.drop d).reverse).Pairwise fun x y => x.1 > y.1 := by
    rw [hsel]; exact (hist_versions hi).sublist (List.take_sublist _ _)
  obtain ⟨m, hm, h1, h2, h3⟩ := filter_take (version := version) hpw
  have hfil : ((s.hist.drop d).filter fun h => !(decide (version > 0) && decide (h.1 ≤ version))).reverse = s.hist.reverse.take m := by
    rw [← List.filter_reverse]
    rw [show (fun h : Nat × FMap => !(decide (version > 0) && decide (h.1 ≤ version))) = fun h => decide (version < h.1) by
      funext h; simp [show 0 < version from hv0, ← Nat.not_le]]
    rw [h1, hsel, List.take_take]
    congr 1
    rw [hsel] at hm
    simp at hm
    omega
  rw [hfil]
  obtain ⟨i, hi1⟩ := List.getElem?_of_mem (List.mem_reverse.mpr hx)
  have hmi : m ≤ i := by
    rcases Nat.lt_or_ge i m with hcon | hge
    · have := h2 i x (by omega) hi1
      omega
    · exact hge
  have hil : i < (s.hist.drop d).reverse.length := (List.getElem?_eq_some_iff.mp hi1).1
  have hml : m < s.hist.length := by simp at hil; omega
  obtain ⟨_, a, ha, hsa⟩ := goBack_take hi txt hl hi.sorted hcur m (by omega)
  refine ⟨a, ⟨List.mem_of_getElem? ha, ?_, ?_⟩, hsa⟩
  · have hmr : m < (s.hist.drop d).reverse.length := by omega
    have hy := List.getElem?_eq_getElem hmr
    have hle := h3 m _ (Nat.le_refl _) hy
    have hy' : s.hist.reverse[m]? = some ((s.hist.drop d).reverse[m]) := by
      rw [← hy, hsel, List.getElem?_take, if_pos (by simp at hmr; omega)]
    obtain ⟨a', _, ha', _, hva, _⟩ := hi.chain m _ hy'
    rw [ha] at ha'
    cases ha'
    omega
  · intro e' he' hle
    obtain ⟨j, hj⟩ := List.getElem?_of_mem he'
    have hjm : m ≤ j := by
      refine Nat.le_of_not_lt fun hcon => ?_
      have hjr : j < (s.hist.drop d).reverse.length := by omega
      have hy := List.getElem?_eq_getElem hjr
      have hgt := h2 j _ (by omega) hy
      have hy' : s.hist.reverse[j]? = some ((s.hist.drop d).reverse[j]) := by
        rw [← hy, hsel, List.getElem?_take, if_pos (by simp at hjr; omega)]
      obtain ⟨a', _, ha', _, hva, _⟩ := hi.chain j _ hy'
      rw [hj] at ha'
      cases ha'
      omega
    obtain ⟨hlm, rfl⟩ := List.getElem?_eq_some_iff.mp ha
    obtain ⟨hlj, rfl⟩ := List.getElem?_eq_some_iff.mp hj
    rcases Nat.lt_or_eq_of_le hjm with hlt | rfl
    · exact Nat.le_of_lt (List.pairwise_iff_getElem.mp hi.vers.1 m j hlm hlj hlt)
    · exact Nat.le_refl _

/-- Versions 1 to 4 marked, then the client with a version in between. -/
def demo4 : Node := ((((demo 5 true).step (.set [97] (.int 3))).step (.mark 3 30 false)).step (.set [97] (.int 4))).step (.mark 5 40 false)

theorem demo4_reach : ∃ l e, NReach 5 true demo4 l ∧ l.head? = some e ∧ SameSnap (value demo4.fields.map) e.2 := by
  obtain ⟨l, e, h0, _⟩ := demo_reach 5 (Or.inr rfl)
  have h1 := h0.step (.set [97] (.int 3)) ⟨by decide, by decide, trivial, by simp⟩
  have h2 := h1.step (.mark 3 30 false) ⟨by decide, fun _ => by decide⟩
  have h3 := h2.step (.set [97] (.int 4)) ⟨by decide, by decide, trivial, by simp⟩
  have h4 := h3.step (.mark 5 40 false) ⟨by decide, fun _ => by decide⟩
  exact ⟨_, _, h4, rfl, fun n => SameOpt.refl _⟩

/-- The hypotheses are met, with a client between two versions. -/
example : (∃ l e, NReach 5 true demo4 l ∧ l.head? = some e ∧ SameSnap (value demo4.fields.map) e.2) ∧ demo4.hist.map Prod.fst = [2, 3, 5] ∧
    (streamItems demo4.hist 4 0).2 = true ∧ (streamItems demo4.hist 4 0).1.map Prod.fst = [5] := by
  refine ⟨demo4_reach, rfl, by decide, rfl⟩

/-- A client whose version is exactly that of an entry is told that the history does not reach its version, although
older entries are still stored. -/
theorem C44_stream_counterexample : ∃ s l, NReach 5 true s l ∧ s.hist.map Prod.fst = [2, 3, 5] ∧ (streamItems s.hist 3 0).2 = false := by
  obtain ⟨l, e, h, _⟩ := demo4_reach
  exact ⟨demo4, l, h, rfl, by decide⟩

/-- A time stamp which is repeated is lost from the history: the time shown for the previous entry is that of the last one. -/
theorem C44_time_counterexample : ∃ ops : List NOp, ∃ e0 e1,
    let r := ops.foldl (fun (r : Node × List (Nat × Snap)) op => (r.1.step op, logStep r.1 r.2 op)) ({ cap := 1, autoTime := true }, [])
    r.2 = [e0, e1] ∧ r.1.hist.length = 1 ∧ e1.2 timeName = some (.datime 10) ∧
    ∀ txt, value (goBack txt r.1.fields r.1.hist.reverse).map timeName = some (.datime 20) := by
  refine ⟨[.set [97] (.int 1), .mark 1 10 false, .mark 2 20 true, .set [97] (.int 2), .mark 3 20 false], _, _, rfl, rfl, by decide, fun txt => by rfl⟩

end Verif.Record
