import Verif.PoolTake

namespace Verif.Pool
open Verif.Buffer Verif.Pointer

def usesL (bufs : List (Option Cont)) (i : Nat) : Nat := (bufs.map (bufUses · i)).sum

theorem uses_eq (w : World) (i : Nat) : w.uses i = usesL w.bufs i := rfl

theorem usesL_append (a b : List (Option Cont)) (i : Nat) : usesL (a ++ b) i = usesL a i + usesL b i := by
  simp [usesL]

theorem usesL_set : ∀ (bufs : List (Option Cont)) (h : Nat) (old b : Option Cont) (i : Nat), bufs[h]? = some old →
    usesL (bufs.set h b) i + bufUses old i = usesL bufs i + bufUses b i := by
  intro bufs
  induction bufs with
  | nil => intro h old b i hh; simp at hh
  | cons x xs ih =>
    intro h old b i hh
    cases h with
    | zero =>
      simp only [List.getElem?_cons_zero, Option.some.injEq] at hh
      subst hh
      simp only [usesL, List.set_cons_zero, List.map_cons, List.sum_cons]; omega
    | succ h =>
      simp only [List.getElem?_cons_succ] at hh
      have := ih h old b i hh
      simp only [usesL, List.set_cons_succ, List.map_cons, List.sum_cons] at this ⊢; omega

/-- The other buffers stay as they are. -/
theorem le_usesL {bufs : List (Option Cont)} {h : Nat} {b : Option Cont} (hh : bufs[h]? = some b) (i : Nat) :
    bufUses b i ≤ usesL bufs i := by
  have := usesL_set bufs h b none i hh
  rw [show bufUses none i = 0 from rfl] at this; omega

def Good (sizes : List Nat) : Option Cont → Prop
  | none => True
  | some c => (c.owner = .pool → ∀ s ∈ c.segs, s.off + s.len ≤ sizes[s.id]?.getD 0) ∧ (c.owner ≠ .pool → c.segs.length ≤ 1)

structure WInv (sizes : List Nat) (w : World) : Prop where
  pinv : PInv w.pool w.raw w.uses
  size : sizesOf w.pool = sizes
  good : ∀ b ∈ w.bufs, Good sizes b

theorem drop_spec {w : World} {R : Nat → Nat} {c : Cont} (h : PInv w.pool w.raw R) (hle : ∀ i, bufUses (some c) i ≤ R i) :
    ∃ q, w.drop c = some { w with pool := q } ∧ PInv q w.raw (fun i => R i - bufUses (some c) i) ∧ sizesOf q = sizesOf w.pool := by
  unfold World.drop
  by_cases ho : c.owner = .pool
  · rw [if_pos ho]
    simp only [bufUses, if_pos ho] at hle ⊢
    obtain ⟨q, a, b, e⟩ := decRefs_spec c.segs h hle
    exact ⟨q, by rw [a]; rfl, b, e⟩
  · rw [if_neg ho]
    simp only [bufUses, if_neg ho]
    exact ⟨w.pool, rfl, h.congr (by simp), rfl⟩

theorem good_set {sizes : List Nat} {bufs : List (Option Cont)} {h : Nat} {b : Option Cont}
    (hg : ∀ b ∈ bufs, Good sizes b) (hb : Good sizes b) : ∀ x ∈ bufs.set h b, Good sizes x := by
  intro x hx
  rcases List.mem_or_eq_of_mem_set hx with a | a
  · exact hg x a
  · subst a; exact hb

theorem releaseBuf_spec {sizes} {w : World} (h : WInv sizes w) (n : Nat) :
    ∃ q, w.releaseBuf n = some { w with pool := q, bufs := w.bufs.set n none } ∧
      WInv sizes { w with pool := q, bufs := w.bufs.set n none } := by
  unfold World.releaseBuf
  cases hb : w.bufs[n]? with
  | none =>
    have : w.bufs.set n none = w.bufs := List.set_eq_of_length_le (List.getElem?_eq_none_iff.mp hb)
    refine ⟨w.pool, by simp [this], ?_⟩
    rw [this]; exact h
  | some b =>
    cases b with
    | none =>
      have : w.bufs.set n none = w.bufs := by
        apply List.ext_getElem?
        intro j
        by_cases hj : n = j
        · subst hj
          rw [List.getElem?_set_self (List.getElem?_eq_some_iff.mp hb).1, hb]
        · rw [List.getElem?_set_ne hj]
      refine ⟨w.pool, by simp [this], ?_⟩
      rw [this]; exact h
    | some c =>
      obtain ⟨q, a, b, e⟩ := drop_spec h.pinv (c := c) (fun i => le_usesL hb i)
      refine ⟨q, by simp only [a, Option.map_some], ⟨b.congr ?_, e.trans h.size, good_set h.good trivial⟩⟩
      intro i
      have h1 := usesL_set w.bufs n (some c) none i hb
      have h2 := le_usesL hb i
      rw [uses_eq, uses_eq]
      simp only [bufUses] at h1 h2 ⊢
      omega

/-- Condition on an edit. -/
def EditOk (segs : List Seg) : Option Edit → Prop
  | none => True
  | some (none, _) => True
  | some (some l, d) => (∀ i, uses l i + uses d i = uses segs i) ∧ (segs.length ≤ 1 → d = [] ∧ l.length ≤ 1) ∧
      ∀ t ∈ l, ∃ s ∈ segs, t.id = s.id ∧ t.off + t.len ≤ s.off + s.len

theorem edit_spec {sizes} {w : World} (h : WInv sizes w) {n : Nat} {c : Cont} (hb : w.bufs[n]? = some (some c))
    {r : Option Edit} (hr : EditOk c.segs r) (u : Bool) : ∃ w' o, w.edit n c r u = some (w', o) ∧ WInv sizes w' := by
  have hg := h.good (some c) (List.mem_of_getElem? hb)
  match r with
  | none => exact ⟨w, _, rfl, h⟩
  | some (none, d) =>
    obtain ⟨q, a, b⟩ := releaseBuf_spec h n
    simp only [World.edit, a]
    exact ⟨_, _, rfl, b⟩
  | some (some l, d) =>
    obtain ⟨h1, h2, h3⟩ := hr
    unfold World.edit
    simp only
    rw [if_neg (by
      rintro ⟨hd, ho, -⟩
      exact hd (h2 (hg.2 (by rw [ho]; decide))).1)]
    have hle : ∀ i, bufUses (some { c with segs := d }) i ≤ w.uses i := by
      intro i
      have k2 := le_usesL hb i
      have k3 := h1 i
      rw [uses_eq]
      by_cases ho : c.owner = .pool
      · simp only [bufUses, if_pos ho] at k2 ⊢; omega
      · simp only [bufUses, if_neg ho]; omega
    obtain ⟨q, a, b, e⟩ := drop_spec h.pinv (c := { c with segs := d }) hle
    rw [a]
    refine ⟨_, _, rfl, ⟨b.congr ?_, e.trans h.size, good_set h.good ⟨?_, ?_⟩⟩⟩
    · intro i
      have k1 := usesL_set w.bufs n (some c) (some { c with segs := l }) i hb
      have k2 := le_usesL hb i
      have k3 := h1 i
      rw [uses_eq, uses_eq]
      by_cases ho : c.owner = .pool
      · simp only [bufUses, if_pos ho] at k1 k2 ⊢; omega
      · simp only [bufUses, if_neg ho] at k1 k2 ⊢; omega
    · intro ho t ht
      obtain ⟨s, m1, m2, m3⟩ := h3 t ht
      have := hg.1 ho s m1
      rw [m2]; omega
    · intro ho
      exact (h2 (hg.2 ho)).2

theorem setTotalSize_ok (segs : List Seg) (n : Nat) : EditOk segs (setTotalSize segs n) := by
  by_cases h0 : n = 0
  · simp [setTotalSize, h0, EditOk]
  · by_cases h1 : n ≤ totalSize segs
    · obtain ⟨l, d, e, c⟩ := setTotalSize_spec segs n (by omega) h1
      rw [e]
      rcases c with ⟨rfl, c2⟩ | ⟨l1, s, k, rfl, rfl, c3, c4⟩
      · refine ⟨fun i => by rw [uses_append], fun hl => ?_, fun t ht => ⟨t, by simp [ht], rfl, Nat.le_refl _⟩⟩
        have : l ≠ [] := by rintro rfl; simp [totalSize] at c2; omega
        have : 0 < l.length := List.length_pos_iff.mpr this
        simp only [List.length_append] at hl
        exact ⟨List.length_eq_zero_iff.mp (by omega), by omega⟩
      · refine ⟨fun i => ?_, fun hl => ?_, fun t ht => ?_⟩
        · simp only [uses_append, uses_cons, setLen, uses_nil]; omega
        · simp only [List.length_append, List.length_cons] at hl
          refine ⟨List.length_eq_zero_iff.mp (by omega), by simp only [List.length_append, List.length_cons, List.length_nil]; omega⟩
        · simp only [List.mem_append, List.mem_singleton] at ht
          rcases ht with ht | rfl
          · exact ⟨t, by simp [ht], rfl, Nat.le_refl _⟩
          · exact ⟨s, by simp, rfl, by simp only [setLen]; omega⟩
    · unfold setTotalSize
      rw [if_neg h0]
      simp only
      rw [if_pos (by omega)]
      trivial

theorem cutFromBegin_ok (segs : List Seg) (n : Nat) : EditOk segs (cutFromBegin segs n) := by
  by_cases h0 : n = 0
  · simp only [cutFromBegin, h0, if_true, EditOk]
    refine ⟨by simp, by simp, fun t ht => ⟨t, ht, rfl, Nat.le_refl _⟩⟩
  · by_cases h1 : n < totalSize segs
    · obtain ⟨l, d, e, c⟩ := cutFromBegin_spec segs n (by omega) h1
      rw [e]
      rcases c with ⟨rfl, c2⟩ | ⟨s, r, k, rfl, rfl, c3, c4⟩
      · refine ⟨fun i => by rw [uses_append]; omega, fun hl => ?_, fun t ht => ⟨t, by simp [ht], rfl, Nat.le_refl _⟩⟩
        have : l ≠ [] := by rintro rfl; simp [totalSize] at c2 h1; omega
        have : 0 < l.length := List.length_pos_iff.mpr this
        simp only [List.length_append] at hl
        exact ⟨List.length_eq_zero_iff.mp (by omega), by omega⟩
      · refine ⟨fun i => ?_, fun hl => ?_, fun t ht => ?_⟩
        · simp only [uses_append, uses_cons, cutSeg]; omega
        · simp only [List.length_append, List.length_cons] at hl
          refine ⟨List.length_eq_zero_iff.mp (by omega), by simp only [List.length_append, List.length_cons, List.length_nil]; omega⟩
        · simp only [List.mem_cons] at ht
          rcases ht with rfl | ht
          · exact ⟨s, by simp, rfl, by simp only [cutSeg]; omega⟩
          · exact ⟨t, by simp [ht], rfl, Nat.le_refl _⟩
    · unfold cutFromBegin
      rw [if_neg h0, if_pos (by omega)]
      trivial

theorem add_spec {sizes} {w : World} {c : Cont} (hp : PInv w.pool w.raw (fun i => w.uses i + bufUses (some c) i))
    (hs : sizesOf w.pool = sizes) (hg : ∀ b ∈ w.bufs, Good sizes b) (hc : Good sizes (some c)) : WInv sizes (w.add c).1 := by
  refine ⟨hp.congr ?_, hs, ?_⟩
  · intro i
    simp only [World.add, uses_eq, usesL_append]
    simp [usesL]
  · intro b hb
    simp only [World.add, List.mem_append, List.mem_singleton] at hb
    rcases hb with hb | rfl
    · exact hg b hb
    · exact hc

theorem dupCont_spec {sizes} {w : World} (h : WInv sizes w) {n : Nat} {c : Cont} (hb : w.bufs[n]? = some (some c)) :
    ∃ q, w.dupCont c = some ({ w with pool := q }, c) ∧ PInv q w.raw (fun i => w.uses i + bufUses (some c) i) ∧ sizesOf q = sizes := by
  unfold World.dupCont
  by_cases ho : c.owner = .pool
  · rw [if_pos ho]
    obtain ⟨q, a, b, e⟩ := incRefs_spec c.segs h.pinv (by
      intro s hs
      have := le_usesL hb s.id
      rw [uses_eq]
      simp only [bufUses, if_pos ho] at this
      have : 0 < uses c.segs s.id := uses_pos.mpr ⟨s, hs, rfl⟩
      omega)
    exact ⟨q, by rw [a]; rfl, by simpa only [bufUses, if_pos ho] using b, e.trans h.size⟩
  · rw [if_neg ho]
    exact ⟨w.pool, rfl, h.pinv.congr (by simp [bufUses, ho]), h.size⟩

theorem insertSegs_uses {segs : List Seg} {cap pos : Nat} {own l x : List Seg} (h0 : own ≠ [])
    (h : insertSegs segs cap pos own = some (l, x)) :
    (∀ i, uses l i = uses segs i + uses own i + uses x i) ∧ (∀ s ∈ x, s ∈ segs) ∧
      ∀ t ∈ l, ∃ s, (s ∈ segs ∨ s ∈ own) ∧ t.id = s.id ∧ t.off + t.len ≤ s.off + s.len := by
  obtain ⟨l1, l2, rfl, hc⟩ := insertSegs_spec segs cap pos own h0
  rcases hc with ⟨_, e⟩ | ⟨s, r, n, rfl, hn0, hn, _, e⟩
  · rw [e] at h
    split at h
    · simp at h
    · simp only [Option.some.injEq, Prod.mk.injEq] at h
      obtain ⟨rfl, rfl⟩ := h
      refine ⟨fun i => by simp only [uses_append, uses_nil]; omega, by simp, fun t ht => ⟨t, ?_, rfl, Nat.le_refl _⟩⟩
      simp only [List.mem_append] at ht ⊢
      rcases ht with (ht | ht) | ht <;> simp [ht]
  · rw [e] at h
    split at h
    · simp at h
    · simp only [Option.some.injEq, Prod.mk.injEq] at h
      obtain ⟨rfl, rfl⟩ := h
      refine ⟨fun i => ?_, by simp, fun t ht => ?_⟩
      · simp only [uses_append, uses_cons, uses_nil, setLen, cutSeg]; omega
      · simp only [List.mem_append, List.mem_singleton] at ht
        rcases ht with (((ht | rfl) | ht) | rfl) | ht
        · exact ⟨t, by simp [ht], rfl, Nat.le_refl _⟩
        · exact ⟨s, by simp, rfl, by simp only [setLen]; omega⟩
        · exact ⟨t, by simp [ht], rfl, Nat.le_refl _⟩
        · exact ⟨s, by simp, rfl, by simp only [cutSeg]; omega⟩
        · exact ⟨t, by simp [ht], rfl, Nat.le_refl _⟩

theorem insertOwn_spec {sizes} {w : World} {t pos s : Nat} {ct own : Cont} {fromSrc mv : Bool}
    (hp : PInv w.pool w.raw (fun i => w.uses i + if fromSrc then 0 else uses own.segs i))
    (hs : sizesOf w.pool = sizes) (hg : ∀ b ∈ w.bufs, Good sizes b) (hgo : Good sizes (some own)) (hts : t ≠ s)
    (ht : w.bufs[t]? = some (some ct)) (hf : fromSrc = true → w.bufs[s]? = some (some own))
    (hto : ct.owner = .pool) (hoo : own.owner = .pool) (hne : own.segs ≠ []) :
    ∃ w' o, w.insertOwn t pos s ct own fromSrc mv = some (w', o) ∧ WInv sizes w' := by
  have hgt := hg (some ct) (List.mem_of_getElem? ht)
  unfold World.insertOwn
  cases hi : insertSegs ct.segs ct.cap pos own.segs with
  | none =>
    simp only
    cases fromSrc with
    | true => exact ⟨w, _, rfl, ⟨hp.congr (by simp), hs, hg⟩⟩
    | false =>
      simp only [Bool.false_eq_true, if_false] at hp ⊢
      obtain ⟨q, a, b, e⟩ := drop_spec hp (c := own) (by intro i; simp only [bufUses, if_pos hoo]; omega)
      rw [a]
      refine ⟨_, _, rfl, ⟨b.congr ?_, e.trans hs, hg⟩⟩
      intro i
      simp only [bufUses, if_pos hoo, uses_eq]; omega
  | some r =>
    obtain ⟨l, x⟩ := r
    obtain ⟨u1, u2, u3⟩ := insertSegs_uses hne hi
    simp only [if_pos hto]
    obtain ⟨q, a, b, e⟩ := incRefs_spec x hp (by
      intro y hy
      have k1 := le_usesL ht y.id
      rw [uses_eq]
      simp only [bufUses, if_pos hto] at k1
      have : 0 < uses ct.segs y.id := uses_pos.mpr ⟨y, u2 y hy, rfl⟩
      omega)
    rw [a]
    simp only [Option.map_some, Option.bind_some, hto, hoo, and_self, if_true]
    have hdrop : ∀ w : World, w.drop { segs := [], cap := own.cap, owner := .pool } = some w := by
      intro w; simp [World.drop, Pool.decRefs]
    have hgl : Good sizes (some { segs := l, cap := ct.cap, owner := .pool }) := by
      refine ⟨fun _ y hy => ?_, fun h => absurd rfl h⟩
      obtain ⟨z, z1, z2, z3⟩ := u3 y hy
      rw [z2]
      rcases z1 with z1 | z1
      · have := hgt.1 hto z z1; omega
      · have := hgo.1 hoo z z1; omega
    have hset := fun i => usesL_set w.bufs t (some ct) (some { segs := l, cap := ct.cap, owner := .pool }) i ht
    cases fromSrc with
    | true =>
      simp only [if_true, hdrop, Option.map_some]
      have hs2 : (w.bufs.set t (some { segs := l, cap := ct.cap, owner := .pool }))[s]? = some (some own) := by
        rw [List.getElem?_set_ne hts]; exact hf rfl
      refine ⟨_, _, rfl, ⟨b.congr ?_, e.trans hs, good_set (good_set hg hgl) trivial⟩⟩
      intro i
      have k1 := hset i
      have k2 := usesL_set _ s (some own) none i hs2
      have k3 := u1 i
      simp only [uses_eq]
      simp only [bufUses, if_pos hto, if_pos hoo, if_true] at k1 k2 ⊢
      omega
    | false =>
      simp only [Bool.false_eq_true, if_false, hdrop, Option.bind_some]
      have hw : WInv sizes { pool := q, raw := w.raw, bufs := w.bufs.set t (some { segs := l, cap := ct.cap, owner := .pool }) } := by
        refine ⟨b.congr ?_, e.trans hs, good_set hg hgl⟩
        intro i
        have k1 := hset i
        have k3 := u1 i
        simp only [uses_eq]
        simp only [bufUses, if_pos hto, if_true, Bool.false_eq_true, if_false] at k1 ⊢
        omega
      cases mv with
      | false => exact ⟨_, _, rfl, hw⟩
      | true =>
        obtain ⟨q', a', b'⟩ := releaseBuf_spec hw s
        simp only [if_true, a', Option.map_some]
        exact ⟨_, _, rfl, b'⟩

theorem good_take {sizes} {p : Pool} {c : Cont} (hs : sizesOf p = sizes) (ho : c.owner = .pool)
    (h : ∀ s ∈ c.segs, s.off = 0 ∧ s.len ≤ p.size s.id) : Good sizes (some c) := by
  refine ⟨fun _ s hs' => ?_, fun hh => absurd ho hh⟩
  have := h s hs'
  rw [size_of_sizesOf, hs] at this
  omega

theorem ne_nil_of_totalSize {l : List Seg} (h : totalSize l ≠ 0) : l ≠ [] := by
  rintro rfl; exact h rfl

theorem insert_spec {sizes} {w : World} (h : WInv sizes w) {t pos s : Nat} {mv : Bool} (hl : Legal w (.insert t pos s mv)) :
    ∃ w' o, w.insert t pos s mv = some (w', o) ∧ WInv sizes w' := by
  obtain ⟨hts, htl, hto⟩ := hl
  unfold World.insert
  rw [List.getElem?_eq_getElem htl]
  have ht := List.getElem?_eq_getElem htl
  generalize w.bufs[t] = bt at ht
  cases hsb : w.bufs[s]? with
  | none => exact ⟨w, _, rfl, h⟩
  | some bs =>
    cases bs with
    | none => exact ⟨w, _, rfl, h⟩
    | some cs =>
      simp only
      by_cases hz : totalSize cs.segs = 0
      · rw [if_pos hz]; exact ⟨w, _, rfl, h⟩
      · rw [if_neg hz]
        have hgs := h.good _ (List.mem_of_getElem? hsb)
        cases bt with
        | none =>
          simp only
          cases mv with
          | true =>
            simp only [if_true]
            have hs2 : (w.bufs.set t (some cs))[s]? = some (some cs) := by rw [List.getElem?_set_ne hts]; exact hsb
            refine ⟨_, _, rfl, ⟨h.pinv.congr ?_, h.size, good_set (good_set h.good hgs) trivial⟩⟩
            intro i
            have k1 := usesL_set _ t none (some cs) i ht
            have k2 := usesL_set _ s (some cs) none i hs2
            simp only [uses_eq]
            simp only [bufUses] at k1 k2
            omega
          | false =>
            obtain ⟨q, a, b, e⟩ := dupCont_spec h hsb
            rw [a]
            refine ⟨_, _, rfl, ⟨b.congr ?_, e, good_set h.good hgs⟩⟩
            intro i
            have k1 := usesL_set _ t none (some cs) i ht
            simp only [uses_eq]
            simp only [bufUses] at k1 ⊢
            omega
        | some ct =>
          have hct := hto ct ht
          simp only
          by_cases hso : cs.owner = .pool
          · rw [if_neg (by simp [hso])]
            cases mv with
            | true =>
              simp only [if_true]
              exact insertOwn_spec (h.pinv.congr (by simp)) h.size h.good hgs hts ht (fun _ => hsb) hct hso (ne_nil_of_totalSize hz)
            | false =>
              obtain ⟨q, a, b, e⟩ := dupCont_spec h hsb
              rw [a]
              simp only [Bool.false_eq_true, if_false, Option.bind_some]
              refine insertOwn_spec (w := { w with pool := q }) (b.congr ?_) e h.good hgs hts ht (by simp) hct hso (ne_nil_of_totalSize hz)
              intro i; simp [bufUses, hso, World.uses]
          · rw [if_pos ⟨hct, hso⟩]
            obtain ⟨r, a, b, _⟩ := takeBuffer_spec h.pinv (totalSize cs.segs)
            rw [a]
            cases r with
            | fail => exact ⟨w, _, rfl, h⟩
            | ok p own =>
              obtain ⟨b0, _, b2, b3, b4, _, _, b7, _⟩ := b p own rfl
              simp only [Option.bind_some]
              refine insertOwn_spec (w := { w with pool := p }) (b2.congr ?_) (b3.trans h.size) h.good
                (good_take h.size b4 b7) hts ht (by simp) hct b4 (b0 hz)
              intro i; simp [World.uses]

theorem part_spec {sizes} {w : World} (h : WInv sizes w) {n len : Nat} {p : Ptr} {seg : Bool} (hl : Legal w (.part n p len seg)) :
    ∃ w' o, w.step (.part n p len seg) = some (w', o) ∧ WInv sizes w' := by
  obtain ⟨rfl, h0, c, hb, hne, hon, hr⟩ := hl
  simp only [World.step, hb]
  have hg := h.good _ (List.mem_of_getElem? hb)
  by_cases hf : len ≤ p.full
  · obtain ⟨l, q, a, _, _, d⟩ := getNextPart_segs hne hon hr h0 hf
    rw [a]
    simp only [Option.bind_some]
    have hsub : (∀ t ∈ l, ∃ s ∈ c.segs, t.id = s.id ∧ t.off + t.len ≤ s.off + s.len) ∧ l.length ≤ c.segs.length := by
      rcases d with ⟨A, S, B, e, _, hb, rfl⟩ | ⟨A, S, M, T, B, n, e, _, hn, ho, rfl, _⟩
      · refine ⟨fun t ht => ?_, ?_⟩
        · simp only [List.mem_singleton] at ht
          subst ht
          exact ⟨S, by simp [e], rfl, by simp only [setLen, cutSeg]; omega⟩
        · rw [e]; simp; omega
      · refine ⟨fun t ht => ?_, ?_⟩
        · simp only [List.mem_cons, List.mem_append, List.mem_singleton, List.not_mem_nil, or_false] at ht
          rcases ht with rfl | ht | rfl
          · exact ⟨S, by simp [e], rfl, by simp only [cutSeg]; omega⟩
          · exact ⟨t, by simp [e, ht], rfl, Nat.le_refl _⟩
          · exact ⟨T, by simp [e], rfl, by simp only [setLen]; omega⟩
        · rw [e]; simp; omega
    by_cases ho : c.owner = .pool
    · rw [if_pos ho]
      obtain ⟨q, a, b, e⟩ := incRefs_spec l h.pinv (by
        intro t ht
        obtain ⟨s, m1, m2, _⟩ := hsub.1 t ht
        have k1 := le_usesL hb t.id
        rw [uses_eq]
        simp only [bufUses, if_pos ho] at k1
        have : 0 < uses c.segs t.id := uses_pos.mpr ⟨s, m1, m2.symm⟩
        omega)
      rw [a]
      refine ⟨_, _, rfl, add_spec (b.congr ?_) (e.trans h.size) h.good ⟨fun _ t ht => ?_, fun hh => absurd rfl hh⟩⟩
      · intro i; simp [bufUses, World.uses]
      · obtain ⟨s, m1, m2, m3⟩ := hsub.1 t ht
        have := hg.1 ho s m1
        rw [m2]; omega
    · rw [if_neg ho]
      refine ⟨_, _, rfl, add_spec (h.pinv.congr ?_) h.size h.good ⟨by simp, fun _ => ?_⟩⟩
      · intro i; simp [bufUses]
      · have := hg.2 ho
        simp only; omega
  · simp only [getNextPart]
    rw [if_pos (by omega)]
    exact ⟨_, _, rfl, h⟩

theorem create_inv (sizes : List Nat) : WInv sizes (World.create sizes) := by
  refine ⟨⟨?_, by intro i _; rfl, List.nodup_range, ?_, by simp [World.create], by simp [World.create]⟩, ?_, by simp [World.create]⟩
  · intro i e he
    simp only [World.create, Pool.create, List.getElem?_map] at he
    cases h : sizes[i]? with
    | none => simp [h] at he
    | some x => simp [h] at he; subst he; rfl
  · intro i
    simp [World.create, Pool.create, World.uses]
  · simp only [sizesOf, World.create, Pool.create, List.map_map]
    have : (Entry.size ∘ fun s : Nat => (⟨s, 0⟩ : Entry)) = id := by funext x; rfl
    rw [this, List.map_id]

/-- Every legal call is executed without internal error and keeps the invariant. -/
theorem step_spec {sizes} {w : World} (h : WInv sizes w) {op : Op} (hl : Legal w op) :
    ∃ w' o, w.step op = some (w', o) ∧ WInv sizes w' := by
  cases op with
  | take size =>
    obtain ⟨r, a, b, _⟩ := takeBuffer_spec h.pinv size
    simp only [World.step, a, Option.map_some]
    cases r with
    | fail => exact ⟨w, _, rfl, h⟩
    | ok p c =>
      obtain ⟨_, _, b2, b3, b4, _, _, b7, _⟩ := b p c rfl
      refine ⟨_, _, rfl, add_spec (w := { w with pool := p }) (b2.congr ?_) (b3.trans h.size) h.good (good_take h.size b4 b7)⟩
      intro i; simp [bufUses, b4, World.uses]
  | takeRaw =>
    cases hf : w.pool.free with
    | nil => exact ⟨w, .failed, by simp [World.step, hf], h⟩
    | cons i rest =>
      have hi := (h.pinv.mem i).mp (by simp [hf])
      have hn := h.pinv.nodup
      rw [hf, List.nodup_cons] at hn
      refine ⟨{ w with pool := { w.pool with free := rest }, raw := i :: w.raw }, .rawId i, by simp [World.step, hf],
        ⟨⟨h.pinv.ref, h.pinv.out, hn.2, ?_, List.nodup_cons.mpr ⟨hi.2.2, h.pinv.rawNodup⟩, ?_⟩, h.size, h.good⟩⟩
      · intro j
        have hm := h.pinv.mem j
        rw [hf, List.mem_cons] at hm
        simp only [List.mem_cons, not_or]
        constructor
        · intro hj
          have := hm.mp (Or.inr hj)
          exact ⟨this.1, this.2.1, by rintro rfl; exact hn.1 hj, this.2.2⟩
        · rintro ⟨x, y, z, v⟩
          exact (hm.mpr ⟨x, y, v⟩).resolve_left z
      · intro j hj
        rcases List.mem_cons.mp hj with rfl | hj
        · exact ⟨hi.1, hi.2.1⟩
        · exact h.pinv.rawIn j hj
  | releaseRaw i =>
    have hi := h.pinv.rawIn i hl
    have hnf : i ∉ w.pool.free := fun hm => ((h.pinv.mem i).mp hm).2.2 hl
    obtain ⟨a, b⟩ := pushFree_spec h.pinv hi.1 hnf (raw' := w.raw.erase i) (R' := w.uses) w.pool.arr rfl h.pinv.ref h.pinv.out hi.2
      (fun hm => ((List.Nodup.mem_erase_iff h.pinv.rawNodup).mp hm).1 rfl)
      (by
        intro j hj
        rw [List.Nodup.mem_erase_iff h.pinv.rawNodup]
        simp [hj])
      (h.pinv.rawNodup.erase i) (fun j hj => h.pinv.rawIn j (List.mem_of_mem_erase hj))
    refine ⟨_, _, rfl, ⟨a, ?_, h.good⟩⟩
    simp only
    rw [b]; exact h.size
  | create size owner =>
    refine ⟨_, _, rfl, add_spec (h.pinv.congr ?_) h.size h.good ⟨?_, by simp⟩⟩
    · intro i; cases owner <;> simp [bufUses]
    · cases owner <;> simp
  | makeEmpty cap =>
    exact ⟨_, _, rfl, add_spec (h.pinv.congr (by intro i; simp [bufUses])) h.size h.good ⟨by simp, by simp⟩⟩
  | dup n =>
    simp only [World.step]
    cases hb : w.bufs[n]? with
    | none => exact ⟨w, _, rfl, h⟩
    | some b =>
      cases b with
      | none => exact ⟨w, _, rfl, h⟩
      | some c =>
        obtain ⟨q, a, b, e⟩ := dupCont_spec h hb
        simp only [a, Option.map_some]
        exact ⟨_, _, rfl, add_spec (w := { w with pool := q }) b e h.good (h.good _ (List.mem_of_getElem? hb))⟩
  | release n =>
    obtain ⟨q, a, b⟩ := releaseBuf_spec h n
    simp only [World.step, a, Option.map_some]
    exact ⟨_, _, rfl, b⟩
  | setTotalSize n k =>
    simp only [World.step]
    cases hb : w.bufs[n]? with
    | none => exact ⟨w, _, rfl, h⟩
    | some b =>
      cases b with
      | none => exact ⟨w, _, rfl, h⟩
      | some c => exact edit_spec h hb (setTotalSize_ok c.segs k) true
  | cutFromBegin n k =>
    simp only [World.step]
    cases hb : w.bufs[n]? with
    | none => exact ⟨w, _, rfl, h⟩
    | some b =>
      cases b with
      | none => exact ⟨w, _, rfl, h⟩
      | some c => exact edit_spec h hb (cutFromBegin_ok c.segs k) false
  | insert t pos s mv => exact insert_spec h hl
  | part n p len seg => exact part_spec h hl

theorem reach_inv {sizes} {w : World} (h : Reach sizes w) : WInv sizes w := by
  induction h with
  | init => exact create_inv sizes
  | step _ hl hs ih =>
    obtain ⟨w', o, e, i⟩ := step_spec ih hl
    rw [hs] at e
    simp only [Option.some.injEq, Prod.mk.injEq] at e
    rw [e.1]; exact i

end Verif.Pool
