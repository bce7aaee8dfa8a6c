import Verif.PoolWorld

/-! # Properties C06-C08, C48: memory pool -/

namespace Verif.Pool
open Verif.Buffer Verif.Pointer

theorem used_iff {w : World} {i : Nat} : w.Used i ↔ 0 < w.uses i := by
  constructor
  · rintro ⟨c, hc, ho, hs⟩
    obtain ⟨h, hh⟩ := List.getElem?_of_mem hc
    have := le_usesL hh i
    rw [uses_eq]
    simp only [bufUses, if_pos ho] at this
    have : 0 < uses c.segs i := uses_pos.mpr hs
    omega
  · intro h
    by_cases hex : ∃ b ∈ w.bufs, 0 < bufUses b i
    · obtain ⟨b, hb, hp⟩ := hex
      cases b with
      | none => simp [bufUses] at hp
      | some c =>
        simp only [bufUses] at hp
        split at hp
        · rename_i ho
          exact ⟨c, hb, ho, uses_pos.mp hp⟩
        · omega
    · exfalso
      have : w.uses i = 0 := by
        rw [uses_eq]
        have hz : ∀ b ∈ w.bufs, bufUses b i = 0 := fun b hb => by
          have : ¬ 0 < bufUses b i := fun hh => hex ⟨b, hb, hh⟩
          omega
        generalize w.bufs = l at hz
        induction l with
        | nil => rfl
        | cons x l ih =>
          have h1 := ih (fun b hb => hz b (by simp [hb]))
          have h2 := hz x (by simp)
          simp only [usesL, List.map_cons, List.sum_cons] at h1 ⊢
          omega
      omega

theorem free_iff {sizes} {w : World} (h : Reach sizes w) (i : Nat) :
    i ∈ w.pool.free ↔ i < sizes.length ∧ ¬ w.Used i ∧ i ∉ w.raw := by
  have hi := reach_inv h
  have hl : w.pool.arr.length = sizes.length := by rw [← hi.size]; simp [sizesOf]
  rw [hi.pinv.mem i, hl, used_iff]
  simp

/-- **C06 (partial)**.  In every world reachable by legal calls: no legal call runs into an internal
exception; a block is free exactly when no live buffer and no raw owner refers to it; `TakeBuffer` and
`TakeRawBuffer` hand out only blocks to which nobody refers; no live buffer reaches outside of its blocks.
Missing: `Insert`/`Append` into a non-null buffer without pool and into itself, which break the claim (see the
counterexamples), `GetNextPart` with a pointer outside of the buffer, release of the pool while used, threads
(all pool accesses are under one mutex, which is taken as given). -/
theorem C06_exclusive_partial (sizes : List Nat) (w : World) (h : Reach sizes w) :
    (∀ op, Legal w op → ∃ w' o, w.step op = some (w', o)) ∧
    (∀ i, i ∈ w.pool.free ↔ i < sizes.length ∧ ¬ w.Used i ∧ i ∉ w.raw) ∧
    (∀ i, w.Used i → i ∉ w.raw) ∧
    (∀ size w' b, w.step (.take size) = some (w', .buffer b) → ∃ c, w'.bufs = w.bufs ++ [some c] ∧ c.owner = .pool ∧
      (c.segs.map Seg.id).Nodup ∧ ∀ s ∈ c.segs, ¬ w.Used s.id ∧ s.id ∉ w.raw) ∧
    (∀ w' i, w.step .takeRaw = some (w', .rawId i) → ¬ w.Used i ∧ i ∉ w.raw) ∧
    (∀ c : Cont, some c ∈ w.bufs → c.owner = .pool → ∀ s ∈ c.segs, s.off + s.len ≤ sizes[s.id]?.getD 0) := by
  have hi := reach_inv h
  refine ⟨fun op hl => ?_, free_iff h, fun i hu hr => ?_, fun size w' b hs => ?_, fun w' i hs => ?_, fun c hc ho => (hi.good _ hc).1 ho⟩
  · obtain ⟨w', o, e, _⟩ := step_spec hi hl
    exact ⟨w', o, e⟩
  · have := hi.pinv.rawIn i hr
    have := used_iff.mp hu
    omega
  · obtain ⟨r, a, b, _⟩ := takeBuffer_spec hi.pinv size
    simp only [World.step, a, Option.map_some] at hs
    cases r with
    | fail => simp at hs
    | ok p c =>
      obtain ⟨_, _, b2, b3, b4, _, b6, b7, _⟩ := b p c rfl
      simp only [World.add, Option.some.injEq, Prod.mk.injEq] at hs
      obtain ⟨rfl, _⟩ := hs
      refine ⟨c, rfl, b4, ?_, fun s hs => ?_⟩
      · have := hi.pinv.nodup
        rw [b6, List.nodup_append] at this
        exact this.1
      · have : s.id ∈ w.pool.free := by
          rw [b6]; exact List.mem_append_left _ (List.mem_map_of_mem hs)
        exact ((free_iff h _).mp this).2
  · simp only [World.step] at hs
    split at hs
    · simp at hs
    · rename_i id rest hf
      simp only [Option.some.injEq, Prod.mk.injEq, Out.rawId.injEq] at hs
      have : i ∈ w.pool.free := by rw [hf, hs.2]; simp
      exact ((free_iff h _).mp this).2

/-- A run with a shared block: take 10 bytes from blocks of 8, duplicate, release the original. -/
example : ∃ w, Reach [8, 8, 8] w ∧ w.Used 0 ∧ w.pool.free = [2] := by
  have h1 : (World.create [8, 8, 8]).step (.take 10) = some
      (⟨⟨[⟨8, 1⟩, ⟨8, 1⟩, ⟨8, 0⟩], [2]⟩, [], [some ⟨[⟨0, 0, 8⟩, ⟨1, 0, 2⟩], 8, .pool⟩]⟩, .buffer 0) := by
    simp [World.create, Pool.create, World.step, Pool.takeBuffer, needLoop, takeLoop, Pool.size, World.add, List.range, List.range.loop]
  have h2 : World.step ⟨⟨[⟨8, 1⟩, ⟨8, 1⟩, ⟨8, 0⟩], [2]⟩, [], [some ⟨[⟨0, 0, 8⟩, ⟨1, 0, 2⟩], 8, .pool⟩]⟩ (.dup 0) = some
      (⟨⟨[⟨8, 2⟩, ⟨8, 2⟩, ⟨8, 0⟩], [2]⟩, [], [some ⟨[⟨0, 0, 8⟩, ⟨1, 0, 2⟩], 8, .pool⟩, some ⟨[⟨0, 0, 8⟩, ⟨1, 0, 2⟩], 8, .pool⟩]⟩, .buffer 1) := by
    decide
  have h3 : World.step ⟨⟨[⟨8, 2⟩, ⟨8, 2⟩, ⟨8, 0⟩], [2]⟩, [], [some ⟨[⟨0, 0, 8⟩, ⟨1, 0, 2⟩], 8, .pool⟩, some ⟨[⟨0, 0, 8⟩, ⟨1, 0, 2⟩], 8, .pool⟩]⟩
      (.release 0) = some (⟨⟨[⟨8, 1⟩, ⟨8, 1⟩, ⟨8, 0⟩], [2]⟩, [], [none, some ⟨[⟨0, 0, 8⟩, ⟨1, 0, 2⟩], 8, .pool⟩]⟩, .done) := by decide
  refine ⟨_, .step (op := .release 0) (.step (op := .dup 0) (.step (op := .take 10) .init trivial h1) trivial h2) trivial h3, ⟨⟨[⟨0, 0, 8⟩, ⟨1, 0, 2⟩], 8, .pool⟩, by simp, rfl, ⟨0, 0, 8⟩, by simp, rfl⟩, rfl⟩

/-- **C06 counterexample**: `MakeEmpty()` followed by `Append(src)`, the documented way to collect buffers:
the new buffer has a segment in block 0, but block 0 is free after the source was moved in, and the next
`TakeBuffer` hands it out again. -/
theorem C06_append_to_empty_counterexample :
    ∃ w1 w2 w3 w4, (World.create [8]).step (.take 8) = some (w1, .buffer 0) ∧ w1.step (.makeEmpty 8) = some (w2, .buffer 1) ∧
      w2.step (.insert 1 0 0 true) = some (w3, .done) ∧
      w3.bufs[1]? = some (some ⟨[⟨0, 0, 8⟩], 8, .nothing⟩) ∧ w3.pool.free = [0] ∧
      w3.step (.take 8) = some (w4, .buffer 2) ∧ w4.bufs[2]? = some (some ⟨[⟨0, 0, 8⟩], 8, .pool⟩) := by
  refine ⟨⟨⟨[⟨8, 1⟩], []⟩, [], [some ⟨[⟨0, 0, 8⟩], 8, .pool⟩]⟩,
    ⟨⟨[⟨8, 1⟩], []⟩, [], [some ⟨[⟨0, 0, 8⟩], 8, .pool⟩, some ⟨[], 8, .nothing⟩]⟩,
    ⟨⟨[⟨8, 0⟩], [0]⟩, [], [none, some ⟨[⟨0, 0, 8⟩], 8, .nothing⟩]⟩,
    ⟨⟨[⟨8, 1⟩], []⟩, [], [none, some ⟨[⟨0, 0, 8⟩], 8, .nothing⟩, some ⟨[⟨0, 0, 8⟩], 8, .pool⟩]⟩, ?_, ?_, ?_, rfl, rfl, ?_, rfl⟩
  · simp [World.create, Pool.create, World.step, Pool.takeBuffer, needLoop, takeLoop, Pool.size, World.add, List.range, List.range.loop]
  · decide
  · decide
  · simp [World.step, Pool.takeBuffer, needLoop, takeLoop, Pool.size, World.add]

/-- **C07 (partial)**: the reference counter of a block is the number of segments of live buffers in it; every
block is exactly one of: free (listed once), used by a live buffer, taken raw; when all buffers are released
and all raw blocks given back, the list of free blocks is a permutation of all blocks.
Missing: the same calls as for C06. -/
theorem C07_conservation_partial (sizes : List Nat) (w : World) (h : Reach sizes w) :
    w.pool.arr.map Entry.size = sizes ∧
    (∀ i e, w.pool.arr[i]? = some e → e.refcnt = w.uses i) ∧
    w.pool.free.Nodup ∧ w.raw.Nodup ∧
    (∀ i, i < sizes.length ↔ (i ∈ w.pool.free ∨ w.Used i ∨ i ∈ w.raw)) ∧
    (∀ i, ¬(i ∈ w.pool.free ∧ w.Used i) ∧ ¬(i ∈ w.pool.free ∧ i ∈ w.raw) ∧ ¬(w.Used i ∧ i ∈ w.raw)) ∧
    ((∀ b ∈ w.bufs, b = none) → w.raw = [] → w.pool.free.Perm (List.range sizes.length)) := by
  have hi := reach_inv h
  have hl : w.pool.arr.length = sizes.length := by rw [← hi.size]; simp [sizesOf]
  have hf := free_iff h
  refine ⟨hi.size, hi.pinv.ref, hi.pinv.nodup, hi.pinv.rawNodup, fun i => ?_, fun i => ⟨?_, ?_, ?_⟩, fun hb hr => ?_⟩
  · constructor
    · intro hlt
      by_cases hu : w.Used i
      · exact Or.inr (Or.inl hu)
      · by_cases hr : i ∈ w.raw
        · exact Or.inr (Or.inr hr)
        · exact Or.inl ((hf i).mpr ⟨hlt, hu, hr⟩)
    · rintro (a | a | a)
      · exact ((hf i).mp a).1
      · rcases Nat.lt_or_ge i sizes.length with b | b
        · exact b
        · have := hi.pinv.out i (by omega)
          have := used_iff.mp a
          omega
      · have := (hi.pinv.rawIn i a).1; omega
  · rintro ⟨a, b⟩; exact ((hf i).mp a).2.1 b
  · rintro ⟨a, b⟩; exact ((hf i).mp a).2.2 b
  · rintro ⟨a, b⟩
    have := hi.pinv.rawIn i b
    have := used_iff.mp a
    omega
  · apply (List.perm_ext_iff_of_nodup hi.pinv.nodup List.nodup_range).mpr
    intro i
    rw [hf i, List.mem_range, hr]
    constructor
    · exact fun a => a.1
    · intro a
      refine ⟨a, ?_, by simp⟩
      rintro ⟨c, hc, _⟩
      exact absurd (hb _ hc) (by simp)

/-- **C07 counterexample**: appending a buffer to itself with moved references destroys the buffer without giving
its block back: block 0 is neither free nor used. -/
theorem C07_self_append_counterexample :
    ∃ w1 w2, (World.create [8]).step (.take 8) = some (w1, .buffer 0) ∧ w1.step (.insert 0 8 0 true) = some (w2, .done) ∧
      w2.pool.free = [] ∧ w2.bufs = [none] ∧ w2.raw = [] := by
  refine ⟨⟨⟨[⟨8, 1⟩], []⟩, [], [some ⟨[⟨0, 0, 8⟩], 8, .pool⟩]⟩, ⟨⟨[⟨8, 1⟩], []⟩, [], [none]⟩, ?_, by decide, rfl, rfl, rfl⟩
  simp [World.create, Pool.create, World.step, Pool.takeBuffer, needLoop, takeLoop, Pool.size, World.add, List.range, List.range.loop]

/-- Memory available in the listed blocks. -/
def available (sizes : List Nat) (l : List Nat) : Nat := (l.map fun i => sizes[i]?.getD 0).sum

theorem available_eq {sizes} {w : World} (h : sizesOf w.pool = sizes) : blocksSize w.pool w.pool.free = available sizes w.pool.free := by
  unfold blocksSize available
  congr 1
  apply List.map_congr_left
  intro i _
  rw [size_of_sizesOf, h]

/-- **C08 (partial)**: let `size'` be the requested size (for 0: the size of the first free block) and no block so
large that `size'` plus its size exceeds 2^32.  `TakeBuffer` succeeds exactly when there is a free block and the free blocks
hold `size'` bytes; then the new buffer has exactly `size'` bytes, its segments start at the begin of their blocks,
which are the first ones of the free list and leave it; otherwise nothing changes.
Missing: larger sizes, see the counterexample. -/
theorem C08_take_exact_partial (sizes : List Nat) (w : World) (h : Reach sizes w) (size : Nat) :
    let size' := if size = 0 then sizes[w.pool.free.headD 0]?.getD 0 else size
    (∀ s ∈ sizes, size' + s ≤ 2 ^ 32) → size' ≤ 2 ^ 32 →
    ((w.pool.free ≠ [] ∧ size' ≤ available sizes w.pool.free) ∧ ∃ w' c, w.step (.take size) = some (w', .buffer w.bufs.length) ∧
        w'.bufs = w.bufs ++ [some c] ∧ totalSize c.segs = size' ∧ w'.raw = w.raw ∧
        w.pool.free = c.segs.map Seg.id ++ w'.pool.free ∧ (∀ s ∈ c.segs, s.off = 0 ∧ s.len ≤ sizes[s.id]?.getD 0)) ∨
    (¬(w.pool.free ≠ [] ∧ size' ≤ available sizes w.pool.free) ∧ w.step (.take size) = some (w, .failed)) := by
  intro size' hw0 hw1
  have hi := reach_inv h
  have hsz : ∀ i, w.pool.size i = sizes[i]?.getD 0 := fun i => by rw [size_of_sizesOf, hi.size]
  have hw : NoWrap w.pool size' := by
    intro i
    rw [hsz]
    cases hg : sizes[i]? with
    | none => simpa using hw1
    | some s => exact hw0 s (List.mem_of_getElem? hg)
  have hav := available_eq hi.size
  obtain ⟨r, a, b, hfail⟩ := takeBuffer_spec hi.pinv size
  cases r with
  | fail =>
    refine Or.inr ⟨?_, by simp [World.step, a]⟩
    rcases hfail rfl with c | ⟨s', hs', c⟩
    · simp [c]
    · rw [hsz] at hs'
      have h1 := c (by rw [hs']; exact hw)
      have h2 : s' = size' := hs'
      rw [h2] at h1
      rintro ⟨_, h3⟩
      omega
  | ok p c =>
    obtain ⟨_, b1, b2, b3, b4, b5, b6, b7, s', hs', b8⟩ := b p c rfl
    rw [hsz] at hs'
    have hs2 : s' = size' := hs'
    rw [hs2] at b8
    have h1 := b8 hw
    refine Or.inl ⟨⟨b1, ?_⟩, { w with pool := p, bufs := w.bufs ++ [some c] }, c, by simp [World.step, a, World.add], rfl, h1, rfl, b6, ?_⟩
    · rw [← h1, ← hav, b6]
      simp only [blocksSize, List.map_append, List.sum_append, totalSize, List.map_map]
      have : ∀ l : List Seg, (∀ s ∈ l, s.off = 0 ∧ s.len ≤ w.pool.size s.id) →
          (l.map Seg.len).sum ≤ (l.map (w.pool.size ∘ Seg.id)).sum := by
        intro l
        induction l with
        | nil => simp
        | cons x l ih =>
          intro hl
          have h1 := (hl x (by simp)).2
          have h2 := ih (fun s hs => hl s (by simp [hs]))
          simp only [List.map_cons, List.sum_cons, Function.comp]
          omega
      have := this c.segs b7
      omega
    · intro s hs
      have := b7 s hs
      rw [hsz] at this
      exact this

example : ∃ w, Reach [8, 4, 8] w ∧ (∀ s ∈ [8, 4, 8], 10 + s ≤ 2 ^ 32) ∧ 10 ≤ available [8, 4, 8] w.pool.free :=
  ⟨_, .init, by decide, by decide⟩

/-- **C08 counterexample**: two free blocks of 2 GiB; a buffer of 4 GiB − 1 fits, but the 32-bit sum wraps to 0
and the request fails. -/
theorem C08_wrap_counterexample :
    (World.create [2 ^ 31, 2 ^ 31]).step (.take (2 ^ 32 - 1)) = some (World.create [2 ^ 31, 2 ^ 31], .failed) ∧
      2 ^ 32 - 1 ≤ available [2 ^ 31, 2 ^ 31] (World.create [2 ^ 31, 2 ^ 31]).pool.free := by
  refine ⟨?_, by decide⟩
  simp [World.create, Pool.create, World.step, Pool.takeBuffer, needLoop, Pool.size, List.range, List.range.loop]

/-- Blocks two buffers have in common. -/
def shares (a b : Cont) : Prop := ∃ s ∈ a.segs, ∃ t ∈ b.segs, s.id = t.id

theorem isSingle_spec {p raw R} (h : PInv p raw R) (l : List Seg) (hl : ∀ s ∈ l, 0 < R s.id) :
    ∃ b, p.isSingle l = some b ∧ (b = true ↔ ∀ s ∈ l, R s.id = 1) := by
  induction l with
  | nil => exact ⟨true, rfl, by simp⟩
  | cons x l ih =>
    have hlt : x.id < p.arr.length := by
      rcases Nat.lt_or_ge x.id p.arr.length with a | a
      · exact a
      · have := h.out _ a
        have := hl x (by simp)
        omega
    have he := List.getElem?_eq_getElem hlt
    have hr := h.ref _ _ he
    obtain ⟨b, a, c⟩ := ih (fun s hs => hl s (by simp [hs]))
    unfold Pool.isSingle
    rw [he]
    simp only
    by_cases h1 : p.arr[x.id].refcnt ≠ 1
    · rw [if_pos h1]
      refine ⟨false, rfl, by simp; intro; omega⟩
    · rw [if_neg h1, a]
      refine ⟨b, rfl, ?_⟩
      rw [c]
      simp only [List.mem_cons, forall_eq_or_imp]
      constructor
      · exact fun h => ⟨by omega, h⟩
      · exact fun h => h.2

/-- **C48**: `CanSafelyChange()` of a pooled buffer is true exactly if no two of its segments lie in the same block and no
other live buffer of the pool shares a block with it. -/
theorem C48_canSafelyChange (sizes : List Nat) (w : World) (h : Reach sizes w) (n : Nat) (c : Cont)
    (hc : w.bufs[n]? = some (some c)) (ho : c.owner = .pool) :
    ∃ b, w.pool.isSingle c.segs = some b ∧
      (b = true ↔ (c.segs.map Seg.id).Nodup ∧
        ∀ m d, m ≠ n → w.bufs[m]? = some (some d) → d.owner = .pool → ¬ shares c d) := by
  have hi := reach_inv h
  have hle : ∀ i, uses c.segs i ≤ w.uses i := fun i => by
    have := le_usesL hc i
    simp only [bufUses, if_pos ho] at this
    exact this
  obtain ⟨b, e, hb⟩ := isSingle_spec hi.pinv c.segs (fun s hs => by
    have := hle s.id
    have : 0 < uses c.segs s.id := uses_pos.mpr ⟨s, hs, rfl⟩
    omega)
  refine ⟨b, e, hb.trans ?_⟩
  constructor
  · intro h1
    refine ⟨?_, fun m d hm hd hdo => ?_⟩
    · rw [List.nodup_iff_count]
      intro a
      by_cases ha : a ∈ c.segs.map Seg.id
      · obtain ⟨s, hs, rfl⟩ := List.mem_map.mp ha
        have h2 := hle s.id
        have h3 := h1 s hs
        simp only [uses] at h2
        omega
      · rw [List.count_eq_zero_of_not_mem ha]; omega
    · rintro ⟨s, hs, t, ht, hst⟩
      have h2 : w.uses s.id = 1 := h1 s hs
      have k1 : 0 < uses c.segs s.id := uses_pos.mpr ⟨s, hs, rfl⟩
      have k2 : 0 < uses d.segs s.id := uses_pos.mpr ⟨t, ht, hst.symm⟩
      have k3 := usesL_set w.bufs n (some c) none s.id hc
      have k4 := le_usesL (bufs := w.bufs.set n none) (h := m) (b := some d) (by rw [List.getElem?_set_ne (Ne.symm hm)]; exact hd) s.id
      rw [uses_eq] at h2
      simp only [bufUses, if_pos ho, if_pos hdo] at k3 k4
      omega
  · rintro ⟨hn, hd⟩ s hs
    have k1 : uses c.segs s.id = 1 := by
      have h1 := List.nodup_iff_count.mp hn s.id
      have h2 : 0 < uses c.segs s.id := uses_pos.mpr ⟨s, hs, rfl⟩
      simp only [uses] at h2 ⊢
      omega
    have k3 := usesL_set w.bufs n (some c) none s.id hc
    have k5 : ¬ World.Used { w with bufs := w.bufs.set n none } s.id := by
      rintro ⟨d, hmem, hdo, t, ht, hts⟩
      obtain ⟨m, hm⟩ := List.getElem?_of_mem hmem
      have hne : m ≠ n := by
        rintro rfl
        simp only at hm
        rw [List.getElem?_set_self (List.getElem?_eq_some_iff.mp hc).1] at hm
        simp at hm
      simp only at hm
      rw [List.getElem?_set_ne (Ne.symm hne)] at hm
      exact hd m d hne hm hdo ⟨s, hs, t, ht, hts.symm⟩
    rw [used_iff] at k5
    rw [uses_eq] at k5 ⊢
    simp only [bufUses, if_pos ho] at k3 k5
    omega

example : ∃ w c, Reach [8, 8] w ∧ w.bufs[0]? = some (some c) ∧ c.owner = .pool ∧ w.pool.isSingle c.segs = some true := by
  have h1 : (World.create [8, 8]).step (.take 10) = some
      (⟨⟨[⟨8, 1⟩, ⟨8, 1⟩], []⟩, [], [some ⟨[⟨0, 0, 8⟩, ⟨1, 0, 2⟩], 8, .pool⟩]⟩, .buffer 0) := by
    simp [World.create, Pool.create, World.step, Pool.takeBuffer, needLoop, takeLoop, Pool.size, World.add, List.range, List.range.loop]
  exact ⟨_, _, .step (op := .take 10) .init trivial h1, rfl, rfl, by decide⟩

end Verif.Pool
