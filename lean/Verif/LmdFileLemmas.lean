import Verif.Spec.LmdFile


/-! # Lemmas about LMD files -/

namespace Verif.LmdFile

open Verif.Bytes Verif.File

theorem dec_take_lt (l : List Byte) : dec (l.take 4) < 2 ^ 32 := by
  have h1 := dec_lt (l.take 4)
  have h3 : (l.take 4).length ≤ 4 := by rw [List.length_take]; omega
  have h4 : (256 : Nat) ^ (l.take 4).length ≤ 256 ^ 4 := Nat.pow_le_pow_right (by omega) h3
  omega

theorem word_at {s a b : List Byte} {o : Nat} (h : s.drop o = a ++ b) (ha : 4 ≤ a.length) : word s o = some (dec (a.take 4)) := by
  have hl := congrArg List.length h
  rw [List.length_drop, List.length_append] at hl
  unfold word
  rw [if_pos (by omega), h, List.take_append_of_le_length ha]

theorem fullSize_event {e : List Byte} (h : Event e) : fullSize (dec (e.take 4)) = e.length := by
  obtain ⟨_, _, h1, h2⟩ := h
  unfold fullSize
  rw [Nat.mod_eq_of_lt (by omega)]
  omega

theorem walk_done (mem : List Byte) (r : Nat) : walk mem false r r = some (.done r) := by
  rw [walk, if_neg (Nat.lt_irrefl r)]

theorem walk_event {s e b : List Byte} {r o : Nat} (hd : s.drop o = e ++ b) (he : Event e) (hr : o + e.length ≤ r) :
    walk s false r o = walk s false r (o + e.length) := by
  have h8 := he.2.1
  rw [walk, if_pos (by omega), word_at hd (by omega)]
  dsimp only
  rw [fullSize_event he, if_neg (by simp; omega), if_neg (by omega)]

theorem walk_events {s : List Byte} {r : Nat} : ∀ (evs : List (List Byte)) (o : Nat) (b : List Byte), (∀ e ∈ evs, Event e) →
    s.drop o = evs.flatten ++ b → o + evs.flatten.length ≤ r → walk s false r o = walk s false r (o + evs.flatten.length) := by
  intro evs
  induction evs with
  | nil => intro o b _ _ _; rfl
  | cons e evs ih =>
    intro o b he hd hr
    rw [List.flatten_cons, List.length_append] at hr
    rw [List.flatten_cons, List.append_assoc] at hd
    rw [walk_event hd (he e List.mem_cons_self) (by omega), List.flatten_cons, List.length_append, ← Nat.add_assoc]
    refine ih _ b (fun x hx => he x (List.mem_cons_of_mem _ hx)) ?_ (by omega)
    rw [← List.drop_drop, hd, List.drop_left]

theorem dec_mod {b : Byte} {l : List Byte} : dec (b :: l) % 256 = b.toNat := by
  have h := b.isLt
  rw [dec]
  omega

/-- A piece of an event at the end of the bytes read. -/
theorem walk_piece {s e q b : List Byte} {r o : Nat} (hd : s.drop o = q ++ b) (he : Event e) (hq : q <+: e) (hl : q.length < e.length)
    (h0 : q ≠ []) (hr : o + q.length = r) (hs : o + 4 ≤ s.length) (hc : q.length % 4 = 0 ∨ e.length % 512 ≠ 0) :
    walk s false r o = some (.back o) := by
  have hpos := List.length_pos_iff.2 h0
  have hfe := fullSize_event he
  by_cases h4 : 4 ≤ q.length
  · rw [walk, if_pos (by omega), word_at hd h4]
    dsimp only
    obtain ⟨t, ht⟩ := hq
    have : q.take 4 = e.take 4 := by rw [← ht, List.take_append_of_le_length h4]
    rw [this, hfe, if_pos (by left; omega)]
  · have hm : e.length % 512 ≠ 0 := by
      rcases hc with hc | hc
      · omega
      · exact hc
    have hw : word s o = some (dec ((s.drop o).take 4)) := if_pos hs
    rw [walk, if_pos (by omega), hw]
    dsimp only
    have hfs : fullSize (dec ((s.drop o).take 4)) % 512 = e.length % 512 := by
      rw [← hfe]
      obtain ⟨t, ht⟩ := hq
      rw [hd, ← ht]
      cases q with
      | nil => exact absurd rfl h0
      | cons x q =>
        have h1 : dec ((x :: q ++ b).take 4) % 256 = x.toNat := by rw [List.cons_append, List.take_succ_cons]; exact dec_mod
        have h2 : dec ((x :: q ++ t).take 4) % 256 = x.toNat := by rw [List.cons_append, List.take_succ_cons]; exact dec_mod
        generalize dec ((x :: q ++ b).take 4) = u at *
        generalize dec ((x :: q ++ t).take 4) = v at *
        unfold fullSize
        omega
    have := he.1
    rw [if_pos (by left; omega)]

theorem walk_hang (mem : List Byte) (r : Nat) : ∀ (n c : Nat), r - c ≤ n → walk mem false r c = some .hang → ∃ o w, o < r ∧ word mem o = some w ∧ fullSize w = 0 := by
  intro n
  induction n with
  | zero =>
    intro c hn h
    rw [walk, if_neg (by omega)] at h
    cases h
  | succ n ih =>
    intro c hn h
    rw [walk] at h
    split at h
    · rename_i hlt
      split at h
      · cases h
      · rename_i w hw
        split at h
        · cases h
        · split at h
          · rename_i hz
            exact ⟨c, w, hlt, hw, hz⟩
          · rename_i hz
            exact ih _ (by omega) h
    · cases h

theorem walk_safe {s : List Byte} {r : Nat} (h : r + 3 ≤ s.length) : ∀ (n c : Nat), r - c ≤ n → walk s false r c ≠ none := by
  intro n
  induction n with
  | zero => intro c hn; rw [walk, if_neg (by omega)]; simp
  | succ n ih =>
    intro c hn
    rw [walk]
    split
    · rename_i hlt
      have hw : word s c = some (dec ((s.drop c).take 4)) := if_pos (by omega)
      rw [hw]
      dsimp only
      split
      · simp
      · split
        · simp
        · exact ih _ (by omega)
    · simp

theorem split_events (tail : List Byte) : ∀ (evs : List (List Byte)) (m : Nat),
    ∃ done rest q, evs = done ++ rest ∧ (evs.flatten ++ tail).take m = done.flatten ++ q ∧
      ((∃ e es, rest = e :: es ∧ q <+: e ∧ q.length < e.length ∧ done.flatten.length + q.length = m) ∨
       (rest = [] ∧ done.flatten.length ≤ m ∧ q = tail.take (m - done.flatten.length))) := by
  intro evs
  induction evs with
  | nil =>
    intro m
    exact ⟨[], [], tail.take m, rfl, rfl, Or.inr ⟨rfl, Nat.zero_le _, rfl⟩⟩
  | cons e evs ih =>
    intro m
    by_cases he : e.length ≤ m
    · obtain ⟨done, rest, q, h1, h2, h3⟩ := ih (m - e.length)
      refine ⟨e :: done, rest, q, by rw [h1, List.cons_append], ?_, ?_⟩
      · rw [List.flatten_cons, List.append_assoc, List.take_append, List.take_of_length_le he, h2, List.flatten_cons, List.append_assoc]
      · rw [List.flatten_cons, List.length_append]
        rcases h3 with ⟨x, es, a, b, c, d⟩ | ⟨a, b, c⟩
        · exact Or.inl ⟨x, es, a, b, c, by omega⟩
        · exact Or.inr ⟨a, by omega, by rw [c]; congr 1; omega⟩
    · refine ⟨[], e :: evs, e.take m, rfl, ?_, Or.inl ⟨e, evs, rfl, List.take_prefix _ _, by rw [List.length_take]; omega, by rw [List.length_take]; simp; omega⟩⟩
      rw [List.flatten_cons, List.append_assoc, List.take_append_of_le_length (by omega)]
      rfl

theorem mod4_flatten {evs : List (List Byte)} (h : ∀ e ∈ evs, Event e) : evs.flatten.length % 4 = 0 := by
  induction evs with
  | nil => rfl
  | cons e evs ih =>
    have h1 := (h e List.mem_cons_self).1
    have h2 := ih fun x hx => h x (List.mem_cons_of_mem _ hx)
    rw [List.flatten_cons, List.length_append]
    omega

/-- The file stands before these events. -/
structure At (most : Nat) (f : RFile) (evs : List (List Byte)) : Prop where
  good : ∀ e ∈ evs, Event e ∧ e.length ≤ most
  parts : ∃ last piece, f.data.drop f.pos = evs.flatten ++ piece ∧ Event last ∧ last.length ≤ most ∧ piece <+: last ∧ piece.length < last.length ∧
    (piece.length % 4 = 0 ∨ last.length % 512 ≠ 0)

theorem seek_back {f : RFile} {a b rest : List Byte} {x : Bool} (h : f.data.drop f.pos = a ++ b ++ rest) :
    (seekBack { f with pos := f.pos + (a ++ b).length, eof := x } b.length).data.drop (seekBack { f with pos := f.pos + (a ++ b).length, eof := x } b.length).pos = b ++ rest := by
  unfold seekBack
  dsimp only
  rw [if_pos (by rw [List.length_append]; omega)]
  dsimp only
  rw [show f.pos + (a ++ b).length - b.length = f.pos + a.length by rw [List.length_append]; omega, ← List.drop_drop, h, List.append_assoc, List.drop_left]

/-- One reading. -/
theorem read_step {most m : Nat} {f : RFile} {evs : List (List Byte)} {mem : List Byte} (h : At most f evs) (hm : most ≤ m) (h8 : 8 ≤ m) (hm4 : m % 4 = 0)
    (hmem : m ≤ mem.length) :
    ∃ done rest mem' f', evs = done ++ rest ∧ readBuffer f mem m false = some (.size done.flatten.length, mem', f') ∧
      mem'.take done.flatten.length = done.flatten ∧ done.flatten.length ≤ mem'.length ∧ At most f' rest ∧ (done = [] → evs = []) := by
  obtain ⟨hgood, last, tail, hdata, hlast, hlm, hpre, hlt, hcond⟩ := h
  obtain ⟨done, rest, q, e1, e2, e3⟩ := split_events tail evs m
  subst e1
  have hgd : ∀ e ∈ done, Event e := fun e he => (hgood e (List.mem_append_left _ he)).1
  have hrg : ∀ e ∈ rest, Event e ∧ e.length ≤ most := fun e he => hgood e (List.mem_append_right _ he)
  have hd4 := mod4_flatten hgd
  have hgot : (done.flatten ++ q).length ≤ m := by
    rw [← e2]
    exact List.length_take_le _ _
  have hla : (done.flatten ++ q).length = done.flatten.length + q.length := List.length_append
  have hrestdata : f.data.drop f.pos = done.flatten ++ q ++ ((done ++ rest).flatten ++ tail).drop m := by
    rw [hdata]
    conv => lhs; rw [← List.take_append_drop m ((done ++ rest).flatten ++ tail), e2]
  have hqrest : q ++ ((done ++ rest).flatten ++ tail).drop m = rest.flatten ++ tail := by
    have := hrestdata.symm.trans hdata
    generalize ((done ++ rest).flatten ++ tail).drop m = d at this ⊢
    rw [List.flatten_append, List.append_assoc, List.append_assoc] at this
    exact List.append_cancel_left this
  have hne : done = [] → done ++ rest = [] := by
    intro h0
    subst h0
    rcases e3 with ⟨e, es, a, b, c, d⟩ | ⟨a, _, _⟩
    · exfalso
      have := (hrg e (by rw [a]; exact List.mem_cons_self)).2
      rw [List.flatten_nil, List.length_nil] at d
      omega
    · rw [a]; rfl
  have hfread : fread f m = (done.flatten ++ q, { f with pos := f.pos + (done.flatten ++ q).length, eof := f.eof || decide ((done.flatten ++ q).length < m) }) := by
    unfold fread
    rw [hdata, e2]
  unfold readBuffer
  rw [if_neg (by omega), hfread]
  dsimp only
  rw [if_neg (by omega)]
  have hlen : (done.flatten ++ q ++ mem.drop (done.flatten ++ q).length).length = mem.length := by
    rw [List.length_append, List.length_drop]
    omega
  have htake : (done.flatten ++ q ++ mem.drop (done.flatten ++ q).length).take done.flatten.length = done.flatten := by
    rw [List.append_assoc, List.take_left]
  by_cases h0 : (done.flatten ++ q).length = 0
  · rw [if_pos h0]
    have hd0 : done = [] := by
      cases done with
      | nil => rfl
      | cons e done =>
        have := (hgd e List.mem_cons_self).2.1
        rw [hla, List.flatten_cons, List.length_append] at h0
        omega
    have hq0 : q = [] := List.length_eq_zero_iff.1 (by omega)
    subst hd0 hq0
    refine ⟨[], rest, _, _, rfl, rfl, rfl, Nat.zero_le _, ⟨hrg, last, tail, ?_, hlast, hlm, hpre, hlt, hcond⟩, hne⟩
    dsimp only
    exact hdata
  · rw [if_neg h0]
    have hw : walk (done.flatten ++ q ++ mem.drop (done.flatten ++ q).length) false (done.flatten ++ q).length 0 =
        if q = [] then some (.done done.flatten.length) else some (.back done.flatten.length) := by
      rw [walk_events done 0 (q ++ mem.drop (done.flatten ++ q).length) hgd (by rw [List.drop_zero, List.append_assoc]) (by omega), Nat.zero_add]
      have hdrop : (done.flatten ++ q ++ mem.drop (done.flatten ++ q).length).drop done.flatten.length = q ++ mem.drop (done.flatten ++ q).length := by
        rw [List.append_assoc, List.drop_left]
      by_cases hq : q = []
      · rw [if_pos hq]
        subst hq
        rw [List.append_nil, walk_done]
      · rw [if_neg hq]
        have hqpos := List.length_pos_iff.2 hq
        rcases e3 with ⟨e, es, a, b, c, d⟩ | ⟨a, b, c⟩
        · exact walk_piece hdrop (hrg e (by rw [a]; exact List.mem_cons_self)).1 b c hq (by omega) (by omega) (Or.inl (by omega))
        · have hql : q.length = min (m - done.flatten.length) tail.length := by rw [c, List.length_take]
          refine walk_piece hdrop hlast ?_ (by omega) hq (by omega) (by omega) (by omega)
          rw [c]
          exact (List.take_prefix _ _).trans hpre
    rw [hw]
    by_cases hq : q = []
    · rw [if_pos hq]
      subst hq
      refine ⟨done, rest, _, _, rfl, rfl, htake, by omega, ⟨hrg, last, tail, ?_, hlast, hlm, hpre, hlt, hcond⟩, hne⟩
      dsimp only [finish]
      rw [← List.drop_drop, hrestdata, List.append_nil, List.drop_left]
      exact hqrest
    · rw [if_neg hq]
      refine ⟨done, rest, _, _, rfl, rfl, htake, by omega, ⟨hrg, last, tail, ?_, hlast, hlm, hpre, hlt, hcond⟩, hne⟩
      dsimp only [finish]
      rw [hla, Nat.add_sub_cancel_left, ← hla, seek_back hrestdata, hqrest]

theorem fileHeader_length : fileHeader.length = 48 := by decide +kernel

theorem openReading_good (rest : List Byte) : ∃ f, openReading (fileHeader ++ rest) = some f ∧ f.data.drop f.pos = rest := by
  have hl := fileHeader_length
  have ht : (fileHeader ++ rest).take 48 = fileHeader := by rw [List.take_append_of_le_length (by omega), List.take_of_length_le (by omega)]
  unfold openReading fread fopenRead
  dsimp only
  rw [List.drop_zero, ht, if_pos (by decide +kernel)]
  refine ⟨_, rfl, ?_⟩
  dsimp only
  rw [Nat.zero_add, List.drop_left]

end Verif.LmdFile
