import Verif.HldFileLemmas
import Mathlib.Data.List.Forall2

/-! # Reading of HLD files -/

namespace Verif.HldFile

open Verif.Bytes Verif.File Verif.Pointer Verif.HadTu Verif.HadIter

/-- What may be behind the events of a file. -/
def Tail (most : Nat) (tail : List Byte) : Prop :=
  (∃ stop after, IsRecord 0x10003 stop ∧ tail = stop ++ after) ∨
  (∃ last, (Event last ∨ IsRecord 0x10003 last) ∧ last.length ≤ most ∧ tail <+: last ∧ tail.length < last.length ∧ tail.length % 8 = 0)

/-- The reader stands before these events. -/
structure At (most : Nat) (r : Reader) (evs : List (List Byte)) : Prop where
  ex : ∃ f tail, r.fd = some f ∧ f.data.drop f.pos = evs.flatten ++ tail ∧ Tail most tail
  eof : r.eof = false
  good : ∀ e ∈ evs, Event e ∧ e.length ≤ most

/-- The reader has found the end of the file. -/
def Over (r : Reader) : Prop := r.fd ≠ none ∧ r.eof = true

theorem seek_back {f : RFile} {a b rest : List Byte} (h : f.data.drop f.pos = a ++ b ++ rest) :
    (seekBack { f with pos := f.pos + (a ++ b).length, eof := x } b.length).data.drop (seekBack { f with pos := f.pos + (a ++ b).length, eof := x } b.length).pos = b ++ rest := by
  unfold seekBack
  dsimp only
  rw [if_pos (by rw [List.length_append]; omega)]
  dsimp only
  rw [show f.pos + (a ++ b).length - b.length = f.pos + a.length by rw [List.length_append]; omega, ← List.drop_drop, h, List.append_assoc, List.drop_left]

/-- The end of the loop for the bytes of complete events and a piece behind them. -/
theorem walk_end {most m : Nat} {done rest : List (List Byte)} {q tail stale : List Byte} (hm : 32 ≤ m) (hmost : most ≤ m) (hm8 : m % 8 = 0)
    (hgood : ∀ e ∈ done ++ rest, Event e ∧ e.length ≤ most) (htail : Tail most tail) (hst : m + 4 ≤ (done.flatten ++ q ++ stale).length)
    (h : (∃ e es, rest = e :: es ∧ q <+: e ∧ q.length < e.length ∧ done.flatten.length + q.length = m) ∨
       (rest = [] ∧ done.flatten.length ≤ m ∧ q = tail.take (m - done.flatten.length))) (h8 : 8 ≤ done.flatten.length + q.length) :
    (walk [done.flatten ++ q ++ stale] (done.flatten.length + q.length) 0 = some (.stop done.flatten.length) ∧ rest = []) ∨
    (walk [done.flatten ++ q ++ stale] (done.flatten.length + q.length) 0 = some (.back done.flatten.length) ∧
      (done.flatten.length + q.length < m → rest = []) ∧ (done = [] → done.flatten.length + q.length < m)) ∨
    (walk [done.flatten ++ q ++ stale] (done.flatten.length + q.length) 0 = some (.done done.flatten.length) ∧ q = [] ∧ done ≠ [] ∧
      (done.flatten.length < m → rest = [])) := by
  have hd8 := mod8_flatten (evs := done) fun e he => (hgood e (List.mem_append_left _ he)).1
  have hsl : done.flatten.length + q.length ≤ (done.flatten ++ q ++ stale).length := by
    rw [List.length_append, List.length_append]
    omega
  have hw := walk_events hsl done 0 (q ++ stale) (fun e he => (hgood e (List.mem_append_left _ he)).1)
    (by rw [List.drop_zero, List.append_assoc]) (by omega)
  rw [Nat.zero_add] at hw
  rw [hw]
  have hdrop : (done.flatten ++ q ++ stale).drop done.flatten.length = q ++ stale := by
    rw [List.append_assoc, List.drop_left]
  generalize hs : done.flatten ++ q ++ stale = s at *
  generalize hc : done.flatten.length = c at *
  by_cases hq0 : q = []
  · subst hq0
    right; right
    rw [List.length_nil, Nat.add_zero, walk_done]
    refine ⟨rfl, rfl, ?_, ?_⟩
    · intro h0
      subst h0
      rw [← hc] at h8
      simp at h8
    · intro hlt
      rcases h with ⟨e, es, _, _, _, hm'⟩ | ⟨a, _, _⟩
      · rw [List.length_nil] at hm'
        omega
      · exact a
  · have hqpos := List.length_pos_iff.2 hq0
    have hcases : ∀ last : List Byte, (Event last ∨ IsRecord 0x10003 last) → q <+: last → q.length % 8 = 0 →
        (q.length < last.length) →
        (walk [s] (c + q.length) c = some (.stop c) ∧ IsRecord 0x10003 last) ∨ walk [s] (c + q.length) c = some (.back c) := by
      intro last hl hp h8' hlt
      rcases hl with hl | hl
      · exact Or.inr (walk_piece hdrop hl hp hlt (by omega) rfl hsl)
      · have hmm : c + q.length ≤ m := by
          rcases h with ⟨e, es, _, _, _, hm'⟩ | ⟨_, _, e⟩
          · omega
          · rw [e, List.length_take]
            omega
        rcases walk_stop hdrop hl hp (by omega) (Nat.le_refl _) (fun _ => rfl) hsl (by omega) with h1 | ⟨h1, _⟩
        · exact Or.inl ⟨h1, hl⟩
        · exact Or.inr h1
    rcases h with ⟨e, es, hrest, hqe, hqlt, hm'⟩ | ⟨hrest, hcm, hqt⟩
    · have hge := hgood e (List.mem_append_right _ (by rw [hrest]; exact List.mem_cons_self))
      rcases hcases e (Or.inl hge.1) hqe (by omega) hqlt with ⟨_, hrec⟩ | h1
      · exfalso
        have := hge.1.2.1
        have := hrec.1
        omega
      · right; left
        refine ⟨h1, fun hlt => absurd hlt (by omega), ?_⟩
        intro h0
        subst h0
        rw [List.flatten_nil, List.length_nil] at hc
        omega
    · rcases htail with ⟨stop, after, hrec, htl⟩ | ⟨last, hl, hlm, hpre, hlt, ht8⟩
      · have h32 := hrec.1
        by_cases hbig : 32 ≤ m - c
        · left
          have hqs : q = stop ++ after.take (m - c - 32) := by
            rw [hqt, htl, List.take_append, List.take_of_length_le (by omega), h32]
          have hd2 : s.drop c = stop ++ (after.take (m - c - 32) ++ stale) := by
            rw [hdrop, hqs, List.append_assoc]
          have hql : 32 ≤ q.length := by rw [hqs, List.length_append]; omega
          rcases walk_stop (r := c + q.length) hd2 hrec List.prefix_rfl (by omega) (by omega) (by omega) hsl (by omega) with h1 | ⟨_, h1⟩
          · exact ⟨h1, hrest⟩
          · omega
        · have hqs : q = stop.take (m - c) := by
            rw [hqt, htl, List.take_append_of_le_length (by omega)]
          have hql : q.length = m - c := by rw [hqs, List.length_take]; omega
          rcases hcases stop (Or.inr hrec) (by rw [hqs]; exact List.take_prefix _ _) (by omega) (by omega) with ⟨h1, _⟩ | h1
          · exact Or.inl ⟨h1, hrest⟩
          · right; left
            refine ⟨h1, fun _ => hrest, ?_⟩
            intro h0
            subst h0
            rw [List.flatten_nil, List.length_nil] at hc
            omega
      · have hql : q.length = min (m - c) tail.length := by rw [hqt, List.length_take]
        have hqp : q <+: last := by
          rw [hqt]
          exact (List.take_prefix _ _).trans hpre
        rcases hcases last hl hqp (by omega) (by omega) with ⟨h1, _⟩ | h1
        · exact Or.inl ⟨h1, hrest⟩
        · right; left
          refine ⟨h1, fun _ => hrest, ?_⟩
          intro h0
          subst h0
          rw [List.flatten_nil, List.length_nil] at hc
          omega

/-- One reading from a file. -/
theorem complete_step {most : Nat} {s : Input} {evs : List (List Byte)} {c : List Byte × Nat} (h : At most s.file evs) (hc : Provided most c) :
    (∃ done rest r, evs = done ++ rest ∧ done ≠ [] ∧ readComplete s c.1 c.2 = some (.data done.flatten, { s with file := r }) ∧
      (At most r rest ∨ (Over r ∧ rest = []))) ∨
    (∃ r, evs = [] ∧ readComplete s c.1 c.2 = some (.skip, { s with file := r }) ∧ Over r) := by
  obtain ⟨⟨f, tail, hfd, hdata, htail⟩, heof, hgood⟩ := h
  obtain ⟨mem, m⟩ := c
  obtain ⟨h1, h2, h3, h4, h5⟩ := hc
  dsimp only at h1 h2 h3 h4 h5 ⊢
  have hm4 : m / 4 * 4 = m := by omega
  obtain ⟨done, rest, q, e1, e2, e3⟩ := split_events tail evs m
  subst e1
  unfold readComplete readBuffer
  rw [heof, if_neg (by simp), hm4, hfd]
  dsimp only
  rw [if_neg (by omega)]
  unfold fread
  dsimp only
  rw [hdata, e2]
  have hgot : (done.flatten ++ q).length ≤ m := by
    rw [← e2]
    exact List.length_take_le _ _
  rw [if_neg (by omega)]
  have hrestdata : f.data.drop f.pos = done.flatten ++ q ++ ((done ++ rest).flatten ++ tail).drop m := by
    rw [hdata]
    conv => lhs; rw [← List.take_append_drop m ((done ++ rest).flatten ++ tail), e2]
  have hqrest : q ++ ((done ++ rest).flatten ++ tail).drop m = rest.flatten ++ tail := by
    have := hrestdata.symm.trans hdata
    generalize ((done ++ rest).flatten ++ tail).drop m = d at this ⊢
    rw [List.flatten_append, List.append_assoc, List.append_assoc] at this
    exact List.append_cancel_left this
  by_cases hlt8 : (done.flatten ++ q).length < 8
  · rw [if_pos hlt8]
    dsimp only [Option.map]
    have hdn : done = [] := by
      cases done with
      | nil => rfl
      | cons e done =>
        have := (hgood e (List.mem_append_left _ List.mem_cons_self)).1.2.1
        rw [List.flatten_cons, List.length_append, List.length_append] at hlt8
        omega
    subst hdn
    right
    have hrn : rest = [] := by
      rcases e3 with ⟨e, es, a, b, c, d⟩ | ⟨a, _, _⟩
      · rw [List.length_append] at hlt8
        omega
      · exact a
    subst hrn
    exact ⟨_, rfl, by rw [if_pos rfl], ⟨by simp, rfl⟩⟩
  · rw [if_neg hlt8]
    have hlen : (done.flatten ++ q ++ mem.drop (done.flatten ++ q).length).length = mem.length := by
      rw [List.length_append, List.length_drop]
      omega
    have hla : (done.flatten ++ q).length = done.flatten.length + q.length := List.length_append
    have hw := walk_end (stale := mem.drop (done.flatten ++ q).length) h2 h1 h4 hgood htail (by omega) e3 (by omega)
    rw [← hla] at hw
    have hcm : done.flatten.length % 2 ^ 32 = done.flatten.length := Nat.mod_eq_of_lt (by omega)
    have htake : (done.flatten ++ q ++ mem.drop (done.flatten ++ q).length).take done.flatten.length = done.flatten := by
      rw [List.append_assoc, List.take_left]
    have hpos : done ≠ [] → done.flatten.length > 0 := by
      intro hne
      cases done with
      | nil => exact absurd rfl hne
      | cons e done =>
        have := (hgood e (List.mem_append_left _ List.mem_cons_self)).1.2.1
        rw [List.flatten_cons, List.length_append]
        omega
    have hrg : ∀ e ∈ rest, Event e ∧ e.length ≤ most := fun e he => hgood e (List.mem_append_right _ he)
    rcases hw with ⟨hw, hr⟩ | ⟨hw, hr, hd⟩ | ⟨hw, hq, hd, hr⟩
    · rw [hw]
      dsimp only [Option.map, finish]
      subst hr
      by_cases hdn : done = []
      · subst hdn
        right
        exact ⟨_, rfl, by rw [if_neg (by simp)]; dsimp only; rw [if_pos rfl], ⟨by simp, rfl⟩⟩
      · left
        refine ⟨done, [], ?_, rfl, hdn, ?_, Or.inr ⟨⟨?_, ?_⟩, rfl⟩⟩
        rotate_left 1
        · rw [if_pos (hpos hdn), hcm]
          dsimp only
          rw [if_neg (by rw [hlen]; omega), htake]
        · simp
        · rfl
    · rw [hw]
      dsimp only [Option.map, finish]
      by_cases hdn : done = []
      · have hlt := hd hdn
        have hrn := hr hlt
        subst hdn hrn
        right
        refine ⟨?_, rfl, ?_, ⟨?_, ?_⟩⟩
        rotate_left 1
        · rw [if_neg (by simp)]
          dsimp only
          rw [if_pos (by rw [decide_eq_true hlt]; simp)]
        · simp
        · dsimp only
          rw [decide_eq_true hlt]
          simp
      · left
        refine ⟨done, rest, ?_, rfl, hdn, ?_, ?_⟩
        rotate_left 1
        · rw [if_pos (hpos hdn), hcm]
          dsimp only
          rw [if_neg (by rw [hlen]; omega), htake]
        · by_cases hlt : (done.flatten ++ q).length < m
          · right
            refine ⟨⟨by simp, ?_⟩, hr hlt⟩
            dsimp only
            rw [decide_eq_true hlt]
            simp
          · left
            refine ⟨⟨_, tail, rfl, ?_, htail⟩, ?_, hrg⟩
            · rw [hla, Nat.add_sub_cancel_left, ← hla, seek_back hrestdata, hqrest]
            · dsimp only
              rw [decide_eq_false hlt, heof]
              rfl
    · rw [hw]
      dsimp only [Option.map, finish]
      subst hq
      left
      refine ⟨done, rest, ?_, rfl, hd, ?_, ?_⟩
      rotate_left 1
      · rw [if_pos (hpos hd), hcm]
        dsimp only
        rw [if_neg (by rw [hlen]; omega), htake]
      · by_cases hlt : done.flatten.length < m
        · right
          refine ⟨⟨by simp, ?_⟩, hr hlt⟩
          dsimp only
          rw [decide_eq_true (by rw [List.append_nil]; exact ⟨hlt, rfl⟩)]
          simp
        · left
          refine ⟨⟨_, tail, rfl, ?_, htail⟩, ?_, hrg⟩
          · dsimp only
            rw [← List.drop_drop, hrestdata, List.append_nil, List.drop_left]
            exact hqrest
          · dsimp only
            rw [decide_eq_false (by rw [List.append_nil]; exact fun hx => hlt hx.1), heof]
            rfl

/-! ## Opening -/

theorem openRead_good {start rest : List Byte} (h : IsRecord 0x10002 start) :
    ∃ f run, openRead (start ++ rest) = some (true, { fd := some f, run := run, eof := false }) ∧ f.data.drop f.pos = rest := by
  obtain ⟨h32, hp, hid⟩ := h
  change idAt start 0 = _ at hid
  unfold openRead readEvent fread fopenRead
  dsimp only
  rw [if_neg (by omega), List.drop_zero, List.take_append_of_le_length (by omega), List.length_take_of_le (by omega)]
  have hmin : min 8 start.length = 8 := by omega
  rw [if_neg (by rw [List.length_replicate]; omega), if_neg (by omega)]
  have hd : (start.take 8 ++ (List.replicate 32 (0 : Byte)).drop 8).drop 0 = start.take 8 ++ (List.replicate 32 (0 : Byte)).drop 8 := rfl
  have hlen : (start.take 8 ++ (List.replicate 32 (0 : Byte)).drop 8).length = 32 := by
    rw [List.length_append, List.length_take_of_le (by omega)]
    rfl
  have h8 : (start.take 8).length = 8 := List.length_take_of_le (by omega)
  rw [getPad (by rw [hlen]; omega), sizeAt_at hd (by omega), sizeAt_prefix (List.take_prefix 8 start) (by omega), hp]
  dsimp only
  rw [if_neg (by omega), show sub64 32 8 = 24 by decide, Nat.zero_add, List.drop_append_of_le_length (by omega),
    List.take_append_of_le_length (by rw [List.length_drop]; omega), List.take_of_length_le (l := start.drop 8) (by rw [List.length_drop]; omega),
    List.length_drop, h32]
  rw [if_neg (by rw [hlen]; omega), if_neg (by omega)]
  have hmem : (start.take 8 ++ (List.replicate 32 (0 : Byte)).drop 8).take 8 ++ start.drop 8 ++
      (start.take 8 ++ (List.replicate 32 (0 : Byte)).drop 8).drop (8 + (32 - 8)) = start := by
    generalize hx : start.take 8 ++ (List.replicate 32 (0 : Byte)).drop 8 = x at *
    rw [List.drop_of_length_le (l := x) (by rw [hlen]), List.append_nil, ← hx, List.take_append_of_le_length (by omega), List.take_of_length_le (by omega),
      List.take_append_drop]
  rw [hmem]
  have hst : isStop [start] 0 32 = some false := by
    unfold isStop
    rw [if_pos rfl, getId (by omega), Option.map_some, hid]
    rfl
  rw [hst]
  dsimp only
  rw [getId (by omega), hid]
  have hrun : ∃ run, getField [start] (hdr 0) 24 = some run :=
    ⟨_, C31_value (mem := [start]) (p := hdr 0) (k := 24) ⟨start, rfl, by show 0 + 8 ≤ start.length; omega⟩ ⟨start, rfl, by show 0 + 24 + 4 ≤ start.length; omega⟩⟩
  obtain ⟨run, hrun⟩ := hrun
  rw [hrun]
  dsimp only
  rw [if_neg (by decide)]
  refine ⟨_, run, rfl, ?_⟩
  dsimp only
  rw [show 8 + (32 - 8) = start.length by omega, List.drop_left]

theorem openRead_content {most : Nat} {data : List Byte} {evs : List (List Byte)} (h : Content most data evs) :
    ∃ r, openRead data = some (true, r) ∧ At most r evs := by
  cases h with
  | @complete start stop after evs h1 h2 h =>
    obtain ⟨f, run, e, hd⟩ := openRead_good (rest := evs.flatten ++ (stop ++ after)) h1
    exact ⟨_, e, ⟨f, _, rfl, hd, Or.inl ⟨stop, after, h2, rfl⟩⟩, rfl, h⟩
  | @cut start last piece evs h1 h h2 hm hp hl h8 =>
    obtain ⟨f, run, e, hd⟩ := openRead_good (rest := evs.flatten ++ piece) h1
    exact ⟨_, e, ⟨f, _, rfl, hd, Or.inr ⟨last, h2, hm, hp, hl, h8⟩⟩, rfl, h⟩

/-! ## All turns -/

/-- One turn with a file that is not at its end. -/
theorem turn_at {most : Nat} {s : Input} {evs : List (List Byte)} (h : At most s.file evs) (c : List Byte × Nat) :
    turn s c.1 c.2 = readComplete s c.1 c.2 := by
  obtain ⟨⟨f, tail, hfd, _⟩, heof, _⟩ := h
  unfold turn readSize
  rw [if_neg (by rw [hfd]; simp), heof, if_neg (by simp)]
  rfl

/-- One turn at the end of a file. -/
theorem turn_over {s : Input} (h : Over s.file) (c : List Byte × Nat) :
    turn s c.1 c.2 = ((openNext s).bind fun x => if x.1 then readComplete x.2 c.1 c.2 else some (.ended, x.2)) := by
  unfold turn readSize
  rw [if_neg h.1, if_pos h.2]
  cases openNext s with
  | none => rfl
  | some x =>
    obtain ⟨ok, t⟩ := x
    cases ok <;> rfl

/-- What the turns of an input give. -/
def Fine (calls : List (List Byte × Nat)) (all : List (List Byte)) (n : Nat) (ts : List Turn) : Prop :=
  ∃ parts : List (List (List Byte)), chunks ts = parts.map List.flatten ∧ (∀ p ∈ parts, p ≠ []) ∧ parts.flatten <+: all ∧
    Turn.error ∉ ts ∧ Turn.hang ∉ ts ∧ Turn.thrown ∉ ts ∧ (Turn.ended ∈ ts → parts.flatten = all) ∧ (n < calls.length → Turn.ended ∈ ts)

theorem fine_nil (all : List (List Byte)) (n : Nat) : Fine [] all n [] :=
  ⟨[], rfl, by simp, by simp, by simp, by simp, by simp, by simp, by simp⟩

theorem fine_ended (c : List Byte × Nat) (calls : List (List Byte × Nat)) (n : Nat) : Fine (c :: calls) [] n [.ended] :=
  ⟨[], rfl, by simp, by simp, by simp, by simp, by simp, by simp, by simp⟩

theorem fine_data {calls : List (List Byte × Nat)} {all done : List (List Byte)} {n n' : Nat} {ts : List Turn} (c : List Byte × Nat)
    (h : Fine calls all n ts) (hd : done ≠ []) (hn : n + 1 ≤ n') : Fine (c :: calls) (done ++ all) n' (.data done.flatten :: ts) := by
  obtain ⟨parts, h1, h2, h3, h4, h5, h5', h6, h7⟩ := h
  refine ⟨done :: parts, ?_, ?_, ?_, ?_, ?_, ?_, ?_, ?_⟩
  · rw [chunks, h1]
    rfl
  · intro p hp
    rcases List.mem_cons.1 hp with rfl | hp
    · exact hd
    · exact h2 p hp
  · rw [List.flatten_cons]
    exact (List.prefix_append_right_inj done).2 h3
  · simpa using h4
  · simpa using h5
  · simpa using h5'
  · intro he
    rw [List.flatten_cons, h6 (by simpa using he)]
  · intro hl
    rw [List.length_cons] at hl
    exact List.mem_cons_of_mem _ (h7 (by omega))

theorem fine_skip {calls : List (List Byte × Nat)} {all : List (List Byte)} {n n' : Nat} {ts : List Turn} (c : List Byte × Nat)
    (h : Fine calls all n ts) (hn : n + 1 ≤ n') : Fine (c :: calls) all n' (.skip :: ts) := by
  obtain ⟨parts, h1, h2, h3, h4, h5, h5', h6, h7⟩ := h
  refine ⟨parts, h1, h2, h3, by simpa using h4, by simpa using h5, by simpa using h5', fun he => h6 (by simpa using he), ?_⟩
  intro hl
  rw [List.length_cons] at hl
  exact List.mem_cons_of_mem _ (h7 (by omega))

theorem turns_spec {most : Nat} : ∀ (calls : List (List Byte × Nat)) (s : Input) (evs : List (List Byte)) (evss : List (List (List Byte))),
    (∀ c ∈ calls, Provided most c) → List.Forall₂ (Content most) s.more evss →
    (At most s.file evs → ∃ ts, turns calls s = some ts ∧ Fine calls (evs ++ evss.flatten) (evs.length + evss.flatten.length + evss.length + 1) ts) ∧
    (Over s.file → ∃ ts, turns calls s = some ts ∧ Fine calls evss.flatten (evss.flatten.length + evss.length) ts) := by
  intro calls
  induction calls with
  | nil => intro s evs evss _ _; exact ⟨fun _ => ⟨[], rfl, fine_nil _ _⟩, fun _ => ⟨[], rfl, fine_nil _ _⟩⟩
  | cons c calls ih =>
    intro s evs evss hp hm
    have hp' : ∀ c ∈ calls, Provided most c := fun x hx => hp x (List.mem_cons_of_mem _ hx)
    have step : ∀ (s : Input) (evs : List (List Byte)) (evss : List (List (List Byte))), List.Forall₂ (Content most) s.more evss → At most s.file evs →
        ∃ ts, (match readComplete s c.1 c.2 with
          | none => none
          | some (.data l, s) => (turns calls s).map (.data l :: ·)
          | some (.skip, s) => (turns calls s).map (.skip :: ·)
          | some (t, _) => some [t]) = some ts ∧
          Fine (c :: calls) (evs ++ evss.flatten) (evs.length + evss.flatten.length + evss.length + 1) ts := by
      intro s evs evss hm ha
      rcases complete_step ha (hp c List.mem_cons_self) with ⟨done, rest, r, e1, e2, e3, e4⟩ | ⟨r, e1, e2, e3⟩
      · rw [e3]
        dsimp only
        have hdl := List.length_pos_iff.2 e2
        rcases e4 with e4 | ⟨e4, e5⟩
        · obtain ⟨ts, h1, h2⟩ := (ih { s with file := r } rest evss hp' hm).1 e4
          refine ⟨_, by rw [h1]; rfl, ?_⟩
          rw [e1, List.append_assoc]
          exact fine_data c h2 e2 (by rw [List.length_append]; omega)
        · obtain ⟨ts, h1, h2⟩ := (ih { s with file := r } rest evss hp' hm).2 e4
          refine ⟨_, by rw [h1]; rfl, ?_⟩
          rw [e1, e5, List.append_nil]
          exact fine_data c h2 e2 (by omega)
      · rw [e2, e1]
        dsimp only
        obtain ⟨ts, h1, h2⟩ := (ih { s with file := r } [] evss hp' hm).2 e3
        exact ⟨_, by rw [h1]; rfl, fine_skip c h2 (by omega)⟩
    constructor
    · intro ha
      rw [turns, turn_at ha]
      exact step s evs evss hm ha
    · intro ho
      rw [turns, turn_over ho]
      unfold openNext
      generalize hmo : s.more = more at *
      cases hm with
      | nil =>
        exact ⟨_, rfl, fine_ended c calls _⟩
      | @cons data evs' more evss hc hm =>
        obtain ⟨r, h1, h2⟩ := openRead_content hc
        dsimp only
        rw [h1]
        obtain ⟨ts, h3, h4⟩ := step { file := r, more := more } evs' evss hm h2
        refine ⟨ts, h3, ?_⟩
        rw [List.flatten_cons, List.length_append, List.length_cons]
        have : evs'.length + evss.flatten.length + (evss.length + 1) = evs'.length + evss.flatten.length + evss.length + 1 := by omega
        rw [this]
        exact h4

end Verif.HldFile
