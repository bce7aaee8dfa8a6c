import Verif.HldOutSlave

/-! # Files by size -/

namespace Verif.HldOut

open Verif.Bytes

theorem allBytes_append (a b : List (Buf × Nat)) : allBytes (a ++ b) = allBytes a ++ allBytes b := by simp [allBytes]

theorem allBytes_one (b : Buf × Nat) : allBytes [b] = bufBytes b.1 := by simp [allBytes]

theorem bufBytes_size (b : Buf) : b.size = (bufBytes b).length := by cases b <;> rfl

/-- A new file in own mode. -/
theorem startNew_good {s : Out} (hs : s.slave = false) (hp : s.plain = false) (hr : s.room = none) (ho : s.canOpen = true) (c : Nat)
    {D : List (Option Nat × List Piece)} (hD : s.closeFile = { s with file := none, size := 0, disk := D }) :
    s.startNewFile c = ({ s with
      run := if s.run = 0 then c else s.run, last := if s.run = 0 then c else s.run, size := 0,
      file := some (some (if s.run = 0 then c else s.run), if s.run = 0 then c else s.run),
      disk := adds (some (if s.run = 0 then c else s.run)) [.start (if s.run = 0 then c else s.run)]
        (opened (some (if s.run = 0 then c else s.run)) D) }, true) := by
  unfold Out.startNewFile
  simp only [hD]
  rw [if_neg (by rw [hs]; simp)]
  by_cases h0 : s.run = 0
  · simp only [h0, if_true, hp, Bool.false_eq_true, if_false]
    rw [openWrite_good (s := { s with run := c, plain := false, file := none, size := 0, disk := D }) hr ho]
  · simp only [h0, if_false, hp, Bool.false_eq_true]
    rw [openWrite_good (s := { s with plain := false, file := none, size := 0, disk := D }) hr ho]

/-- Between buffers: `P` is written, `R` is still to come. -/
structure Sp (d : List (Option Nat × List Piece)) (limit t0 : Nat) (P R : List (Buf × Nat)) (files : List (Option Nat × List Piece)) (r : Nat)
    (body : List Piece) (p1 p2 : List (Buf × Nat)) (s : Out) : Prop where
  slave : s.slave = false
  plain : s.plain = false
  room : s.room = none
  open' : s.canOpen = true
  lim : s.limit = limit
  file : s.file = some (some r, r)
  parts : P = p1 ++ p2
  size : s.size = (allBytes p2).length
  total : s.total = t0 + (allBytes P).length
  inner : Inner body
  data : fileData body = allBytes p2
  disk : s.disk = d ++ files ++ [(some r, .start r :: body)]
  whole : ∀ f ∈ files, ∃ q, f.1 = some q ∧ Whole q f.2 ∧ q < r
  order : files.Pairwise fun f g => ∀ a b, f.1 = some a → g.1 = some b → a < b
  old : ∀ f ∈ d, ∀ n, f.1 = some n → n < r ∧ ∀ g ∈ files, g.1 ≠ some n
  before : (files.map fun f => fileData f.2).flatten = allBytes p1
  since : ∀ b ∈ p2 ++ R, r ≤ b.2
  small : 0 < limit → (allBytes p2).length ≤ limit ∧ ∀ f ∈ files, (fileData f.2).length ≤ limit
  one : limit = 0 → files = []

theorem fileData_whole {q : Nat} {ps : List Piece} (body : List Piece) (h : ps = .start q :: (body ++ [.stop q])) : fileData ps = fileData body := by
  rw [h]
  simp [fileData, fileData_append]

theorem filter_len {p1 p2 R : List (Buf × Nat)} {b : Buf × Nat} (h : ∀ x ∈ p2, x.2 = b.2) :
    (allBytes p2).length + (bufBytes b.1).length ≤ (allBytes ((p1 ++ p2 ++ b :: R).filter fun x => x.2 = b.2)).length := by
  rw [List.filter_append, List.filter_append, List.filter_cons, if_pos (by simp), (List.filter_eq_self (l := p2)).2 (by simpa using h)]
  have : ∀ (x y z : List (Buf × Nat)), (allBytes (x ++ y ++ b :: z)).length =
      (allBytes x).length + (allBytes y).length + ((bufBytes b.1).length + (allBytes z).length) := by
    intro x y z
    rw [allBytes_append, allBytes_append]
    simp [allBytes]
    omega
  rw [this]
  omega

theorem sp_buffer {d : List (Option Nat × List Piece)} {limit t0 : Nat} {P R files : List _} {r : Nat} {body : List Piece} {p1 p2 : List _}
    {b : Buf × Nat} {s : Out} (h : Sp d limit t0 P (b :: R) files r body p1 p2 s) (hb : ∃ evs segs, b.1 = .events evs segs)
    (ht : (P ++ b :: R).Pairwise fun a b => a.2 ≤ b.2) (hl : 0 < limit → Slow limit (P ++ b :: R)) :
    ∃ t files r body p1 p2, s.buffer b.1 b.2 = (t, .ok) ∧ Sp d limit t0 (P ++ [b]) R files r body p1 p2 t := by
  obtain ⟨evs, segs, hbs⟩ := hb
  have hbb : bufBytes b.1 = segs.flatten := by rw [hbs]; rfl
  have hrb : r ≤ b.2 := h.since b (List.mem_append_right _ List.mem_cons_self)
  have hle : ∀ x ∈ P, x.2 ≤ b.2 := by
    intro x hx
    exact (List.pairwise_append.1 ht).2.2 x hx b List.mem_cons_self
  have hR : ∀ x ∈ R, b.2 ≤ x.2 := by
    intro x hx
    exact (List.pairwise_cons.1 (List.pairwise_append.1 ht).2.1).1 x hx
  rw [hbs, buffer_events]
  unfold Out.payload
  rw [if_neg (by rw [h.slave]; simp)]
  by_cases hf : s.full (Buf.events evs segs).size = true
  · rw [if_pos hf]
    unfold Out.full at hf
    rw [decide_eq_true_eq, h.lim, h.size, bufBytes_size] at hf
    obtain ⟨hl0, hf⟩ := hf
    have hlt : r < b.2 := by
      rcases Nat.lt_or_ge r b.2 with hlt | hge
      · exact hlt
      · have heq : ∀ x ∈ p2, x.2 = b.2 := by
          intro x hx
          have h1 := h.since x (List.mem_append_left _ hx)
          have h2 := hle x (by rw [h.parts]; exact List.mem_append_right _ hx)
          omega
        have h3 := hl hl0 b.2
        rw [h.parts] at h3
        have h4 := filter_len (p1 := p1) (R := R) heq
        rw [hbs] at h4
        omega
    have hbl : (bufBytes b.1).length ≤ limit := by
      have h3 := hl hl0 b.2
      have h4 := filter_len (p1 := P) (p2 := []) (R := R) (b := b) (by simp)
      rw [List.append_nil] at h4
      omega
    have hcl : ({ s with run := 0 } : Out).closeFile =
        { s with run := 0, file := none, size := 0, disk := d ++ files ++ [(some r, .start r :: (body ++ [.stop r]))] } := by
      rw [closeFile_good (s := { s with run := 0 }) h.file h.room]
      congr 1
      simp only
      rw [h.disk, adds_append, adds_other]
      · simp [adds]
      · intro f hf hfr
        rcases List.mem_append.1 hf with hf | hf
        · exact absurd (h.old f hf r hfr).1 (by omega)
        · obtain ⟨q, h1, _, h2⟩ := h.whole f hf
          rw [h1] at hfr
          cases hfr
          omega
    have hst := startNew_good (s := { s with run := 0 }) h.slave h.plain h.room h.open' b.2 hcl
    simp only [if_true] at hst
    have hfresh : ∀ f ∈ d ++ files ++ [(some r, Piece.start r :: (body ++ [.stop r]))], f.1 ≠ some b.2 := by
      intro f hf hfr
      rcases List.mem_append.1 hf with hf | hf
      · rcases List.mem_append.1 hf with hf | hf
        · have := (h.old f hf _ hfr).1
          omega
        · obtain ⟨q, h1, _, h2⟩ := h.whole f hf
          rw [h1] at hfr
          cases hfr
          omega
      · rw [List.mem_singleton.1 hf] at hfr
        cases hfr
        omega
    rw [adds_opened, opened_fresh hfresh] at hst
    unfold Out.newFile
    rw [if_neg (by simp [h.slave]), if_neg (by simp only; omega), hst]
    simp only [Option.isNone_some, Bool.false_eq_true, if_false]
    obtain ⟨ps, h3, h4, h5⟩ := segments_eq (s := { s with
      run := b.2, last := b.2, size := 0, file := some (some b.2, b.2),
      disk := d ++ files ++ [(some r, Piece.start r :: (body ++ [.stop r]))] ++ [(some b.2, [.start b.2])] }) (f := (some b.2, b.2)) rfl h.room segs 0
    rw [List.drop_zero] at h4 h5
    simp only at h5
    rw [adds_append, adds_other hfresh] at h5
    have h6 : adds (some b.2) ps [(some b.2, [.start b.2])] = [(some b.2, .start b.2 :: ps)] := by simp [adds]
    rw [h6] at h5
    unfold Out.content
    simp only
    rw [h5]
    refine ⟨_, files ++ [(some r, .start r :: (body ++ [.stop r]))], b.2, ps, P, [b], rfl, ?_⟩
    have hfd : fileData (Piece.start r :: (body ++ [.stop r])) = allBytes p2 := by
      rw [fileData_whole body rfl, h.data]
    refine ⟨h.slave, h.plain, h.room, h.open', h.lim, rfl, rfl, ?_, ?_, h3, ?_, ?_, ?_, ?_, ?_, ?_, ?_, ?_, fun hz => absurd hz (by omega)⟩
    · simp [Out.account, allBytes_one, hbb]
    · simp only [Out.account]
      rw [h.total, allBytes_append, allBytes_one, hbb, List.length_append]
      omega
    · rw [h4, allBytes_one, hbb]
    · simp [Out.account]
    · intro f hf
      rcases List.mem_append.1 hf with hf | hf
      · obtain ⟨q, h7, h8, h9⟩ := h.whole f hf
        exact ⟨q, h7, h8, by omega⟩
      · rw [List.mem_singleton.1 hf]
        exact ⟨r, rfl, ⟨body, h.inner, rfl⟩, hlt⟩
    · rw [List.pairwise_append]
      refine ⟨h.order, by simp, ?_⟩
      intro f hf g hg a b h7 h8
      rw [List.mem_singleton.1 hg] at h8
      obtain ⟨q, h9, _, h10⟩ := h.whole f hf
      rw [h9] at h7
      cases h7
      cases h8
      exact h10
    · intro f hf n hn
      obtain ⟨h7, h8⟩ := h.old f hf n hn
      refine ⟨by omega, ?_⟩
      intro g hg
      rcases List.mem_append.1 hg with hg | hg
      · exact h8 g hg
      · rw [List.mem_singleton.1 hg]
        intro h9
        cases h9
        omega
    · rw [List.map_append, List.flatten_append, h.before, h.parts, allBytes_append]
      simp [hfd]
    · intro x hx
      rcases List.mem_append.1 hx with hx | hx
      · rw [List.mem_singleton.1 hx]
        exact Nat.le_refl _
      · exact hR x hx
    · intro _
      rw [allBytes_one]
      refine ⟨hbl, ?_⟩
      intro f hf
      rcases List.mem_append.1 hf with hf | hf
      · exact (h.small hl0).2 f hf
      · rw [List.mem_singleton.1 hf, hfd]
        exact (h.small hl0).1
  · rw [if_neg hf]
    unfold Out.full at hf
    rw [decide_eq_true_eq, h.lim, h.size, bufBytes_size] at hf
    unfold Out.go
    rw [if_neg (by rw [h.file]; simp)]
    obtain ⟨ps, h3, h4, h5⟩ := segments_eq h.file h.room segs 0
    rw [List.drop_zero] at h4 h5
    unfold Out.content
    simp only
    rw [h5]
    simp only
    refine ⟨_, files, r, body ++ ps, p1, p2 ++ [b], rfl, ?_⟩
    refine ⟨h.slave, h.plain, h.room, h.open', h.lim, h.file, ?_, ?_, ?_, inner_append h.inner h3, ?_, ?_, h.whole, h.order, h.old, h.before, ?_, ?_, h.one⟩
    · rw [h.parts, List.append_assoc]
    · simp only [Out.account]
      rw [h.size, allBytes_append, allBytes_one, hbb, List.length_append]
    · simp only [Out.account]
      rw [h.total, allBytes_append, allBytes_one, hbb, List.length_append]
      omega
    · rw [fileData_append, h.data, h4, allBytes_append, allBytes_one, hbb]
    · simp only [Out.account]
      rw [h.disk, adds_append, adds_other]
      · simp [adds]
      · intro f hf hfr
        rcases List.mem_append.1 hf with hf | hf
        · exact absurd (h.old f hf r hfr).1 (by omega)
        · obtain ⟨q, h1, _, h2⟩ := h.whole f hf
          rw [h1] at hfr
          cases hfr
          omega
    · intro x hx
      apply h.since
      simpa using hx
    · intro hl0
      refine ⟨?_, (h.small hl0).2⟩
      rw [allBytes_append, allBytes_one, List.length_append, hbs]
      omega

theorem sp_writes {d : List (Option Nat × List Piece)} {limit t0 : Nat} : ∀ (R P files : List _) (r : Nat) (body : List Piece) (p1 p2 : List _)
    (s : Out), Sp d limit t0 P R files r body p1 p2 s → (∀ b ∈ R, ∃ evs segs, b.1 = .events evs segs) →
    ((P ++ R).Pairwise fun a b => a.2 ≤ b.2) → (0 < limit → Slow limit (P ++ R)) →
    ∃ files r body p1 p2, Sp d limit t0 (P ++ R) [] files r body p1 p2 (s.runs (writes R)).1 ∧ ∀ x ∈ (s.runs (writes R)).2, x = .ok
  | [], P, files, r, body, p1, p2, s, h, _, _, _ => by
    rw [List.append_nil]
    exact ⟨files, r, body, p1, p2, h, fun x hx => absurd hx List.not_mem_nil⟩
  | b :: R, P, files, r, body, p1, p2, s, h, hb, ht, hl => by
    obtain ⟨t, files, r, body, p1, p2, h1, h2⟩ := sp_buffer h (hb b List.mem_cons_self) ht hl
    have he : P ++ b :: R = (P ++ [b]) ++ R := by simp
    rw [he] at ht hl ⊢
    obtain ⟨files, r, body, p1, p2, h3, h4⟩ := sp_writes R (P ++ [b]) files r body p1 p2 t h2
      (fun x hx => hb x (List.mem_cons_of_mem _ hx)) ht hl
    refine ⟨files, r, body, p1, p2, ?_, ?_⟩
    · show Sp d limit t0 (P ++ [b] ++ R) [] files r body p1 p2 ((s.buffer b.1 b.2).1.runs (writes R)).1
      rw [h1]
      exact h3
    · intro x hx
      have hx : x ∈ (s.buffer b.1 b.2).2 :: ((s.buffer b.1 b.2).1.runs (writes R)).2 := hx
      rw [h1] at hx
      rcases List.mem_cons.1 hx with hx | hx
      · exact hx
      · exact h4 x hx

/-- The first file. -/
theorem sp_init {s : Out} (hs : s.slave = false) (hp : s.plain = false) (hr : s.room = none) (ho : s.canOpen = true) (hf : s.file = none) {c : Nat}
    (hc : s.run ≤ c) (hd : ∀ f ∈ s.disk, ∀ n, f.1 = some n → n < if s.run = 0 then c else s.run) {R : List (Buf × Nat)} (hR : ∀ b ∈ R, c ≤ b.2) :
    Sp s.disk s.limit s.total [] R [] (if s.run = 0 then c else s.run) [] [] [] (s.init c).1 ∧ (s.init c).2 = true := by
  have hin : s.init c = s.startNewFile c := by
    unfold Out.init
    rw [hs]
    rfl
  rw [hin]
  have hcl : s.closeFile = { s with file := none, size := 0, disk := s.disk } := by
    rw [closeFile_none hf]
    simp only [hf]
  have hst := startNew_good hs hp hr ho c hcl
  have hfresh : ∀ f ∈ s.disk, f.1 ≠ some (if s.run = 0 then c else s.run) := by
    intro f hf hfr
    exact absurd (hd f hf _ hfr) (Nat.lt_irrefl _)
  rw [adds_opened, opened_fresh hfresh] at hst
  rw [hst]
  refine ⟨⟨hs, hp, hr, ho, rfl, rfl, rfl, rfl, rfl, inner_nil, rfl, ?_, (fun _ h => absurd h List.not_mem_nil), List.Pairwise.nil, ?_, rfl, ?_, ?_, fun _ => rfl⟩, rfl⟩
  · simp
  · intro f hf n hn
    exact ⟨hd f hf n hn, fun _ h => absurd h List.not_mem_nil⟩
  · intro b hb
    have := hR b (by simpa using hb)
    split <;> omega
  · intro _
    exact ⟨Nat.zero_le _, fun _ h => absurd h List.not_mem_nil⟩

/-! ## Any disk -/

theorem closeFile_look (s : Out) : s.closeFile.slave = s.slave ∧ s.closeFile.plain = s.plain ∧ s.closeFile.run = s.run ∧ s.closeFile.file = none ∧
    s.closeFile.last = s.last ∧ s.closeFile.limit = s.limit ∧ s.closeFile.canOpen = s.canOpen ∧ (s.room = none → s.closeFile.room = none) ∧
    ∀ m, (∀ r, s.file ≠ some (m, r)) → look s.closeFile.disk m = look s.disk m := by
  cases hf : s.file with
  | none =>
    rw [closeFile_none hf]
    exact ⟨rfl, rfl, rfl, hf, rfl, rfl, rfl, fun h => h, fun _ _ => rfl⟩
  | some f =>
    have hcl : s.closeFile = { (s.put (.stop f.2)).1 with file := none, size := 0 } := by
      unfold Out.closeFile; rw [hf]
    rw [hcl]
    rcases put_cases s (.stop f.2) with ⟨h1, _⟩ | ⟨f', hf', hr, h1⟩ | ⟨f', k, hf', hk, _, h1⟩
    · rw [h1]
      exact ⟨rfl, rfl, rfl, rfl, rfl, rfl, rfl, fun h => h, fun _ _ => rfl⟩
    · rw [h1]
      exact ⟨rfl, rfl, rfl, rfl, rfl, rfl, rfl, fun h => h, fun _ _ => rfl⟩
    · rw [h1]
      rw [hf] at hf'
      cases hf'
      refine ⟨rfl, rfl, rfl, rfl, rfl, rfl, rfl, hk, ?_⟩
      intro m hm
      exact look_adds_other (fun h => hm f.2 (by rw [h])) _ _

theorem openWrite_true {s v : Out} {n : Option Nat} {r : Nat} (h : s.openWrite n r = (v, true)) :
    v.file = some (n, r) ∧ look v.disk n = some [.start r] ∧ (∀ m, m ≠ n → look v.disk m = look s.disk m) ∧ v.run = s.run ∧ v.plain = s.plain ∧
      v.slave = s.slave := by
  unfold Out.openWrite at h
  by_cases hc : s.canOpen = true
  · rw [if_pos hc] at h
    obtain ⟨f, k, hf, _, hv⟩ := put_true h
    cases hf
    rw [hv]
    refine ⟨rfl, ?_, ?_, rfl, rfl, rfl⟩
    · show look (adds n [.start r] (opened n s.disk)) n = _
      rw [look_adds_self, look_opened_self]
      rfl
    · intro m hm
      show look (adds n [.start r] (opened n s.disk)) m = _
      rw [look_adds_other hm, look_opened_other hm]
  · rw [if_neg hc] at h
    cases h

theorem startNew_true {s v : Out} {c : Nat} (hs : s.slave = false) (h0 : s.run = 0) (h : s.startNewFile c = (v, true)) :
    v.file = some (nameOf s.plain c, c) ∧ look v.disk (nameOf s.plain c) = some [.start c] ∧
      ∀ m, m ≠ nameOf s.plain c → (∀ r, s.file ≠ some (m, r)) → look v.disk m = look s.disk m := by
  obtain ⟨h1, h2, h3, _, _, _, _, _, h5⟩ := closeFile_look s
  unfold Out.startNewFile at h
  simp only at h
  rw [if_neg (by rw [h1, hs]; simp), if_pos (by rw [h3]; exact h0)] at h
  simp only at h
  rcases hp : Out.openWrite { s.closeFile with run := c } (if s.closeFile.plain = true then none else some c) c with ⟨u, b⟩
  rw [hp] at h
  cases b with
  | false => cases h
  | true =>
    cases h
    obtain ⟨h6, h7, h8, _⟩ := openWrite_true hp
    rw [h2] at h6 h7 h8
    refine ⟨h6, h7, ?_⟩
    intro m hm hf
    exact (h8 m hm).trans (h5 m hf)

theorem content_true {s t : Out} {f : Option Nat × Nat} (hf : s.file = some f) {evs : List Ev} {segs : List (List Byte)}
    (h : s.content 0 (.events evs segs) = (t, .ok)) :
    ∃ ps, Inner ps ∧ fileData ps = segs.flatten ∧ t.file = some f ∧ t.disk = adds f.1 ps s.disk := by
  unfold Out.content at h
  simp only at h
  rcases hp : s.segments segs 0 0 with ⟨u, b, w⟩
  rw [hp] at h
  cases b with
  | false => cases h
  | true =>
    cases h
    obtain ⟨ps, k, h1, h2, _, _, h5⟩ := segments_true segs s f 0 0 u w hf hp
    refine ⟨ps, h1, by rw [h2, List.drop_zero], ?_, ?_⟩
    · rw [h5]; exact hf
    · rw [h5]; rfl

end Verif.HldOut
