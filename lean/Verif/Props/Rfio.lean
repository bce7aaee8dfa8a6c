import Verif.Spec.Rfio
/-! # C127: files written through one connection to a data mover -/

namespace Verif.Rfio
open Verif.Bytes

theorem received_append (c : Nat) (l k : List Ext) :
    received c (l ++ k) = k.foldl (receive c) (received c l) := by
  simp [received]

theorem writeAll_calls (f : Nat) (hf : f ≠ 0) : ∀ (l : List (List Byte)) (s : St),
    writeAll s f l
      = { s with calls := s.calls ++ l.map fun b => Ext.fwrite f b b.length }
  | [], s => by simp [writeAll]
  | b :: l, s => by
    have : fwrite s b 1 f b.length
        = ({ s with calls := s.calls ++ [.fwrite f b b.length] }, b.length / 1) := by
      simp [fwrite, hf]
    rw [writeAll, this, writeAll_calls f hf l]
    simp

theorem receive_blocks (c : Nat) (name : Text) (fs : List (Text × List Byte)) (bad : Bool) :
    ∀ (l : List (List Byte)) (got : List Byte),
    (l.map fun b => Ext.fwrite c b b.length).foldl (receive c) ⟨some (name, got), fs, bad⟩
      = ⟨some (name, got ++ l.flatten), fs, bad⟩
  | [], got => by simp
  | b :: l, got => by
    rw [List.map_cons, List.foldl_cons]
    have : receive c ⟨some (name, got), fs, bad⟩ (.fwrite c b b.length)
        = ⟨some (name, got ++ b), fs, bad⟩ := by simp [receive]
    rw [this, receive_blocks c name fs bad l]
    simp

theorem connections_append (l k : List Ext) :
    connections (l ++ k) = connections l ++ connections k := by
  simp [connections]

theorem connections_blocks (c : Nat) (l : List (List Byte)) :
    connections (l.map fun b => Ext.fwrite c b b.length) = [] := by
  induction l with
  | nil => rfl
  | cons b l ih =>
    rw [List.map_cons, ← List.singleton_append, connections_append, ih]
    rfl

/-- One file with a connection. -/
theorem writeFile_connected {s : St} (hs : s.remote ≠ 0) (x : File) :
    ∃ calls, writeFile s x = some { s with calls := s.calls ++ calls } ∧ connections calls = [] ∧
      (∀ h, Ext.fclose h ∉ calls) ∧
      ∀ fs, calls.foldl (receive s.remote) ⟨none, fs, false⟩ = ⟨none, fs ++ accepted [x], false⟩ := by
  by_cases hr : x.res.newfile = 0
  · refine ⟨[.newfile s.remote x.name 0] ++ (x.blocks.map fun b => Ext.fwrite s.remote b b.length)
      ++ [.endfile s.remote], ?_, ?_, ?_, ?_⟩
    · simp only [writeFile, fopen, if_pos hs, newFile, hr, ne_eq, not_true_eq_false, if_false,
        Option.map_some, if_neg hs]
      rw [writeAll_calls _ hs]
      simp [fclose, hs]
    · rw [connections_append, connections_append, connections_blocks]
      rfl
    · intro h
      simp
    · intro fs
      rw [List.foldl_append, List.foldl_append]
      have h1 : [Ext.newfile s.remote x.name 0].foldl (receive s.remote) ⟨none, fs, false⟩
          = ⟨some (x.name, []), fs, false⟩ := by simp [receive]
      rw [h1, receive_blocks]
      simp [receive, accepted, hr]
  · refine ⟨[.newfile s.remote x.name x.res.newfile], ?_, rfl, by simp, ?_⟩
    · simp [writeFile, fopen, hs, newFile, hr]
    · intro fs
      simp [receive, accepted, hr]

theorem accepted_cons (x : File) (l : List File) : accepted (x :: l) = accepted [x] ++ accepted l := by
  by_cases h : x.res.newfile = 0 <;> simp [accepted, h]

/-- With a connection: every accepted file arrives completely under its name, in order, with
nothing between the files; the connection stays, no file counts as open at the end, no further
connection is made and none is closed. -/
theorem C127_files : ∀ (l : List File) {s : St}, s.remote ≠ 0 →
    ∃ calls, writeFiles s l = some { s with calls := s.calls ++ calls } ∧ connections calls = [] ∧
      (∀ h, Ext.fclose h ∉ calls) ∧
      ∀ fs, calls.foldl (receive s.remote) ⟨none, fs, false⟩ = ⟨none, fs ++ accepted l, false⟩
  | [], s, _ => ⟨[], by simp [writeFiles], rfl, by simp, by simp [accepted]⟩
  | x :: l, s, hs => by
    obtain ⟨c1, h1, h2, h3, h4⟩ := writeFile_connected hs x
    obtain ⟨c2, g1, g2, g3, g4⟩ := C127_files l (s := { s with calls := s.calls ++ c1 }) hs
    refine ⟨c1 ++ c2, ?_, ?_, ?_, ?_⟩
    · rw [writeFiles, h1, Option.bind_some, g1]
      simp
    · rw [connections_append, h2, g2]
      rfl
    · intro h hm
      rcases List.mem_append.mp hm with hm | hm
      · exact h3 h hm
      · exact g3 h hm
    · intro fs
      rw [List.foldl_append, h4, g4, List.append_assoc, ← accepted_cons]

theorem base_some {name : Text} (h : name.length < 1023) : ∃ b, base name = some b := by
  unfold base
  rw [if_neg (by omega)]
  split <;> exact ⟨_, rfl⟩

/-- From the beginning: the first file asks for a connection, which is made; then all accepted files
arrive, with one connection, which is closed as the very last thing when the object is destroyed. -/
theorem C127_session {x : File} {l : List File} (hx : x.any = true) (hn : x.name.length < 1023)
    (hc : x.res.connect ≠ 0) :
    ∃ s, writeFiles init (x :: l) = some s ∧ s.opened = 0 ∧ s.remote = x.res.connect ∧
      connections s.calls = [x.res.connect] ∧
      received x.res.connect s.calls = ⟨none, accepted (x :: l), false⟩ ∧
      (destroy s).calls = s.calls ++ [.fclose x.res.connect] ∧ (destroy s).remote = 0 ∧
      ∀ h, Ext.fclose h ∉ s.calls := by
  obtain ⟨b, hb⟩ := base_some hn
  obtain ⟨calls, h1, h2, h3, h4⟩ := C127_files (x :: l)
    (s := ⟨x.res.connect, 0, [.connect b x.res.connect]⟩) hc
  have e : writeFiles init (x :: l)
      = writeFiles ⟨x.res.connect, 0, [.connect b x.res.connect]⟩ (x :: l) := by
    simp only [writeFiles, writeFile]
    congr 2
    simp [fopen, init, hx, hb, hc]
  refine ⟨_, e.trans h1, rfl, rfl, ?_, ?_, ?_, ?_, ?_⟩
  · show connections ([.connect b x.res.connect] ++ calls) = _
    rw [connections_append, h2]
    simp [connections, hc]
  · show received _ ([.connect b x.res.connect] ++ calls) = _
    rw [received_append]
    exact h4 []
  · simp [destroy, hc]
  · simp [destroy, hc]
  · intro h hm
    rcases List.mem_append.mp hm with hm | hm
    · simp at hm
    · exact h3 h hm

/-- The connection is made to the node in the name of the file: its text up to the last colon. -/
theorem C127_base {node path : Text} (hp : (58 : Byte) ∉ path)
    (hn : (node ++ [58] ++ path).length < 1023) :
    base (node ++ [58] ++ path) = some (node ++ [58]) := by
  unfold base
  rw [if_neg (by omega), if_pos (by simp)]
  congr 1
  rw [List.reverse_append, List.dropWhile_append_of_pos]
  · simp
  · intro a ha
    have : a ∈ path := List.mem_reverse.mp ha
    simp only [ne_eq, decide_not, Bool.not_eq_eq_eq_not, Bool.not_true, decide_eq_false_iff_not]
    intro h
    exact hp (h ▸ this)

/-- Without RFIO options each file has its own handle, which is closed with the file. -/
theorem C127_plain {s : St} (hs : s.remote = 0) {x : File} (hx : x.any = false)
    (hf : x.res.fopen ≠ 0) :
    writeFile s x = some { s with calls := s.calls ++ ([.fopen x.name x.res.fopen]
      ++ (x.blocks.map fun b => Ext.fwrite x.res.fopen b b.length) ++ [.fclose x.res.fopen]) } := by
  simp only [writeFile, fopen, hs, hx, ne_eq, not_true_eq_false, if_false, Bool.false_eq_true,
    Option.map_some, if_neg hf]
  rw [writeAll_calls _ hf]
  simp [fclose, hs, hf]

/-- A connection which fails: no handle, no file, and the next file tries again. -/
theorem C127_no_connection {s : St} (hs : s.remote = 0) {name b : Text} {r : Res}
    (hb : base name = some b) (hc : r.connect = 0) :
    fopen s name true r = some (⟨0, s.opened, s.calls ++ [.connect b 0]⟩, 0) := by
  simp [fopen, hs, hb, hc]

/-- The result of `fwrite` is the number of elements which are completely written. -/
theorem C127_fwrite (s : St) {data : List Byte} {sz f n : Nat} (hf : f ≠ 0) (hz : sz ≠ 0) :
    let k := (fwrite s data sz f n).2
    k * sz ≤ n ∧ n < (k + 1) * sz := by
  simp only [fwrite, hf, hz, or_self, if_false]
  refine ⟨Nat.div_mul_le_self n sz, ?_⟩
  have := Nat.lt_div_mul_add (a := n) (b := sz) (by omega)
  rw [Nat.add_mul, Nat.one_mul]
  exact this

/-- Nothing is written, closed or asked without handle. -/
theorem C127_null {s : St} (data : List Byte) (sz n : Nat) (r : Int) :
    fwrite s data sz 0 n = (s, 0) ∧ fclose s 0 = s ∧ feof s 0 r = (s, false) := by
  refine ⟨by simp [fwrite], ?_, by simp [feof]⟩
  unfold fclose
  rw [if_neg (by rintro ⟨h1, h2⟩; exact h1 h2.symm)]
  simp

/-! ## Deviations and examples -/

/-- The question for the end of the file ends the file: data behind it has no file. -/
theorem C127_feof_counterexample :
    let s : St := ⟨7, 0, []⟩
    let s1 := (newFile s [97] ⟨0, 0, 0⟩).1
    let s2 := (feof s1 7 0).1
    received 7 (fwrite s2 [1] 1 7 1).1.calls = ⟨none, [([97], [])], true⟩ := by
  decide

/-- Two files at the same time have the same handle: data of the first goes to the second. -/
theorem C127_two_counterexample :
    let s : St := ⟨7, 0, []⟩
    let a := newFile s [97] ⟨0, 0, 0⟩
    let b := newFile a.1 [98] ⟨0, 0, 0⟩
    a.2 = b.2 ∧
    received 7 (fclose (fwrite b.1 [1] 1 a.2 1).1 a.2).calls = ⟨none, [([98], [1])], true⟩ := by
  decide

/-- A long name is copied without terminating zero. -/
theorem C127_long_counterexample {name : Text} (h : 1023 ≤ name.length) (r : Res) :
    fopen init name true r = none := by
  simp [fopen, init, base, h]

example : ∃ s, writeFiles init [⟨[110, 58, 97], true, ⟨7, 0, 0⟩, [[1], [2, 3]]⟩,
    ⟨[98], true, ⟨0, 0, 1⟩, [[4]]⟩, ⟨[99], false, ⟨0, 0, 0⟩, [[5]]⟩] = some s ∧
    received 7 s.calls = ⟨none, [([110, 58, 97], [1, 2, 3]), ([99], [5])], false⟩ := by
  refine ⟨_, rfl, ?_⟩
  decide

end Verif.Rfio
