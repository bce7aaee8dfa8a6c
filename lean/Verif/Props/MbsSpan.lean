import Verif.MbsSpanInv

/-! C80: events which an MBS server sends in pieces come out complete. -/

namespace Verif.MbsNet

open Verif.Bytes Spec

/-- Full statement: this for all pieces; missing: pieces of less than 16 bytes, see `C80_short_piece_counterexample`.
A client gets the greeting of a server and then buffers whose last event goes on in the next one; whatever the cuts are, what comes
out are the complete events, in order, with the right sizes, for both orders of bytes. -/
theorem C80_reassembled_partial (srv : Srv) (asks sw : Bool) (max buffers streams : Nat) (hm : max < 4294967296)
    (hb : buffers < 4294967296) (hb1 : buffers ≠ 1) (hs : streams < 4294967296) (hs1 : streams ≠ 0) (mem : Data)
    (hmem : mem.length < 4294967248) (l : List Packed) (hg : Good sw max mem.length none l) :
    let s : Net := { srv := srv, cli := { stream := asks }, down := wire sw (greeting max buffers streams) ++ stream sw none l }
    let t := s.run (.recv :: l.flatMap fun _ => perBuffer mem)
    t.cli.out.flatten = pieces (assemble none l).1 ∧ t.cli.drv = .idle ∧ t.down = [] := by
  intro s t
  have hgl : (wire sw (greeting max buffers streams)).length = 16 := by rw [wire_length]; simp [greeting]
  have w0 : word (greeting max buffers streams) 0 = 1 := word_head _ _ (by omega)
  have w1 : word (greeting max buffers streams) 1 = max := by unfold greeting; rw [word_next]; exact word_head _ _ hm
  have w2 : word (greeting max buffers streams) 2 = buffers := by unfold greeting; rw [word_next, word_next]; exact word_head _ _ hb
  have w3 : word (greeting max buffers streams) 3 = streams := by
    unfold greeting; rw [word_next, word_next, word_next]; exact word_last _ hs
  have hsw : decide (word (wire sw (greeting max buffers streams)) 0 ≠ 1) = sw := by
    cases sw with
    | false => simp [wire, w0]
    | true =>
      have : wire true (greeting max buffers streams) = [0, 0, 0, 1] ++ swap (enc 4 max ++ (enc 4 buffers ++ enc 4 streams)) := by
        show swap _ = _
        unfold greeting
        rw [swap_append _ _ (by simp)]
        rfl
      rw [this]
      have : word ([0, 0, 0, 1] ++ swap (enc 4 max ++ (enc 4 buffers ++ enc 4 streams))) 0 = 16777216 := by
        unfold word
        rw [Nat.mul_zero, List.drop_zero, take_append_len (a := [0, 0, 0, 1]) (n := 4) rfl]
        decide
      rw [this]; decide
  have hstep : s.step .recv =
      { s with
        down := stream sw none l, cli := (s.cli.recv (wire sw (greeting max buffers streams))).1
        up := s.up ++ (s.cli.recv (wire sw (greeting max buffers streams))).2 } := by
    have hw : s.cli.want = some 16 := rfl
    have hd : s.down = wire sw (greeting max buffers streams) ++ stream sw none l := rfl
    simp only [Net.step, hw]
    rw [hd, take_append_len hgl, drop_append_len hgl, if_pos (by rw [List.length_append]; omega)]
  have hidle : Idle sw max none (s.step .recv).cli ∧ (s.step .recv).cli.out = [] := by
    rw [hstep]
    have hst : s.cli.st = .recvInfo := rfl
    simp only [Cli.recv, s, Cli.onInfo, hsw]
    have hw := wire_wire sw (greeting max buffers streams)
    rw [hw, w0, w1, w2, w3]
    simp [hs1, hb1]
    exact ⟨rfl, rfl, rfl, rfl, rfl, rfl⟩
  obtain ⟨out, k1, k2, k3, k4⟩ := all_buffers l (rest := []) hidle.1 hm hmem (by simp) hg (by rw [hstep]; simp)
  have ht : t = (s.step .recv).run (l.flatMap fun _ => perBuffer mem) := rfl
  rw [ht]
  refine ⟨?_, k1.drv, k2⟩
  rw [k3, hidle.2, List.nil_append, k4]

/-- An event in three buffers, followed by another one. -/
def pieces3 : List Packed :=
  [⟨[(0x1000a, [1, 2, 3, 4, 5, 6, 7, 8])], true, [0, 0]⟩, ⟨[(0, [9, 10, 11, 12])], true, []⟩,
    ⟨[(0, [13, 14, 15, 16]), (0x1000a, [21, 22, 23, 24, 25, 26, 27, 28])], false, []⟩]

example : Good true 1000 100 none pieces3 ∧
    (assemble none pieces3).1 = [(0x1000a, [1, 2, 3, 4, 5, 6, 7, 8, 9, 10, 11, 12, 13, 14, 15, 16]), (0x1000a, [21, 22, 23, 24, 25, 26, 27, 28])] := by
  refine ⟨?_, by simp [assemble, pieces3, join]⟩
  simp [Good, pieces3, join, pieces, piece]

/-- When the piece at the end of a buffer has less than 16 bytes, the complete event before it is taken for the open one. -/
theorem C80_short_piece_counterexample : ∃ l : List Packed,
    (assemble none l).2 = none ∧ (assemble none l).1 = [(7, [1, 2, 3, 4, 5, 6, 7, 8]), (7, [11, 12, 13, 14, 15, 16, 17, 18])] ∧
    let s : Net := { srv := Srv.start true false 0 0, cli := { stream := true }, down := greeting 1000 2 1 ++ stream false none l }
    (s.run (.recv :: l.flatMap fun _ => perBuffer (List.replicate 100 0))).cli.out.flatten ≠ pieces (assemble none l).1 := by
  refine ⟨[⟨[(7, [1, 2, 3, 4, 5, 6, 7, 8]), (7, [11, 12, 13, 14])], true, []⟩, ⟨[(7, [15, 16, 17, 18])], false, []⟩], ?_, ?_, ?_⟩
  · decide +kernel
  · decide +kernel
  · decide +kernel

/-- A client which connects in the middle of an event delivers the rest of the event as an event. -/
theorem C80_first_piece_counterexample :
    let s : Net := {
      srv := Srv.start true false 0 0, cli := { stream := true }
      down := greeting 1000 2 1 ++ stream false (some (7, [1, 2])) [⟨[(7, [15, 16, 17, 18])], false, []⟩] }
    (s.run (.recv :: perBuffer (List.replicate 100 0))).cli.out = [piece (7, [15, 16, 17, 18])] := by
  decide +kernel

/-- An open event and a buffer which does not go on with it: the client gives up. -/
theorem C80_gap (c : Cli) (mem : Data) (n : Nat) (h1 : c.span ≠ []) (h2 : c.hdr.hBegin = 0) :
    (c.readStart n mem).drv = .ended := by
  unfold Cli.readStart
  split
  · rfl
  · have : (({ c with drv := .data } : Cli).start (if n > 0 then mem.take n else mem)).2 = false := by
      unfold Cli.start
      (repeat' split) <;> simp_all
    generalize ({ c with drv := .data } : Cli).start (if n > 0 then mem.take n else mem) = r at this
    obtain ⟨c', b⟩ := r
    simp only at this
    subst this
    rfl

example : (Hdr.ofBytes (header 8 8 false false)).hBegin = 0 := by decide +kernel

/-- An event with such a size that the number of bytes gets zero: the loop over the events never ends. -/
theorem C80_hangs_counterexample (e x : Data) (hx : 12 ≤ x.length) (he : e = enc 4 2147483644) (u last : Nat) :
    ∀ fuel, walk fuel (e ++ x) true u last = none := by
  have hw : u32 (8 + word (e ++ x) 0 * 2) = 0 := by
    rw [he, word_head _ _ (by omega)]; rfl
  have hl : ¬ (e ++ x).length < 16 := by
    rw [List.length_append, he, enc_length]; omega
  have key : ∀ fuel u, walk fuel (e ++ x) false u 0 = none := by
    intro fuel
    induction fuel with
    | zero => intro u; rfl
    | succ fuel ih =>
      intro u
      unfold walk
      simp only [Bool.false_eq_true, if_false, List.drop_zero]
      rw [if_neg hl, hw, if_neg (by omega)]
      exact ih _
  intro fuel
  cases fuel with
  | zero => rfl
  | succ fuel =>
    unfold walk
    simp only [if_true]
    rw [if_neg hl, hw, if_neg (by omega)]
    exact key _ _

end Verif.MbsNet
