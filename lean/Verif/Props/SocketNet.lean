import Verif.SocketNetInv

/-!
# C60: messages survive the byte stream of a socket

Full statement: whatever is submitted for sending (acknowledge packets, buffers of any size, null buffers), the receiving side
gets the same messages in the same order, for all sizes of the pieces which the kernel takes and gives.  The code has it only
for acknowledge packets and for buffers with more than 32 bytes and without empty segments (`Large`): see the counterexamples.
-/

namespace Verif.SocketNet
open Verif.Bytes

/-- C60 for large buffers: no side is closed, and what was received is the beginning of what was submitted, whatever the sizes
of the pieces in which the bytes travel. -/
theorem C60_stream_partial (N : Nat) (ops : List Op) (h : OpsOk N ops) :
    (run ops Sys.init).snd.closed = false ∧ (run ops Sys.init).rcv.closed = false ∧
      (run ops Sys.init).rcv.done <+: (run ops Sys.init).sub.map (fun p => payload p.1) := by
  obtain ⟨c, a, rest, hi⟩ := run_inv (init_inv N) h
  refine ⟨hi.snd.open_, hi.rcv.open_, ?_⟩
  rw [hi.rcv.done, hi.sub, List.map_append]
  exact List.prefix_append _ _

theorem encode_pos {p : Msg × List Byte} (h : Ok p) : 0 < (encode p).length := by
  rw [encode_eq h, List.length_append, hd_length h]
  omega

theorem encodes_nil {l : List (Msg × List Byte)} (h : ∀ p ∈ l, Ok p) (he : encodes l = []) : l = [] := by
  cases l with
  | nil => rfl
  | cons p l =>
    have h1 := encode_pos (h p List.mem_cons_self)
    have := congrArg List.length he
    rw [encodes_cons, List.length_append, List.length_nil] at this
    omega

theorem all_done {N : Nat} {s : Sys} {c : List Byte} {a rest : List (Msg × List Byte)} (hi : Inv N s c a rest)
    (hn : s.net = []) (hu : unsent s.snd = []) (hp : s.sub.length ≤ s.posted.length) :
    s.rcv.done = s.sub.map (fun p => payload p.1) := by
  have hb := hi.bytes
  rw [hn, hu, hi.sub, encodes_append, List.append_nil, List.append_nil] at hb
  have hokr : ∀ p ∈ rest, Ok p := fun p hp => (hi.ok p (by rw [hi.sub]; simp [hp])).1
  have hfin : rest = [] → s.rcv.done = s.sub.map (fun p => payload p.1) := by
    intro h; rw [hi.rcv.done, hi.sub, h, List.append_nil]
  apply hfin
  rcases hi.rcv.st with ⟨h1, h2, h3, h4⟩ | ⟨h1, h2, h3, h4⟩ | ⟨h1, typ, segs, j, r', h2, h3, h4, h5, h6, h8⟩
  · rw [h4] at hb
    have : encodes rest = [] := by
      have := congrArg List.length hb
      rw [List.length_append] at this
      exact List.length_eq_zero_iff.1 (by omega)
    exact encodes_nil hokr this
  · rw [h4] at hb
    have hacc : s.rcv.acc = encodes rest := List.append_cancel_left hb
    cases rest with
    | nil => rfl
    | cons p r =>
      have hp := hokr p List.mem_cons_self
      have := congrArg List.length hacc
      rw [encodes_cons, encode_eq hp, List.length_append, List.length_append, hd_length hp] at this
      omega
  · rw [h4] at hb
    have hacc := List.append_cancel_left hb
    have hp : Ok (.buf typ segs, j) := hokr _ (by rw [h2]; exact List.mem_cons_self)
    rw [h2, encodes_cons, encode_eq hp, List.append_assoc] at hacc
    have := congrArg List.length (List.append_cancel_left hacc)
    rw [List.length_append] at this
    simp only [dat] at this
    omega

/-- When the sender has nothing to do, all bytes are read and there were enough receive buffers, everything is delivered. -/
theorem C60_complete_partial (N : Nat) (ops : List Op) (h : OpsOk N ops)
    (hn : (run ops Sys.init).net = []) (hb : (run ops Sys.init).snd.busy = false)
    (hp : (run ops Sys.init).sub.length ≤ (run ops Sys.init).posted.length) :
    (run ops Sys.init).rcv.done = (run ops Sys.init).sub.map (fun p => payload p.1) := by
  obtain ⟨c, a, rest, hi⟩ := run_inv (init_inv N) h
  refine all_done hi hn ?_ hp
  have h1 := hi.snd.idle hb
  have h2 := hi.snd.busy
  rw [hb] at h2
  have h3 : (run ops Sys.init).snd.iov = [] := by simpa using h2
  simp [unsent, h1, h3, encodes]

theorem run_append (l1 l2 : List Op) (s : Sys) : run (l1 ++ l2) s = run l2 (run l1 s) := by
  induction l1 generalizing s with
  | nil => rfl
  | cons o l ih => exact ih _

theorem write_all {N : Nat} (msg : Bool) (r : Nat) (n : Nat) : ∀ {s : Sys} {c : List Byte} {a rest : List (Msg × List Byte)},
    Inv N s c a rest → (unsent s.snd).length ≤ n →
    ∃ k, unsent (run (List.replicate k (.write msg r)) s).snd = [] ∧ (run (List.replicate k (.write msg r)) s).sub = s.sub ∧
      (run (List.replicate k (.write msg r)) s).posted = s.posted ∧
      ∃ c a rest, Inv N (run (List.replicate k (.write msg r)) s) c a rest := by
  induction n with
  | zero =>
    intro s c a rest h hn
    exact ⟨0, List.length_eq_zero_iff.1 (Nat.le_zero.1 hn), rfl, rfl, c, a, rest, h⟩
  | succ n ih =>
    intro s c a rest h hn
    by_cases hio : s.snd.iov = []
    · have hb : s.snd.busy = false := by
        have := h.snd.busy
        rw [hio] at this
        simpa using this
      exact ⟨0, by simp [run, unsent, hio, h.snd.idle hb, encodes], rfl, rfl, c, a, rest, h⟩
    · obtain ⟨c', a', rest', h'⟩ := step_inv h (.write msg r) (fun o ho => by rw [List.mem_singleton] at ho; subst ho; trivial)
      have hw := write_spec h.snd msg r
      have hst : step s (.write msg r) = { s with snd := (write msg s.snd r).1, net := s.net ++ (write msg s.snd r).2 } := by
        unfold step
        dsimp only
        rw [if_neg (by rw [h.snd.open_]; decide)]
      have hlen : (unsent (step s (.write msg r)).snd).length ≤ n := by
        rw [hst]
        have h1 := congrArg List.length hw.2.1
        have h2 := List.length_pos_iff.2 (hw.2.2 hio)
        rw [List.length_append] at h1
        dsimp only
        omega
      obtain ⟨k, e1, e2, e3, e4⟩ := ih h' hlen
      refine ⟨k + 1, e1, ?_, ?_, e4⟩
      · rw [List.replicate_succ]; show (run _ (step s _)).sub = _; rw [e2, hst]
      · rw [List.replicate_succ]; show (run _ (step s _)).posted = _; rw [e3, hst]

theorem read_all {N : Nat} (msg : Bool) (r : Nat) (n : Nat) : ∀ {s : Sys} {c : List Byte} {a rest : List (Msg × List Byte)},
    Inv N s c a rest → unsent s.snd = [] → s.sub.length ≤ s.posted.length → s.net.length ≤ n →
    ∃ k, (run (List.replicate k (.read msg r)) s).rcv.done = s.sub.map (fun p => payload p.1) := by
  induction n with
  | zero =>
    intro s c a rest h hu hp hn
    exact ⟨0, all_done h (List.length_eq_zero_iff.1 (Nat.le_zero.1 hn)) hu hp⟩
  | succ n ih =>
    intro s c a rest h hu hp hn
    by_cases hnet : s.net = []
    · exact ⟨0, all_done h hnet hu hp⟩
    · by_cases hio : s.rcv.iov = []
      · refine ⟨0, ?_⟩
        have : rest = [] := by
          rcases h.rcv.st with ⟨h1, h2, h3, h4⟩ | ⟨h1, h2, h3, h4⟩ | ⟨h1, typ, segs, j, r', h2, h3, h4, h5, h6, h8⟩
          · have h9 := h.count
            simp only [nact, h3, h1, List.length_nil, if_pos] at h9
            rw [h.sub, List.length_append] at hp
            exact List.length_eq_zero_iff.1 (by omega)
          · rw [hio] at h3; cases h3
          · rw [hio] at h6; simp at h6
        show s.rcv.done = _
        rw [h.rcv.done, h.sub, this, List.append_nil]
      · obtain ⟨c', a', rest', h'⟩ := step_inv h (.read msg r) (fun o ho => by rw [List.mem_singleton] at ho; subst ho; trivial)
        obtain ⟨_, _, _, _, _, _, _, hlt⟩ := read_spec h.rcv (fun p hp => h.ok p (by rw [h.sub]; simp [hp]))
          (fut := unsent s.snd) (net := s.net) (by rw [← h.sub]; exact h.bytes) msg r
        have hst : step s (.read msg r) = { s with rcv := (read msg s.rcv s.net r).1, net := (read msg s.rcv s.net r).2 } := by
          unfold step
          dsimp only
          rw [if_neg (by rw [h.rcv.open_]; decide)]
        obtain ⟨k, e⟩ := ih h' (by rw [hst]; exact hu) (by rw [hst]; exact hp)
          (by rw [hst]; have := hlt hio hnet; dsimp only; omega)
        refine ⟨k + 1, ?_⟩
        rw [List.replicate_succ]
        show (run _ (step s _)).rcv.done = _
        rw [e, hst]

/-- From every state with enough receive buffers, some number of write events followed by some number of read events delivers
everything, whatever number of bytes each of them moves. -/
theorem C60_progress_partial (N : Nat) (ops : List Op) (h : OpsOk N ops)
    (hp : (run ops Sys.init).sub.length ≤ (run ops Sys.init).posted.length) (mw mr : Bool) (w r : Nat) :
    ∃ k l, (run (ops ++ List.replicate k (.write mw w) ++ List.replicate l (.read mr r)) Sys.init).rcv.done =
      (run ops Sys.init).sub.map (fun p => payload p.1) := by
  obtain ⟨c, a, rest, hi⟩ := run_inv (init_inv N) h
  obtain ⟨k, e1, e2, e3, _, _, _, e4⟩ := write_all mw w _ hi (Nat.le_refl _)
  obtain ⟨l, e5⟩ := read_all mr r _ e4 e1 (by rw [e2, e3]; exact hp) (Nat.le_refl _)
  refine ⟨k, l, ?_⟩
  rw [run_append, run_append, e5, e2]

/-! ## Counterexamples -/

def junk : List Byte := List.replicate 32 0
def small : Msg := .buf 7 [[1, 2, 3, 4, 5, 6, 7, 8]]
def big : Msg := .buf 9 [List.replicate 40 5]

/-- A buffer with 8 bytes travels in the header, but the receiver waits for 8 further bytes: with everything sent and read and
with buffers for everything, nothing is delivered. -/
theorem C60_small_counterexample :
    let s := run [.post [64], .submit small junk, .write true 1000, .read true 1000, .read true 1000] Sys.init
    s.net = [] ∧ s.snd.busy = false ∧ s.sub.length ≤ s.posted.length ∧ s.rcv.done = [] := by
  decide +kernel

/-- The following message is then taken for its data: the large buffer behind the small one is lost, the connection runs out
of step. -/
theorem C60_desync_counterexample :
    let s := run ([.post [64], .post [64], .submit small junk, .submit big junk] ++ List.replicate 4 (.write true 1000) ++
      List.replicate 4 (.read true 1000)) Sys.init
    s.net ≠ [] ∧ s.snd.busy = false ∧ s.rcv.done = [.buf 7 [1, 2, 3, 4, 5, 6, 7, 8]] ∧
      hdrChk s.rcv.hdr = 9 := by
  decide +kernel

/-- Receiver waits for data of a buffer with size 0. -/
def Stalled (s : Rcv) : Prop := s.status = 2 ∧ s.iov = []

theorem stalled_step {s : Sys} (h : Stalled s.rcv) (o : Op) :
    Stalled (step s o).rcv ∧ (step s o).rcv.done = s.rcv.done := by
  cases o with
  | submit m j => unfold step; dsimp only; split <;> exact ⟨h, rfl⟩
  | post b =>
    unfold step post
    dsimp only
    split
    · exact ⟨h, rfl⟩
    · rw [if_neg (by have := h.1; omega)]; exact ⟨h, rfl⟩
  | write m r => unfold step; dsimp only; split <;> exact ⟨h, rfl⟩
  | read m r =>
    unfold step read
    dsimp only
    split
    · exact ⟨h, rfl⟩
    · rw [h.2]; exact ⟨h, rfl⟩

theorem stalled_run {ops : List Op} {s : Sys} (h : Stalled s.rcv) : (run ops s).rcv.done = s.rcv.done := by
  induction ops generalizing s with
  | nil => rfl
  | cons o l ih =>
    show (run l (step s o)).rcv.done = _
    rw [ih (stalled_step h o).1, (stalled_step h o).2]

/-- After a null buffer, or a buffer with size 0, nothing at all is delivered any more, for whatever happens later. -/
theorem C60_empty_counterexample (m : Msg) (hm : m = .null ∨ m = .buf 7 []) (ops : List Op) :
    (run ([.post [64], .submit m junk, .write true 1000, .read true 1000] ++ ops) Sys.init).rcv.done = [] := by
  rw [run_append]
  have h : Stalled (run [.post [64], .submit m junk, .write true 1000, .read true 1000] Sys.init).rcv ∧
      (run [.post [64], .submit m junk, .write true 1000, .read true 1000] Sys.init).rcv.done = [] := by
    rcases hm with h | h <;> subst h <;> unfold Stalled <;> decide +kernel
  rw [stalled_run h.1]
  exact h.2

/-- An empty last segment: the bytes are sent, then the sender closes the connection (`sendmsg` of zero bytes returns 0), and
what was submitted after it is never sent. -/
theorem C60_segment_counterexample :
    let s := run [.submit (.buf 9 [List.replicate 40 5, []]) junk, .submit big junk, .write true 1000, .write true 1000,
      .write true 1000] Sys.init
    s.snd.closed = true ∧ s.snd.queue = [(big, junk)] := by
  decide +kernel

/-! ## Examples -/

example : OpsOk 40 [.submit (.ack 3) junk, .post [16, 32], .submit big junk, .write false 5, .read true 3] := by
  intro o ho
  simp only [List.mem_cons, List.not_mem_nil, or_false] at ho
  rcases ho with rfl | rfl | rfl | rfl | rfl <;> simp [Large, need, junk, big]

example : (run ([.submit (.ack 3) junk, .post [16, 32], .post [64], .submit big junk] ++ List.replicate 3 (.write true 90) ++
    List.replicate 5 (.read true 48)) Sys.init).rcv.done = [.ack 3, .buf 9 (List.replicate 40 5)] := by
  decide +kernel

end Verif.SocketNet
