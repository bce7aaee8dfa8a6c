import Verif.SockDeviceTime

/-!
# C82: establishing socket connections

Every request of the connection manager is answered exactly once, positively only together with a
network transport which uses a socket on which the connection id of the request was agreed.
-/

namespace Verif.SockDevice

open Verif.Bytes Spec

/-! ## Answers -/

/-- **Every command is answered once**, or it still waits: nothing is lost and nothing answered
twice, whatever comes from the network and whenever the timer fires. -/
theorem C82_answered_once (ops : List Op) (ha : Alloc {} ops) (c : Nat) :
    answered (Dev.run {} ops) c + waits (Dev.run {} ops) c = came c ops := by
  have := run_tot init_keys ops ha c
  simpa [tot, answered, waits] using this

/-- **Every command is answered in time**: a request with time-out `tm` is answered as soon as the
timer counted more than `tm` and 200 ms. -/
theorem C82_in_time (a b : List Op) (id : Id) (tm : Int) (addr c : Nat)
    (ha : Alloc {} (a ++ .request id tm addr c true :: b))
    (h1 : came c a = 0) (h2 : came c b = 0) (h3 : 0 ≤ tm) (h5 : tm + 200 < elapsed b) :
    answered (Dev.run {} (a ++ .request id tm addr c true :: b)) c = 1 := by
  have ht := C82_answered_once _ ha c
  rw [came_append, came_cons, h1, h2] at ht
  simp only [came, if_true] at ht
  have ha' : Alloc {} a := by
    clear ht h1
    generalize ({} : Dev) = s at ha
    induction a generalizing s with
    | nil => trivial
    | cons o a ih => exact ⟨ha.1, ih _ ha.2⟩
  have hw : waits (Dev.run {} a) c = 0 := by
    have := C82_answered_once a ha' c
    omega
  have hin : Within c (tm + 200) ((Dev.run {} a).step (.request id tm addr c true)) := by
    simp only [Dev.step, if_true]
    split
    · intro x hx hc
      exact absurd hc (mem_waits hw x hx)
    · intro x hx hc
      rcases List.mem_append.mp hx with hx | hx
      · exact absurd hc (mem_waits hw x hx)
      · rw [List.mem_singleton.mp hx]
        show 0 ≤ tm + extraTm ∧ tm + extraTm ≤ tm + 200
        unfold extraTm
        omega
  have h6 := run_within hin b h2
  have h7 := waits_zero h6 (by omega)
  rw [run_append] at ht ⊢
  have h8 : waits (Dev.run (Dev.run {} a) (.request id tm addr c true :: b)) c = 0 := h7
  omega

/-- **No command is given up too early**: while nothing but time goes by (and other requests and
connections come), a record stays as long as the timer counted at most its time. -/
theorem C82_not_early (s : Dev) (x : Nat × Rec) (hx : x ∈ s.recs) (ops : List Op)
    (hq : ∀ o ∈ ops, Quiet o) (hf : Forward ops) (ht : elapsed ops ≤ x.2.tm) :
    (x.1, { x.2 with tm := x.2.tm - elapsed ops }) ∈ (s.run ops).recs :=
  run_stays hx ops hq hf ht

/-- **A positive answer means a transport**: for every command there are as many positive answers
as transports. -/
theorem C82_confirmed (ops : List Op) (c : Nat) :
    confirmed (Dev.run {} ops) c = transports (Dev.run {} ops) c :=
  run_conf (s := {}) (fun _ => rfl) ops c

/-! ## Which socket -/

/-- **A transport is only made on a socket where the connection was agreed**: on the server side a
request for this connection id came on the socket and was accepted; on the client side the socket
was connected for this id and the server accepted. -/
theorem C82_agreed (ops : List Op) (m : Made) (hm : m ∈ (Dev.run {} ops).made) :
    (∃ tm addr, Op.request m.id tm addr m.cmd true ∈ ops) ∧
    ((Asked ops m.addon m.key ∧ (m.addon, true) ∈ (Dev.run {} ops).sends) ∨
      (Op.clientUp m.key m.addon ∈ ops ∧
        ∃ msg ok, Op.recv m.addon msg ok ∈ ops ∧ isAccepted msg = true)) :=
  (run_expl (expl_init ops) ops (fun _ h => h)).made m hm

/-- **The socket belongs to the request** which gets it, as long as `new` does not use an address
again.

Partial: the code compares only the address of the record (`fConnRecs.has_ptr`), see
`C82_reuse_counterexample`. -/
theorem C82_right_socket_partial (ops : List Op) (hn : (addresses ops).Nodup) (m : Made)
    (hm : m ∈ (Dev.run {} ops).made) : m.id = m.key :=
  (run_match init_keys match_init ops (by simpa using hn)).made m hm

/-- **A socket may go to another request**: the record of connection `[1]` ends by time-out while
its socket answers; a new record for connection `[2]` at the same address gets this socket and is
confirmed. -/
theorem C82_reuse_counterexample (msg : List Byte) (h : AsksFor msg [1]) :
    let ops := [Op.request [1] 1000 7 100 true, .incoming 5, .recv 5 msg true, .timeout 1500,
      .request [2] 1000 7 101 true, .sent 5 true]
    Alloc {} ops ∧ Forward ops ∧ (Dev.run {} ops).made = [⟨101, [2], 5, [1]⟩] ∧
      (Dev.run {} ops).replies = [(100, false), (101, true)] ∧ (Dev.run {} ops).bad = false := by
  intro ops
  obtain ⟨r, h1, h0, h2⟩ := h
  have hc : cstr (msg.drop 4) = some [1] := by rw [h1]; exact cstr_append h0 r
  have e3 : (Dev.run {} [Op.request [1] 1000 7 100 true, .incoming 5, .recv 5 msg true]) =
      { recs := [(7, ⟨[1], 1200, 100⟩)], protos := [(5, ⟨some 7, .answer, [1]⟩)], list := [],
        replies := [], sends := [(5, true)], made := [], bad := false } := by
    simp only [Dev.run, Dev.step, Dev.rec?, Dev.proto?, List.find?_nil, List.nil_append, if_true,
      Option.map_none, Option.isSome_none, Bool.false_eq_true, if_false, List.find?_cons, beq_self_eq_true,
      Option.map_some, Dev.serverRequest, h2, hc, headerConnect, ne_eq, not_true_eq_false, Dev.find,
      Dev.setProto, List.map_cons, List.map_nil, List.erase_cons_head, extraTm]
    rfl
  have e : Dev.run {} ops = Dev.run
      { recs := [(7, ⟨[1], 1200, 100⟩)], protos := [(5, ⟨some 7, .answer, [1]⟩)], list := [],
        replies := [], sends := [(5, true)], made := [], bad := false }
      [.timeout 1500, .request [2] 1000 7 101 true, .sent 5 true] := by
    rw [← e3]; rfl
  have ha : Alloc (Dev.run {} [Op.request [1] 1000 7 100 true, .incoming 5, .recv 5 msg true])
      [.timeout 1500, .request [2] 1000 7 101 true, .sent 5 true] := by
    rw [e3]
    refine ⟨trivial, ?_, trivial, trivial⟩
    decide
  refine ⟨⟨?_, trivial, trivial, ha⟩, ?_, ?_, ?_, ?_⟩
  · intro r hr; simp at hr
  · intro d hd
    simp [ops] at hd
    omega
  · rw [e]; decide
  · rw [e]; decide
  · rw [e]; decide

/-- **Two requests with the same connection id**: with both ends of a connection in one device the
client's socket is given to the server's request, and the client's request is not served. -/
theorem C82_same_id_counterexample :
    let ops := [Op.request [1] 1000 7 100 true, .request [1] 1000 8 101 true, .clientUp [1] 5,
      .recv 5 (serverMsg [] true) true]
    Alloc {} ops ∧ (Dev.run {} ops).made = [⟨100, [1], 5, [1]⟩] ∧ waits (Dev.run {} ops) 101 = 1 := by
  refine ⟨⟨?_, ?_, trivial, trivial, trivial⟩, ?_, ?_⟩ <;> decide

/-! ## The messages -/

/-- **What the server answers**: a request is accepted if and only if it has the header and the id
of a record which waits. -/
theorem C82_accepts (s : Dev) (a : Nat) (msg : List Byte) (ok : Bool) (p : Proto)
    (hp : s.proto? a = some p) (hw : p.phase = .wait) :
    ∃ acc, (s.step (.recv a msg ok)).sends = s.sends ++ [(a, acc)] ∧
      (acc = true ↔ ∃ id, AsksFor msg id ∧ ∃ x ∈ s.recs, x.2.id = id) := by
  have e : s.step (.recv a msg ok) = s.serverRequest a msg := by
    simp only [Dev.step, hp, hw]
  rw [e]
  by_cases h : ∃ id, AsksFor msg id ∧ ∃ x ∈ s.recs, x.2.id = id
  · refine ⟨true, ?_, fun _ => h, fun _ => rfl⟩
    obtain ⟨id, ⟨r, h1, h0, h2⟩, x, hx, hid⟩ := h
    have hc : cstr (msg.drop 4) = some id := by rw [h1]; exact cstr_append h0 r
    have hh : ¬ dec (msg.take 4) ≠ headerConnect := fun h' => h' h2
    unfold Dev.serverRequest
    rw [if_neg hh, hc]
    dsimp only
    cases hf : s.find id with
    | none => exact absurd hid (find_none hf x hx)
    | some pr => rfl
  · rcases serverRequest_cases s a msg with ⟨id, pr, h1, h2, _⟩ | ⟨b, he, _⟩
    · exact absurd ⟨id, h1, pr, (find_some h2).1, (find_some h2).2⟩ h
    · exact ⟨false, by rw [he], fun h' => by simp at h', fun h' => absurd h' h⟩

/-- **The request of a client is understood** when its id has at most 94 bytes and no zero byte,
whatever the byte is which the code leaves unset. -/
theorem C82_request (id : Id) (h0 : (0 : Byte) ∉ id) (hl : id.length ≤ 94) (junk : Byte) :
    (clientMsg junk id).length = 100 ∧ ∀ id', AsksFor (clientMsg junk id) id' ↔ id' = id := by
  refine ⟨clientMsg_length junk id, fun id' => ?_⟩
  have hc := clientMsg_cstr h0 hl junk
  constructor
  · rintro ⟨r, h1, h2, _⟩
    rw [h1, cstr_append h2 r] at hc
    exact Option.some.inj hc
  · rintro rfl
    obtain ⟨_, r, hr⟩ := cstr_some hc
    exact ⟨r, hr, h0, by rw [clientMsg_take]; exact header_dec⟩

/-- **A long id is never understood**: with 96 bytes or more the request asks for another
connection or for none. -/
theorem C82_long_id_counterexample (id : Id) (h0 : (0 : Byte) ∉ id) (hl : 96 ≤ id.length) (junk : Byte) :
    ¬ AsksFor (clientMsg junk id) id := by
  rintro ⟨r, h1, h2, _⟩
  refine clientMsg_long h0 hl junk ?_
  rw [h1]
  exact cstr_append h2 r

/-- **The client understands the answer**, whatever the rest of the buffer contains. -/
theorem C82_answer (junk : List Byte) (acc : Bool) : isAccepted (serverMsg junk acc) = acc :=
  isAccepted_server junk acc

/-- **Nothing else is taken for an agreement**: exactly the text `accepted`. -/
theorem C82_only_accepted (msg : List Byte) :
    isAccepted msg = true ↔ ∃ rest, msg = text "accepted" ++ 0 :: rest := by
  have ht : text "accepted" = txtAccepted := by decide +kernel
  rw [ht, isAccepted, beq_iff_eq]
  constructor
  · intro h
    refine ⟨msg.drop 9, ?_⟩
    have := List.take_append_drop 9 msg
    rw [h, List.append_assoc] at this
    exact this.symm
  · rintro ⟨rest, rfl⟩
    simp [txtAccepted]

/-! ## Both sides together -/

/-- The records of a device apart from one. -/
def without (s : Dev) (p : Nat) : List (Nat × Rec) := s.recs.filter fun x => x.1 != p

/-- **Both sides get a transport**: client and server know the connection, the client connects, the
messages arrive.  Other connections are not touched. -/
theorem C82_handshake (cl sv : Dev) (hkc : Keys cl) (hks : Keys sv) (id : Id) (h0 : (0 : Byte) ∉ id)
    (hl : id.length ≤ 94) (junk : Byte) (junk' : List Byte) (pc ps : Nat) (rc rs : Rec)
    (hc : cl.find id = some (pc, rc)) (hs : sv.find id = some (ps, rs)) (a b : Nat)
    (ha : cl.proto? a = none) (hb : sv.proto? b = none) :
    let sv' := sv.run [.incoming b, .recv b (clientMsg junk id) true]
    let sv'' := sv'.step (.sent b true)
    let cl' := cl.run [.clientUp id a, .recv a (serverMsg junk' true) true]
    sv'.sends = sv.sends ++ [(b, true)] ∧
      sv''.made = sv.made ++ [⟨rs.cmd, id, b, id⟩] ∧ sv''.replies = sv.replies ++ [(rs.cmd, true)] ∧
      sv''.recs = without sv ps ∧
      cl'.made = cl.made ++ [⟨rc.cmd, id, a, id⟩] ∧ cl'.replies = cl.replies ++ [(rc.cmd, true)] ∧
      cl'.recs = without cl pc := by
  intro sv' sv'' cl'
  obtain ⟨hmc, hic⟩ := find_some hc
  obtain ⟨hms, his⟩ := find_some hs
  simp only at hic his
  have find_new : ∀ (s : Dev) (x : Nat) (p : Proto), s.proto? x = none →
      ({ s with protos := s.protos ++ [(x, p)] } : Dev).proto? x = some p := by
    intro s x p hx
    simp only [Dev.proto?, Option.map_eq_none_iff] at hx
    simp [Dev.proto?, List.find?_append, hx]
  have hcs := clientMsg_cstr h0 hl junk
  have hhd : ¬ dec ((clientMsg junk id).take 4) ≠ headerConnect := by
    rw [clientMsg_take]; exact fun h => h header_dec
  -- the server
  have hsv : sv' = { sv with
      protos := (sv.protos ++ [(b, (⟨none, .wait, []⟩ : Proto))]).map fun q =>
        if q.1 = b then (b, ⟨some ps, .answer, id⟩) else q
      sends := sv.sends ++ [(b, true)]
      list := (sv.list ++ [b]).erase b } := by
    have e1 : sv.step (.incoming b) =
        { sv with protos := sv.protos ++ [(b, ⟨none, .wait, []⟩)], list := sv.list ++ [b] } := by
      simp only [Dev.step, hb, Option.isSome_none, Bool.false_eq_true, if_false]
    have e2 : ({ sv with protos := sv.protos ++ [(b, ⟨none, .wait, []⟩)], list := sv.list ++ [b] } : Dev).proto? b
        = some ⟨none, .wait, []⟩ := find_new { sv with list := sv.list ++ [b] } b _ hb
    have e3 : ({ sv with protos := sv.protos ++ [(b, ⟨none, .wait, []⟩)], list := sv.list ++ [b] } : Dev).find id
        = some (ps, rs) := hs
    show (sv.step (.incoming b)).step (.recv b (clientMsg junk id) true) = _
    rw [e1]
    simp only [Dev.step, e2, Dev.serverRequest, if_neg hhd, hcs, e3]
    rfl
  have hpb : sv'.proto? b = some ⟨some ps, .answer, id⟩ := by
    rw [hsv]
    have h1 : ∀ l : List (Nat × Proto), (∀ q ∈ l, q.1 ≠ b) →
        ((l ++ [(b, (⟨none, .wait, []⟩ : Proto))]).map fun q : Nat × Proto =>
          if q.1 = b then (b, (⟨some ps, .answer, id⟩ : Proto)) else q).find? (·.1 == b) =
          some (b, ⟨some ps, .answer, id⟩) := by
      intro l hl
      induction l with
      | nil => simp
      | cons x l ih =>
        have hx := hl x (by simp)
        rw [List.cons_append, List.map_cons, if_neg hx, List.find?_cons_of_neg (by simpa using hx)]
        exact ih (fun q hq => hl q (List.mem_cons_of_mem _ hq))
    simp only [Dev.proto?, h1 _ (proto?_none hb), Option.map_some]
  have hsr : sv'.rec? ps = some rs := by
    rw [hsv]
    exact rec?_of_mem hks hms
  have h2 : sv''.made = sv'.made ++ [⟨rs.cmd, rs.id, b, id⟩] ∧
      sv''.replies = sv'.replies ++ [(rs.cmd, true)] ∧ sv''.recs = without sv' ps := by
    have e : sv'' = sv'.completed b ⟨some ps, .answer, id⟩ true true := by
      show sv'.step (.sent b true) = _
      simp only [Dev.step, hpb]
    rcases completed_cases sv' b ⟨some ps, .answer, id⟩ true true with ⟨_, h⟩ | ⟨q, r, hq, hr, he⟩
    · rcases h with h | ⟨q, hq, hr⟩
      · simp at h
      · simp only [Option.some.injEq] at hq
        rw [← hq, hsr] at hr
        simp at hr
    · simp only [Option.some.injEq] at hq
      rw [← hq, hsr] at hr
      obtain rfl := Option.some.inj hr
      rw [e, he, hq]
      exact ⟨rfl, rfl, rfl⟩
  -- the client
  have hcl : cl.step (.clientUp id a) = { cl with protos := cl.protos ++ [(a, ⟨some pc, .ask, rc.id⟩)] } := by
    simp only [Dev.step, ha, hc, Option.isSome_none, Bool.false_eq_true, if_false]
  have hpa := find_new cl a ⟨some pc, .ask, rc.id⟩ ha
  have hcr : ({ cl with protos := cl.protos ++ [(a, ⟨some pc, .ask, rc.id⟩)] } : Dev).rec? pc = some rc :=
    rec?_of_mem hkc hmc
  have h3 : cl'.made = cl.made ++ [⟨rc.cmd, rc.id, a, rc.id⟩] ∧
      cl'.replies = cl.replies ++ [(rc.cmd, true)] ∧ cl'.recs = without cl pc := by
    have e : cl' = ({ cl with protos := cl.protos ++ [(a, ⟨some pc, .ask, rc.id⟩)] } : Dev).completed a
        ⟨some pc, .ask, rc.id⟩ true true := by
      show (cl.step (.clientUp id a)).step (.recv a (serverMsg junk' true) true) = _
      rw [hcl]
      simp only [Dev.step, hpa, isAccepted_server]
    rcases completed_cases { cl with protos := cl.protos ++ [(a, ⟨some pc, .ask, rc.id⟩)] } a
      ⟨some pc, .ask, rc.id⟩ true true with ⟨_, h⟩ | ⟨q, r, hq, hr, he⟩
    · rcases h with h | ⟨q, hq, hr⟩
      · simp at h
      · simp only [Option.some.injEq] at hq
        rw [← hq, hcr] at hr
        simp at hr
    · simp only [Option.some.injEq] at hq
      rw [← hq, hcr] at hr
      obtain rfl := Option.some.inj hr
      rw [e, he, hq]
      exact ⟨rfl, rfl, rfl⟩
  rw [his] at h2
  rw [hic] at h3
  obtain ⟨h21, h22, h23⟩ := h2
  obtain ⟨h31, h32, h33⟩ := h3
  refine ⟨by rw [hsv], ?_, ?_, ?_, h31, h32, h33⟩
  · rw [h21, hsv]
  · rw [h22, hsv]
  · rw [h23, hsv]; rfl

/-- **A denied client gets no transport**: any answer other than `accepted` ends the request with
the result `false`. -/
theorem C82_denied (s : Dev) (a : Nat) (msg : List Byte) (ok : Bool) (q : Nat) (key : Id) (r : Rec)
    (hp : s.proto? a = some ⟨some q, .ask, key⟩) (hr : s.rec? q = some r) (hm : isAccepted msg = false) :
    (s.step (.recv a msg ok)).made = s.made ∧
      (s.step (.recv a msg ok)).replies = s.replies ++ [(r.cmd, false)] ∧
      (s.step (.recv a msg ok)).recs = without s q := by
  have e : s.step (.recv a msg ok) = s.completed a ⟨some q, .ask, key⟩ false ok := by
    simp only [Dev.step, hp, hm]
  rw [e]
  rcases completed_cases s a ⟨some q, .ask, key⟩ false ok with ⟨_, h⟩ | ⟨q', r', hq, hr', he⟩
  · rcases h with h | ⟨q', hq, hr'⟩
    · simp at h
    · simp only [Option.some.injEq] at hq
      rw [← hq, hr] at hr'
      simp at hr'
  · simp only [Option.some.injEq] at hq
    rw [← hq, hr] at hr'
    obtain rfl := Option.some.inj hr'
    rw [he, hq]
    exact ⟨rfl, rfl, rfl⟩

/-! ## Memory -/

/-- **No deleted record is used** as long as no socket fails and all requests which come from the
network contain a zero byte.

Partial: see `C82_freed_counterexample` and `C82_overrun_counterexample` for the other cases. -/
theorem C82_memory_partial (ops : List Op) (hs : ∀ o ∈ ops, Safe o) : (Dev.run {} ops).bad = false :=
  run_bad (s := {}) rfl ops hs

/-- **A deleted record is used**: the server does not answer, the request of the client ends by
time-out, afterwards the socket is closed: `FinishWork` writes into the deleted record, replies its
command again and deletes it again. -/
theorem C82_freed_counterexample (id : Id) (tm : Int) (addr c a : Nat) (d : Int) (h1 : tm + 200 < d)
    (h2 : 0 ≤ d) :
    let ops := [Op.request id tm addr c true, .clientUp id a, .timeout d, .err a]
    Alloc {} ops ∧ Forward ops ∧ (Dev.run {} ops).bad = true := by
  intro ops
  refine ⟨⟨by intro r hr; simp at hr, trivial, trivial, trivial, trivial⟩, ?_, ?_⟩
  · intro d' hd
    simp [ops] at hd
    omega
  · have he : expires d ⟨id, tm + extraTm, c⟩ = true := by
      simp only [expires, Bool.or_eq_true, decide_eq_true_eq]
      left
      show tm + 200 - d < 0
      omega
    simp [ops, Dev.run, Dev.step, Dev.rec?, Dev.proto?, Dev.find, Dev.cleanup, he, Dev.removeProtocol,
      Dev.delProto]

/-- **Memory behind the message is read**: a request without zero byte (96 bytes of the peer) is
compared with the ids of the records beyond the end of the buffer. -/
theorem C82_overrun_counterexample (s : Dev) (a : Nat) (p : Proto) (hp : s.proto? a = some p)
    (hw : p.phase = .wait) (hr : s.recs ≠ []) (rest : List Byte) (h0 : (0 : Byte) ∉ rest) (ok : Bool) :
    (s.step (.recv a (enc 4 headerConnect ++ rest) ok)).bad = true := by
  have e1 : (enc 4 headerConnect ++ rest).take 4 = enc 4 headerConnect := by
    rw [List.take_append_of_le_length (by simp)]
    exact List.take_of_length_le (by simp)
  have e2 : (enc 4 headerConnect ++ rest).drop 4 = rest := by
    rw [List.drop_append_of_le_length (by simp), List.drop_of_length_le (by simp)]
    rfl
  have hh : ¬ dec ((enc 4 headerConnect ++ rest).take 4) ≠ headerConnect := by
    rw [e1]; exact fun h => h header_dec
  simp only [Dev.step, hp, hw, Dev.serverRequest, if_neg hh, e2, cstr_none.mpr h0]
  cases hrs : s.recs with
  | nil => exact absurd hrs hr
  | cons x l => simp

/-- **The list of protocol addons holds only living addons** as long as no socket comes from the
command channel.

Partial: see `C82_dangling_counterexample`. -/
theorem C82_list_partial (ops : List Op) (hd : ∀ o ∈ ops, Direct o) (a : Nat)
    (ha : a ∈ (Dev.run {} ops).list) : ∃ p, (a, p) ∈ (Dev.run {} ops).protos :=
  (run_listed listed_init ops hd).live a ha

/-- **A deleted addon stays in the list**: an accepted socket of the command channel is removed from
the list before it is added there, and the addon is deleted when its answer is sent; the destructor
of the device destroys all addons of the list. -/
theorem C82_dangling_counterexample (id : Id) (tm : Int) (addr c a : Nat) (msg : List Byte)
    (h : AsksFor msg id) :
    let s := Dev.run {} [.request id tm addr c true, .redirect a msg, .sent a true]
    a ∈ s.list ∧ s.protos = [] ∧ s.replies = [(c, true)] := by
  obtain ⟨r, h1, h0, h2⟩ := h
  have hc : cstr (msg.drop 4) = some id := by rw [h1]; exact cstr_append h0 r
  simp [Dev.run, Dev.step, Dev.rec?, Dev.proto?, Dev.find, Dev.serverRequest, h2, hc, headerConnect,
    Dev.setProto, Dev.completed, Dev.removeProtocol, Dev.destroy, Dev.delProto]

/-! ## Examples -/

example : Alloc {} [.request [1] 0 7 100 true, .timeout 150, .timeout 150] ∧
    answered (Dev.run {} [.request [1] 0 7 100 true, .timeout 150]) 100 = 0 ∧
    answered (Dev.run {} [.request [1] 0 7 100 true, .timeout 150, .timeout 150]) 100 = 1 := by
  refine ⟨⟨by intro r hr; simp at hr, trivial, trivial, trivial⟩, by decide, by decide⟩

example : (addresses [.request [1] 0 7 100 true, .request [2] 0 8 101 true]).Nodup ∧
    Forward [.timeout 3] := by
  refine ⟨by decide, ?_⟩
  intro d hd
  simp at hd
  omega

example : AsksFor (clientMsg 9 [65, 66]) [65, 66] :=
  ((C82_request [65, 66] (by decide) (by decide) 9).2 _).mpr rfl

/-- A complete exchange. -/
example :
    let cl := Dev.run {} [.request [65] 1000 1 10 true]
    let sv := Dev.run {} [.request [65] 1000 1 20 true]
    Keys cl ∧ Keys sv ∧ cl.find [65] = some (1, ⟨[65], 1200, 10⟩) ∧ sv.find [65] = some (1, ⟨[65], 1200, 20⟩) ∧
      cl.proto? 3 = none ∧ (0 : Byte) ∉ ([65] : List Byte) := by
  refine ⟨by unfold Keys; decide, by unfold Keys; decide, by decide, by decide, by decide, by decide⟩

/-- An addon which waits, in a device with a record. -/
example :
    let s := Dev.run {} [.request [65] 1000 1 20 true, .incoming 4]
    s.proto? 4 = some ⟨none, .wait, []⟩ ∧ s.recs ≠ [] ∧ (0 : Byte) ∉ List.replicate 96 (1 : Byte) := by
  decide

/-- A client which waits for the answer. -/
example :
    let s := Dev.run {} [.request [65] 1000 1 20 true, .clientUp [65] 4]
    s.proto? 4 = some ⟨some 1, .ask, [65]⟩ ∧ s.rec? 1 = some ⟨[65], 1200, 20⟩ ∧
      isAccepted (serverMsg [] false) = false := by
  decide

example : ∀ o ∈ [Op.request [65] 1000 1 20 true, .incoming 4, .recv 4 [0, 0, 0, 0, 0] true, .timeout 5000],
    Safe o ∧ Direct o := by
  intro o ho
  simp only [List.mem_cons, List.not_mem_nil, or_false] at ho
  rcases ho with rfl | rfl | rfl | rfl
  · exact ⟨trivial, trivial⟩
  · exact ⟨trivial, trivial⟩
  · exact ⟨by unfold Safe Terminated; decide, trivial⟩
  · exact ⟨trivial, trivial⟩

example : ∀ o ∈ [Op.request [65] 1000 1 20 true, .timeout 5], Quiet o := by
  intro o ho
  simp only [List.mem_cons, List.not_mem_nil, or_false] at ho
  rcases ho with rfl | rfl <;> trivial

end Verif.SockDevice
