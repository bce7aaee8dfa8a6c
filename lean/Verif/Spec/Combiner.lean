import Verif.Combiner
import Verif.Spec.Trig

/-! # Specification of the HADAQ event builder: what becomes of every item -/

namespace Verif.Combiner

open Verif.Trig

/-- The item carries the trigger number `n`: bits 8 and higher of the trigger word, cut to the range. TRB2 modules repeat the high
bytes of the number when the low two bytes overflow (0x2bffff is followed by 0x2b0000), then the number is one overflow ahead. -/
def Carries (c : Cfg) (it : Item) (n : Word) : Prop :=
  let w := (it.trig >>> 8) &&& c.mask
  w = n ∨ (c.recv = false ∧ c.mask > 0x100000 ∧ w &&& 0xffff = 0 ∧ n = (w + 0x10000) &&& c.mask)

/-- Items of buffers. -/
def itemsOf (l : List Buf) : List Item := (l.map fun b => match b with | .items l => l | .other => []).flatten

/-- Items an input has not used: the current one, the rest of the buffer, the queue. -/
def unused (i : Inp) : List Item := (i.cur.map Cur.item).toList ++ i.rest ++ itemsOf i.queue

/-- What became of an item. -/
inductive Mark where
  /-- it is part of an event -/
  | built
  /-- it was thrown away and counted -/
  | dropped
  /-- it was thrown away by a drop of all input buffers, and not counted -/
  | flushed
  deriving DecidableEq

def having (m : Mark) (A : List (Mark × Item)) : List Item := (A.filter fun x => decide (x.1 = m)).map Prod.snd

/-- All events made. -/
def events (st : St) : List Ev := (st.sent.map Prod.snd).flatten ++ (match st.out with | none => [] | some o => o.2)

/-- Items which are put in the event. -/
def kept (c : Cfg) (l : List Item) : List Item := l.filter fun it => !(it.empty && c.skipEmpty)

/-- Id of an event made of these items: the first trigger type which is not zero, with the type of the event in bit 13. -/
def headId (l : List Item) : Word := ((l.map Item.typ).find? fun t => decide (t ≠ 0)).getD 0 ||| 0x2000

/-- Number a BNET sender gives to an event: trigger number and tag of the first input. -/
def headSeq (col : Word × List Item) : Word :=
  let tag : Word := (col.2.head?.map Item.trig).getD 0
  (col.1 <<< (8 : Nat)) ||| (tag &&& (0xff : Word))

/-- The marks `A` of the items one input used; `arr` are the items which arrived. -/
structure InpLedger (c : Cfg) (arr : List Item) (i : Inp) (A : List (Mark × Item)) : Prop where
  /-- every item is used once, in the order of arrival, or still there -/
  all : arr = A.map Prod.snd ++ unused i
  current : ∀ k, i.cur = some k → Carries c k.item k.nr
  dropped : i.dropped = (having .dropped A).length

/-- `cols` has for every event its trigger number and one item of every input, `As n` the marks of the items used by input `n`,
`arr n` the items which arrived there. -/
structure Ledger (c : Cfg) (arr : Nat → List Item) (st : St) (cols : List (Word × List Item)) (As : Nat → List (Mark × Item)) : Prop where
  input : ∀ n i, st.inps[n]? = some i → InpLedger c (arr n) i (As n)
  /-- every event has one item of every input, all with one trigger number -/
  whole : ∀ col ∈ cols, col.2.length = st.inps.length ∧ ∀ it ∈ col.2, Carries c it col.1
  /-- the items marked as built are those in the events, in the same order -/
  built : ∀ n, n < st.inps.length → (having .built (As n)).map some = cols.map fun col => col.2[n]?
  /-- the events made -/
  made : (events st).map Ev.items = cols.map fun col => kept c col.2
  /-- with the check of tags all items in the event have the tag of the first input -/
  tags : c.checkTag = true → ∀ col ∈ cols, ∀ m, col.2.head? = some m → ∀ it ∈ kept c col.2, it.trig &&& 0xff = m.trig &&& 0xff
  /-- items are thrown away without counting only when all input buffers are dropped -/
  flushed : st.fullDrops = 0 → ∀ n, n < st.inps.length → having .flushed (As n) = []
  counted : st.runBuild = (events st).length
  bytes : st.recvBytes = used (events st)
  room : ∀ cap evs, st.out = some (cap, evs) → used evs ≤ cap
  /-- the events carry the first trigger type of their items -/
  types : (events st).map Ev.id = cols.map fun col => headId col.2
  /-- events are numbered 1, 2, 3, … (modulo 2^32) -/
  numbers : c.send = false → ∀ (n : Nat) e, (events st)[n]? = some e → e.seq = BitVec.ofNat 32 (n + 1)
  /-- a BNET sender gives them the trigger number and the tag of the first input -/
  bnet : c.send = true → (events st).map Ev.seq = cols.map headSeq

/-- Items which arrive at input `n`. -/
def arrivals (n : Nat) (ops : List Op) : List Item :=
  itemsOf (ops.filterMap fun o => match o with | .arrive k b => if k = n then some b else none | _ => none)

/-! ## No complete event is lost -/

/-- `b` is ahead of `a`, by less than half of the circle of `R` numbers. -/
def Ahead (R a b : Word) : Prop :=
  a.toNat < R.toNat ∧ b.toNat < R.toNat ∧ 0 < steps R.toNat a.toNat b.toNat ∧ 2 * steps R.toNat a.toNat b.toNat < R.toNat

/-- Items with the trigger numbers they get. -/
def numbered (c : Cfg) : Word → List Item → List (Item × Word)
  | _, [] => []
  | last, it :: l => (it, number c last it) :: numbered c (number c last it) l

/-- The unused items of an input with their trigger numbers. -/
def labelled (c : Cfg) (i : Inp) : List (Item × Word) :=
  (i.cur.map fun k => (k.item, k.nr)).toList ++ numbered c i.last (i.rest ++ itemsOf i.queue)

/-- All inputs have an item with number `n` (and tag `t`), their numbers go up, items are not larger than `m` bytes; a buffer which waits for more events has one. -/
structure Ready (c : Cfg) (n t : Word) (m : Nat) (st : St) : Prop where
  inputs : st.inps ≠ []
  has : ∀ i ∈ st.inps, ∃ it, (it, n) ∈ labelled c i
  ordered : ∀ i ∈ st.inps, (labelled c i).Pairwise fun a b => Ahead c.range a.2 b.2
  small : ∀ i ∈ st.inps, ∀ x ∈ labelled c i, x.1.size ≤ m
  tags : c.checkTag = true → ∀ i ∈ st.inps, ∀ x ∈ labelled c i, x.2 = n → x.1.trig &&& 0xff = t
  open_ : ∀ cap evs, st.out = some (cap, evs) → evs ≠ []

/-- No timeouts, outputs accept buffers, the pool has buffers of sufficient size. -/
structure Good (need : Nat) (env : Env) : Prop where
  time : env.dropTm = false
  send : ∀ d, env.canSend d = true
  pool : ∃ cap, env.pool = some cap ∧ 48 ≤ cap ∧ 32 + need ≤ cap

/-- How many items and buffers wait. -/
def waiting (st : St) : Nat := (st.inps.map fun i => (unused i).length + i.queue.length).sum

end Verif.Combiner
