import Verif.Trig

/-!
# Model of the HADAQ event builder, plugins/hadaq/src/CombinerModule.cxx

An input delivers buffers; what the read iterator (`Verif.HadIter`) finds in a buffer is a list of items: subevents, or, when
the module is a BNET receiver (`recv`), events made by other combiners. Of an item the model keeps what the combiner looks at.

* The output buffer is seen as the list of events in it and its size; `IsPlaceForEvent` compares sizes (see `Verif.HadIter.isPlace` and
  C32 for the bytes, and for what happens when an event fills a buffer exactly).
* Answers of clocks, outputs and the memory pool are inputs (`Env`) of a call.
* Resorting of inputs (`fResort`, off by default) is left out. Counters do not overflow. Log output, rates and the other statistics are
  left out.
* `none` stands for a loop which does not end.
-/

namespace Verif.Combiner

open Verif.Trig

/-- What the combiner sees of a subevent (event, for a BNET receiver). -/
structure Item where
  /-- `GetTrigNr()` (`GetSeqNr()`) -/
  trig : Word
  /-- `GetPaddedSize()` (`AllSubeventsSize()`) -/
  size : Nat
  /-- `GetSize() <= 16` (`AllSubeventsSize() == 0`) -/
  empty : Bool
  /-- `GetDataError()` -/
  err : Bool
  /-- the trigger type -/
  typ : Word
  /-- the bytes -/
  data : Nat
  deriving DecidableEq

/-- A buffer; `other` stands for the EOF buffer and for buffers the iterator refuses. -/
inductive Buf where
  | items (l : List Item)
  | other
  deriving DecidableEq

structure Cfg where
  /-- `fMaxHadaqTrigger` -/
  range : Word
  recv : Bool
  send : Bool
  checkTag : Bool
  skipEmpty : Bool
  /-- `fTriggerNrTolerance` -/
  tolerance : Int
  /-- `fEventBuildTimeout > 0` -/
  timeout : Bool
  /-- `fBNETbunch` -/
  bunch : Nat
  /-- `NumOutputs()` -/
  nout : Nat

/-- `fTriggerRangeMask`. -/
def Cfg.mask (c : Cfg) : Word := c.range - 1

/-- The current item of an input and its trigger number `fTrigNr`. -/
structure Cur where
  item : Item
  nr : Word
  deriving DecidableEq

/-- `fTrigTag`, lines 648, 749. -/
def Cur.tag (k : Cur) : Word := k.item.trig &&& 0xff

/-- `InputCfg`, CombinerModule.h:55-126. -/
structure Inp where
  /-- items behind the current one in the buffer of the iterator -/
  rest : List Item
  /-- buffers waiting in the input queue -/
  queue : List Buf
  /-- `has_data` with the current item -/
  cur : Option Cur
  /-- `fLastTrigNr` -/
  last : Word
  /-- `fLostTrig` -/
  lost : Nat
  /-- `fDroppedTrig` -/
  dropped : Nat
  deriving DecidableEq

/-- The trigger number given to an item, lines 647 and 748-762: with the repair for TRB2 numbers. -/
def number (c : Cfg) (last : Word) (it : Item) : Word :=
  let nr := (it.trig >>> 8) &&& c.mask
  if !c.recv && decide (nr &&& 0xffff = 0) && decide (c.mask > 0x100000) && decide (last ≠ 0xffffffff) &&
      decide (last &&& 0xffff = 0xffff) && decide (nr &&& 0xffff0000 = last &&& 0xffff0000) then
    (last + 1) &&& c.mask
  else nr

/-- `iter.NextSubEvent()` with `ShiftToNextHadTu` and `ShiftToNextBuffer`, lines 557-609, 697-722 (`NextEvent`, lines 632-634): the next
item, what remains of the buffer and of the queue. A buffer without items is skipped, one the iterator cannot use ends the search. -/
def next : List Item → List Buf → Option Item × List Item × List Buf
  | s :: r, q => (some s, r, q)
  | [], [] => (none, [], [])
  | [], .other :: q => (none, [], q)
  | [], .items l :: q => next l q
termination_by _ q => q.length

/-- `ShiftToNextSubEvent`, lines 667-806, and `ShiftToNextEvent`, lines 620-664. -/
def shift (c : Cfg) (fast dropped : Bool) (i : Inp) : Inp × Bool :=
  let i := { i with dropped := if dropped && i.cur.isSome then i.dropped + 1 else i.dropped, cur := none, last := if fast then 0xffffffff else i.last }
  match next i.rest i.queue with
  | (none, r, q) => ({ i with rest := r, queue := q }, false)
  | (some s, r, q) =>
    if fast then ({ i with rest := r, queue := q }, true)
    else
      let nr := number c i.last s
      let d : Int := if c.recv || decide (i.last = (0xffffffff : Word)) then 1 else diff c.range i.last nr
      ({ i with rest := r, queue := q, cur := some ⟨s, nr⟩, last := nr, lost := i.lost + (d - 1).toNat }, true)

/-- An event in an output buffer: sequence number, id and the items copied into it. -/
structure Ev where
  seq : Word
  id : Word
  items : List Item
  deriving DecidableEq

structure St where
  inps : List Inp
  /-- `fOut`: size of the buffer and the events in it -/
  out : Option (Nat × List Ev)
  /-- `fLastTrigNr` -/
  last : Word
  /-- buffers sent, with the number of the output, `none` for all outputs -/
  sent : List (Option Nat × List Ev)
  runBuild : Nat
  discEvents : Nat
  droppedData : Nat
  recvBytes : Nat
  tagErrors : Nat
  dataErrors : Nat
  fullDrops : Nat

/-- Answers of the surrounding. -/
structure Env where
  /-- `fLastDropTm.Expired(…)` -/
  dropTm : Bool
  /-- `fLastBuildTm.Expired(fEventBuildTimeout)` -/
  buildTm : Bool
  /-- `CanSend(n)`, `CanSendToAllOutputs()` for `none` -/
  canSend : Option Nat → Bool
  /-- size of the buffer `TakeBuffer()` gives -/
  pool : Option Nat

/-- `DestinationPort`, lines 839-844. -/
def destination (c : Cfg) (nr : Word) : Option Nat :=
  if !c.send || decide (c.nout < 2) then none else some ((nr.toNat / c.bunch) % c.nout)

/-- `CheckDestination`, lines 846-851. -/
def checkDestination (c : Cfg) (st : St) (nr : Word) : Bool :=
  if !c.send || decide (st.last = 0xffffffff) then true else decide (destination c st.last = destination c nr)

/-- Bytes used by events. -/
def used (evs : List Ev) : Nat := (evs.map fun e => 32 + (e.items.map Item.size).sum).sum

/-- `FlushOutputBuffer`, lines 326-352. -/
def flush (c : Cfg) (env : Env) (st : St) : St × Bool :=
  match st.out with
  | none => (st, false)
  | some (_, evs) =>
    if evs = [] then (st, false)
    else if env.canSend (destination c st.last) then
      ({ st with out := none, sent := st.sent ++ [(destination c st.last, evs)] }, true)
    else (st, false)

/-- Result of the first loop over the inputs, lines 895-928. -/
structure Acc where
  any : Bool
  minid : Word
  maxid : Word
  build : Word
  incomplete : Bool

/-- Lines 897-927. -/
def collect (c : Cfg) (a : Acc) : Option Cur → Acc
  | none => { a with incomplete := true }
  | some k =>
    if !a.any then { a with any := true, minid := k.nr, maxid := k.nr, build := k.nr }
    else { a with maxid := if diff c.range k.nr a.maxid < 0 then k.nr else a.maxid, minid := if diff c.range a.minid k.nr < 0 then k.nr else a.minid }

/-- Lines 895-928. -/
def gather (c : Cfg) : List Inp → Acc → List Inp × Acc
  | [], a => ([], a)
  | i :: is, a =>
    let r := if i.cur.isSome then (i, true) else shift c false false i
    let q := gather c is (collect c a r.1.cur)
    (r.1 :: q.1, q.2)

/-- Items an input still has. -/
def left (i : Inp) : Nat := i.rest.length + (i.queue.map fun b => match b with | .items l => l.length | .other => 0).sum

/-- Outcome of the search in one input. -/
inductive Found where
  | found
  | bigger
  | nodata
  deriving DecidableEq

/-- The loop over one input, lines 995-1051; also the number of dropped bytes. -/
def align1 (c : Cfg) (build : Word) : Nat → Inp → Nat → Option (Inp × Found × Nat)
  | 0, _, _ => none
  | n + 1, i, bytes =>
    match i.cur with
    | none => some (i, .nodata, bytes)
    | some k =>
      if k.nr = build then some (i, .found, bytes)
      else if diff c.range k.nr build > 0 then
        let r := shift c false true i
        if r.2 then align1 c build n r.1 (bytes + k.item.size) else some (r.1, .nodata, bytes + k.item.size)
      else some (i, .bigger, bytes)

/-- What the second loop finds out. -/
structure Sum where
  size : Nat
  tagError : Bool
  dataError : Bool
  complete : Bool
  dropped : Nat

/-- Lines 1001-1008: an input has the number. -/
def addItem (c : Cfg) (tag : Word) (s : Sum) : Option Cur → Sum
  | none => s
  | some k =>
    if !k.item.empty || !c.skipEmpty then
      { s with tagError := s.tagError || decide (k.tag ≠ tag), dataError := s.dataError || k.item.err, size := s.size + k.item.size }
    else s

/-- The second loop, lines 994-1052; the flag tells that the function does not return in it. -/
def align (c : Cfg) (build tag : Word) : List Inp → Sum → Option (List Inp × Sum × Bool)
  | [], s => some ([], s, true)
  | i :: is, s =>
    match align1 c build (left i + 1) i 0 with
    | none => none
    | some (i, .nodata, b) => some (i :: is, { s with dropped := s.dropped + b }, false)
    | some (i, .bigger, b) => (align c build tag is { s with complete := false, dropped := s.dropped + b }).map fun q => (i :: q.1, q.2)
    | some (i, .found, b) =>
      let s := addItem c tag s i.cur
      (align c build tag is { s with dropped := s.dropped + b }).map fun q => (i :: q.1, q.2)

/-- `DropAllInputBuffers` for one input, lines 816-828: the number of counted items (at most one, the others have no `has_data`), the counted
bytes; everything else is thrown away. -/
def dropInput (c : Cfg) (i : Inp) : Inp × Nat × Nat :=
  let n := if i.cur.isSome then 1 else 0
  let b := match i.cur with | none => 0 | some k => k.item.size
  let j := (shift c true true i).1
  ({ j with rest := [], queue := [], cur := none }, n, b)

/-- `DropAllInputBuffers`, lines 808-837. -/
def dropAll (c : Cfg) (st : St) : St :=
  let r := st.inps.map (dropInput c)
  let n := (r.map fun x => x.2.1).foldl max 0
  { st with inps := r.map fun x => x.1, discEvents := st.discEvents + n, droppedData := st.droppedData + (r.map fun x => x.2.2).sum, fullDrops := st.fullDrops + 1 }

/-- Trigger type of the event, lines 1132-1136: the first one which is not zero. -/
def trigType : List Inp → Word
  | [] => 0
  | i :: is => match i.cur with
    | none => trigType is
    | some k => if k.item.typ ≠ 0 then k.item.typ else trigType is

/-- Items put in the event, lines 1148-1155. -/
def chosen (c : Cfg) (inps : List Inp) : List Item :=
  inps.filterMap fun i => match i.cur with
    | none => none
    | some k => if k.item.empty && c.skipEmpty then none else some k.item

/-- Id of the event: `SetDataError` (line 1127) changes the most significant bit of the id, `SetId` (line 1143) then overwrites the id. -/
def eventId (inps : List Inp) (dataError tagError : Bool) : Word :=
  let id : Word := 0x2001
  let id := if dataError || tagError then id ||| 0x80000000 else id &&& ~~~0x80000000
  let _ := id
  trigType inps ||| (2 <<< 12)

/-- Lines 1075-1088: send the buffer when the event has no place in it or has another destination. -/
def makeRoom (c : Cfg) (env : Env) (st : St) (size : Nat) (build : Word) : St × Bool :=
  match st.out with
  | none => (st, true)
  | some (cap, evs) => if decide (cap - used evs < 32 + size) || !checkDestination c st build then flush c env st else (st, true)

/-- Lines 1074-1116: make sure there is a buffer with place for the event. The first flag is `false` when `BuildEvent` returns `false`, the second one tells
whether there is place. -/
def prepare (c : Cfg) (env : Env) (st : St) (size : Nat) (build : Word) : St × Bool × Bool :=
  let r := makeRoom c env st size build
  if r.2 = false then (r.1, false, false)
  else
    match r.1.out with
    | some (cap, evs) => (r.1, true, decide (32 + size ≤ cap - used evs))
    | none =>
      match env.pool with
      | none => (r.1, false, false)
      | some cap =>
        if cap < 48 then (r.1, false, false)
        else ({ r.1 with out := some (cap, []) }, true, decide (32 + size ≤ cap))

/-- Lines 1119-1226 for a complete event. -/
def build (c : Cfg) (st : St) (s : Sum) (nr seq : Word) : St :=
  let ev : Ev := { seq := seq, id := eventId st.inps s.dataError s.tagError, items := chosen c st.inps }
  { st with out := st.out.map fun o => (o.1, o.2 ++ [ev]), runBuild := st.runBuild + 1, last := nr, recvBytes := st.recvBytes + (s.size + 32),
            dataErrors := if s.dataError then st.dataErrors + 1 else st.dataErrors, tagErrors := if s.tagError then st.tagErrors + 1 else st.tagErrors }

/-- The last loop, lines 1233-1240. -/
def advance (c : Cfg) (nr : Word) (complete : Bool) (inps : List Inp) : List Inp :=
  inps.map fun i => match i.cur with
    | none => i
    | some k => if k.nr = nr then (shift c false (!complete) i).1 else i

/-- Whether all input buffers are dropped, lines 932-978. -/
def giveUp (c : Cfg) (env : Env) (a : Acc) (n : Nat) : Bool :=
  let d := if a.incomplete then 0 else diff c.range a.minid a.maxid
  env.dropTm && ((decide (c.tolerance > 0) && decide (d > c.tolerance)) || (c.timeout && env.buildTm && a.any && decide (n > 1)))

/-- Sequence number of the event, lines 1058-1062 (BNET sender: number and tag of the first input). -/
def sequence (c : Cfg) (st : St) : Word :=
  if c.send then (match st.inps with | [] => 0 | i :: _ => match i.cur with | none => 0 | some k => (k.nr <<< 8) ||| k.tag)
  else BitVec.ofNat 32 (st.runBuild + 1)

/-- `BuildEvent` after all inputs were searched, lines 1054-1252. -/
def finish (c : Cfg) (env : Env) (st : St) (s : Sum) (nr : Word) : St × Bool :=
  let seq := sequence c st
  let tagbad := s.complete && c.checkTag && s.tagError
  let st := { st with tagErrors := if tagbad then st.tagErrors + 1 else st.tagErrors }
  let complete := s.complete && !tagbad
  let p : St × Bool × Bool := if complete then prepare c env st s.size nr else (st, true, false)
  if p.2.1 = false then (p.1, false)
  else if complete && p.2.2 then
    let st := build c p.1 s nr seq
    ({ st with inps := advance c nr true st.inps }, true)
  else ({ p.1 with discEvents := p.1.discEvents + 1, inps := advance c nr false p.1.inps }, true)

/-- `BuildEvent`, lines 853-1252. -/
def buildEvent (c : Cfg) (env : Env) (st : St) : Option (St × Bool) :=
  let g := gather c st.inps { any := false, minid := 0, maxid := 0, build := 0, incomplete := false }
  let st := { st with inps := g.1 }
  let a := g.2
  if giveUp c env a st.inps.length then some (dropAll c st, false)
  else if a.incomplete then some (st, false)
  else
    match st.inps with
    | [] => none
    | master :: _ =>
      let tag := match master.cur with | none => 0 | some k => k.tag
      match align c a.build tag st.inps { size := 0, tagError := false, dataError := false, complete := true, dropped := 0 } with
      | none => none
      | some (inps, s, goes) =>
        let st := { st with inps := inps, droppedData := st.droppedData + s.dropped }
        if goes then some (finish c env st s a.build) else some (st, false)

/-- After construction: `n` inputs. -/
def init (n : Nat) : St :=
  { inps := List.replicate n { rest := [], queue := [], cur := none, last := 0xffffffff, lost := 0, dropped := 0 }, out := none, last := 0xffffffff, sent := [],
    runBuild := 0, discEvents := 0, droppedData := 0, recvBytes := 0, tagErrors := 0, dataErrors := 0, fullDrops := 0 }

/-- What happens to the module: a buffer arrives, `BuildEvent` is called, the flush timer. -/
inductive Op where
  | arrive (n : Nat) (b : Buf)
  | build (env : Env)
  | timer (env : Env)

def step (c : Cfg) (st : St) : Op → Option St
  | .arrive n b => some { st with inps := st.inps.modify n fun i => { i with queue := i.queue ++ [b] } }
  | .build env => (buildEvent c env st).map Prod.fst
  | .timer env => some (flush c env st).1

def run (c : Cfg) : St → List Op → Option St
  | st, [] => some st
  | st, o :: os => (step c st o).bind fun st => run c st os

end Verif.Combiner
