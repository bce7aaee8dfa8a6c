import Verif.MbsRead

/-!
# Model of the MBS event builder, plugins/mbs/src/CombinerModule.cxx

An input delivers buffers; what the read iterator (`Verif.MbsIter`, C39) finds in a buffer is a list of events. A buffer the iterator refuses
is treated by the code as one without events, and is a list without events here.

* A buffer stays in the input queue while it is read; in the model it is taken from `queue` when the iterator is set to it, and what is not yet
  read of it is `rest`. `valid` of `InputCfg` is true exactly while the iterator is on an event, so both are `cur`.
* The output buffer is seen as the list of events in it and its size (see C39 for the bytes).
* Answers of clocks, ports and the memory pool are inputs (`Env`) of a call. A buffer that arrives during a call has the effect of one that
  arrives before or after it: between the two places where a call looks at the queue of an input, nothing else depends on it.
* The configuration is fixed before the data come. Events with a size below 16 and what may follow the last subevent of an event are left out, so
  are log output, rates and the commands for files and servers.
* `none` stands for an access outside of the memory of the event.
-/

namespace Verif.MbsComb

open Verif.Bytes Verif.MbsIter

abbrev Word := BitVec 32

/-- `iTrigger` of an event header, MbsTypeDefs.h:101-103: upper half of the third word. -/
def trigger (e : Ev) : Int := (e.trig.extractLsb' 16 16).toInt

/-- Configuration of an input, CombinerModule.h:36-64. -/
structure ICfg where
  realMbs : Bool
  realNum : Bool
  noNum : Bool
  optional : Bool
  /-- `evntsrc_fullid` -/
  srcId : Word
  /-- `evntsrc_shift` -/
  srcShift : Nat
  deriving DecidableEq

/-- `IsOptionalInput`, CombinerModule.h:173. -/
def ICfg.opt (k : ICfg) : Bool := k.optional || k.noNum

/-- Configuration of the module. -/
structure Cfg where
  /-- `fBuildCompleteEvents` -/
  complete : Bool
  checkIds : Bool
  /-- `fEventIdMask` -/
  mask : Word
  tolerance : Word
  /-- `fSpecialTriggerLimit` -/
  limit : Int

/-- The current event of an input, with `curr_evnt_num` and `curr_evnt_special`. -/
structure Cur where
  ev : Ev
  nr : Word
  special : Bool
  deriving DecidableEq

structure Inp where
  cfg : ICfg
  cur : Option Cur
  rest : List Ev
  queue : List (List Ev)
  deriving DecidableEq

/-- Search of a subevent by its id with `SubEvents` and `EventHeader::NextSubEvent`, lines 240-247 and MbsTypeDefs.h:133-139: the next
subevent is looked at only when more than twelve bytes follow. -/
def findSub (id : Word) : List Sub → Option Sub
  | [] => none
  | x :: l => if x.id = id then some x else if (l.map Sub.room).sum > 12 then findSub id l else none

/-- The four bytes at a place of the data. -/
def wordIn (d : List Byte) (k : Nat) : Word := BitVec.ofNat 32 (dec ((d.drop k).take 4))

/-- Number of an event, lines 221-262; `some none` when the event is passed over. `SubEvents` of an event without subevents points behind
the event. -/
def accept (c : Cfg) (k : ICfg) (e : Ev) : Option (Option Cur) :=
  if k.realMbs && decide (trigger e ≥ c.limit) then some (some ⟨e, e.number, true⟩)
  else if k.realNum then some (some ⟨e, e.number &&& c.mask, false⟩)
  else if k.noNum then some (some ⟨e, 0, false⟩)
  else if e.subs.isEmpty then none
  else
    match findSub k.srcId e.subs with
    | none => some none
    | some x => if k.srcShift + 4 ≤ x.data.length then some (some ⟨e, wordIn x.data k.srcShift &&& c.mask, false⟩) else some none

/-- Loop of `ShiftToNextEvent` inside a buffer, lines 211-262: the first event that is not passed over, and what follows. -/
def scan (c : Cfg) (k : ICfg) : List Ev → Option (Option (Cur × List Ev))
  | [] => some none
  | e :: r =>
    match accept c k e with
    | none => none
    | some none => scan c k r
    | some (some u) => some (some (u, r))

/-- Loop of `ShiftToNextEvent`, lines 198-263: first the rest of the buffer, then the buffers in the queue. -/
def find (c : Cfg) (k : ICfg) (l : List Ev) (q : List (List Ev)) : Option (Option Cur × List Ev × List (List Ev)) :=
  match scan c k l, q with
  | none, _ => none
  | some (some (u, r)), q => some (some u, r, q)
  | some none, [] => some (none, [], [])
  | some none, b :: q => find c k b q
termination_by structural q

/-- `ShiftToNextEvent`, lines 189-271. -/
def shift (c : Cfg) (i : Inp) : Option Inp :=
  (find c i.cfg i.rest i.queue).map fun q => { i with cur := q.1, rest := q.2.1, queue := q.2.2 }

/-- `ShiftToNextBuffer`, lines 177-187. -/
def dropBuffer (i : Inp) : Inp :=
  match i.cur with
  | some _ => { i with cur := none, rest := [] }
  | none => { i with cur := none, rest := [], queue := i.queue.tail }

/-- Answers of the surrounding during a call: for each input, and for the outputs and the pool. -/
structure Env where
  connected : Nat → Bool
  /-- `InputQueueFull` -/
  full : Nat → Bool
  /-- more than half of the queue is filled -/
  half : Nat → Bool
  /-- no valid event for `fExcludeTime` -/
  late : Nat → Bool
  /-- `CanSendToAllOutputs` before and after building -/
  canSend : Bool
  canSend2 : Bool
  /-- size of the buffer from `TakeBuffer` -/
  pool : Option Nat

structure St where
  inps : List Inp
  /-- `fOut`: size of the buffer and the events in it -/
  out : Option (Nat × List Ev)
  flush : Bool
  /-- buffers sent to all outputs -/
  sent : List (List Ev)
  /-- calls of `StopApplication` -/
  stops : Nat
  deriving DecidableEq

/-- `FlushBuffer`, lines 140-155. -/
def flushBuffer (canSend : Bool) (s : St) : St × Bool :=
  match s.out with
  | none => (s, false)
  | some (_, []) => (s, false)
  | some (_, evs) => if canSend then ({ s with out := none, sent := s.sent ++ [evs], flush := false }, true) else (s, false)

/-- Bytes of events. -/
def bytesOf (l : List Ev) : Nat := (l.map Ev.room).sum

/-- `IsPlaceForEvent` (Iterator.cxx:298-301). -/
def place (o : Nat × List Ev) (size : Nat) : Bool := decide (bytesOf o.2 + 16 + size ≤ o.1)

/-- Any property of an input and its number. -/
def anyInp (f : Nat → Inp → Bool) : Nat → List Inp → Bool
  | _, [] => false
  | n, i :: is => f n i || anyInp f (n + 1) is

/-- Loop over the inputs for buffers to be skipped, lines 298-312. -/
def dropFull (env : Env) : Nat → List Inp → List Inp
  | _, [] => []
  | n, i :: is => (if env.full n || (i.cfg.noNum && env.half n) then dropBuffer i else i) :: dropFull env (n + 1) is

/-- Loop over the inputs for their current events, lines 320-339; `false` when the method returns there. -/
def collect (c : Cfg) (env : Env) (mostly : Bool) : Nat → List Inp → Option (Bool × List Inp)
  | _, [] => some (true, [])
  | n, i :: is =>
    match (if i.cur.isSome then some i else shift c i) with
    | none => none
    | some i =>
      if i.cur.isSome || i.cfg.noNum || (mostly && !c.complete) || (i.cfg.optional && env.late n) then
        (collect c env mostly (n + 1) is).map fun q => (q.1, i :: q.2)
      else some (false, i :: is)

/-- Current events with a number, lines 341-358. -/
def numbered (is : List Inp) : List Cur := is.filterMap fun i => if i.cfg.noNum then none else i.cur

/-- `mineventid` and `maxeventid`, lines 345-351. -/
def minmax : List Word → Word × Word → Word × Word
  | [], m => m
  | x :: l, (a, b) => minmax l (if x < a then (x, b) else if x > b then (a, x) else (a, b))

/-- The event an input contributes: `selected`, lines 369-392. With a special event only the first of these is selected. -/
def selection (nr : Word) (special : Bool) : List Inp → List (Option Cur)
  | [] => []
  | i :: is =>
    match i.cur with
    | none => none :: selection nr special is
    | some u =>
      if special then
        if u.special && !i.cfg.noNum then some u :: is.map fun _ => none
        else none :: selection nr special is
      else (if u.nr = nr || i.cfg.noNum then some u else none) :: selection nr special is

/-- `important_input_skipped`, lines 413-425. -/
def skipped (env : Env) : Nat → List (Inp × Option Cur) → Bool
  | _, [] => false
  | n, (i, u) :: l =>
    (u.isNone && !i.cfg.noNum && !(i.cfg.optional && (i.cur.isSome || env.late n))) || skipped env (n + 1) l

/-- `SubEventsSize` of an event. -/
def subsSize (e : Ev) : Nat := (e.subs.map Sub.room).sum

/-- The input whose header is copied, `copyMbsHdrId`, lines 436, 516 and 533: the first obligatory one with MBS data, or the first. -/
def header (l : List (Inp × Option Cur)) : Option Ev :=
  let sel := l.filterMap fun q => q.2.map fun u => (q.1.cfg, u.ev)
  match sel.find? fun q => !q.1.opt && q.1.realMbs with
  | some q => some q.2
  | none => sel.head?.map fun q => q.2

/-- Loop over the selected inputs, lines 548-555. -/
def advance (c : Cfg) (skip : Bool) : List (Inp × Option Cur) → Option (List Inp)
  | [] => some []
  | (i, u) :: l =>
    match (if u.isSome && !(skip && i.cfg.noNum) then shift c i else some i) with
    | none => none
    | some i => (advance c skip l).map fun is => i :: is

/-- Lines 480-482: the output buffer is sent when there is no place in it; `false` when the method returns. -/
def makeRoom (env : Env) (size : Nat) (s : St) : St × Bool :=
  match s.out with
  | none => (s, true)
  | some o => if place o size then (s, true) else flushBuffer env.canSend s

/-- Lines 484-497: a new output buffer, if there is none. -/
def takeOut (env : Env) (s : St) : St × Bool :=
  match s.out with
  | some _ => (s, true)
  | none =>
    match env.pool with
    | none => (s, false)
    | some cap => if cap < 28 then ({ s with stops := s.stops + 1 }, false) else ({ s with out := some (cap, []) }, true)

/-- Building the event from the selected inputs, lines 478-546: `none` when the method returns. -/
def produce (env : Env) (s : St) (sel : List (Inp × Option Cur)) : Option (St × Bool) :=
  let evs := sel.filterMap fun q => q.2.map fun u => u.ev
  let size := (evs.map subsSize).sum % 2 ^ 32
  let r := makeRoom env size s
  if !r.2 then some (r.1, false)
  else
    let r := takeOut env r.1
    if !r.2 then some (r.1, false)
    else
      match r.1.out with
      | none => some (r.1, true)
      | some o =>
        if !place o size then some (r.1, true)
        else
          match header sel with
          | none => none
          | some h =>
            let e : Ev := { trig := h.trig, number := h.number, subs := (evs.map Ev.subs).flatten }
            let o := (o.1, o.2 ++ [e])
            let s := { r.1 with out := some o }
            some (if place o 0 then s else (flushBuffer env.canSend2 s).1, true)

/-- Difference of the event numbers and number of the event to be built, lines 365-381: with an overflow of the numbers the largest comes first. -/
def numbers (c : Cfg) (m : Word × Word) : Word × Word :=
  if m.2 - m.1 > c.mask / 2 then (c.mask - (m.2 - m.1) + 1, m.2) else (m.2 - m.1, m.1)

/-- `do_skip_data`, lines 440-464. -/
def skips (c : Cfg) (env : Env) (special : Bool) (sel : List (Inp × Option Cur)) : Bool :=
  (c.complete && skipped env 0 sel && !special) ||
    (c.checkIds && !decide ((sel.filterMap fun q => q.2.map fun u => u.ev.subs.map Sub.id).flatten).Nodup && !special)

/-- `BuildEvent` after the current events are there, lines 341-559. -/
def assemble (c : Cfg) (env : Env) (s : St) : Option (St × Bool) :=
  match (numbered s.inps).map fun u => u.nr with
  | [] => some (s, false)
  | x :: l =>
    let special := (numbered s.inps).any fun u => u.special
    let r := numbers c (minmax l (x, x))
    if !special && decide (c.tolerance > 0) && decide (r.1 > c.tolerance) then some ({ s with stops := s.stops + 1 }, false)
    else
      let sel := s.inps.zip (selection r.2 special s.inps)
      let skip := skips c env special sel
      match (if skip then some (s, true) else produce env s sel) with
      | none => none
      | some (s, false) => some (s, false)
      | some (s, true) => (advance c skip sel).map fun is => ({ s with inps := is }, true)

/-- `BuildEvent`, lines 275-560. -/
def buildEvent (c : Cfg) (env : Env) (s : St) : Option (St × Bool) :=
  let missing := anyInp (fun n i => !i.cfg.opt && !env.connected n) 0 s.inps
  let mostly := anyInp (fun n i => !i.cfg.opt && env.full n) 0 s.inps
  if missing && c.complete then some ({ s with inps := dropFull env 0 s.inps }, false)
  else
    match collect c env mostly 0 s.inps with
    | none => none
    | some (false, is) => some ({ s with inps := is }, false)
    | some (true, is) => assemble c env { s with inps := is }

/-- Loop of `BuildEvent` calls in `ProcessTimerEvent` and `BeforeModuleStart`, lines 134 and 166: at most one for each of the answers. -/
def buildLoop (c : Cfg) : List Env → St → Option St
  | [], s => some s
  | env :: l, s =>
    match buildEvent c env s with
    | none => none
    | some (s, true) => buildLoop c l s
    | some (s, false) => some s

/-- `ProcessTimerEvent`, lines 130-138. -/
def timer (c : Cfg) (envs : List Env) (canSend : Bool) (s : St) : Option St :=
  (if s.flush then (buildLoop c envs s).map fun s => (flushBuffer canSend s).1 else some s).map fun s => { s with flush := true }

/-- A buffer arrives at an input. -/
def arrive (n : Nat) (b : List Ev) (s : St) : St := { s with inps := s.inps.modify n fun i => { i with queue := i.queue ++ [b] } }

end Verif.MbsComb
