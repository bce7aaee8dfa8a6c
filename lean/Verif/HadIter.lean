import Verif.HadTu

/-!
# Model of the HADAQ iterators, plugins/hadaq/hadaq/Iterator.h and plugins/hadaq/src/Iterator.cxx

`none` stands for an access outside of the memory of the buffer.  Error messages are left out.  The memory
is that of the buffer the iterator was set to.
-/

namespace Verif.HadIter

open Verif.Bytes Verif.Pointer Verif.HadTu

/-- `null()`, base/dabc/Pointer.h:147: no address, or nothing behind it. -/
def isNull (p : Ptr) : Bool := !p.attached || decide (p.full = 0)

/-- `reset(src, pos, fullsz)`, base/dabc/Pointer.h:108-117. -/
def resetTo (sizes : List Nat) (src : Ptr) (pos fullsz : Nat) : Option Ptr :=
  let q := if pos > 0 then (shift sizes src pos).map (fun r => r.1) else some src
  if fullsz > 0 then q.map fun q => setFullSize q fullsz else q

/-- Buffer types `mbt_HadaqEvents`, `mbt_HadaqTransportUnit`, `mbt_HadaqSubevents`, HadaqTypeDefs.h:24-26, and any
other type. -/
inductive BufType where
  | events
  | unit
  | subevents
  | other
  deriving DecidableEq

/-- Data members of `ReadIterator`, Iterator.h:41-45. -/
structure Reader where
  first : Bool
  ev : Ptr
  sub : Ptr
  raw : Ptr
  typ : BufType
  deriving DecidableEq

/-- `Close()`, Iterator.cxx:78-85. -/
def closed : Reader := { first := false, ev := Ptr.null, sub := Ptr.null, raw := Ptr.null, typ := .other }

/-- `Reset(buf)`, Iterator.cxx:59-76, for a buffer that is not null. -/
def reset (mem : Mem) (typ : BufType) : Reader × Bool :=
  if typ = .other then (closed, false)
  else ({ closed with ev := start (sizesOf mem), first := true, typ := typ }, true)

/-- Common part of `NextHadTu` and `NextEvent` behind the type check, Iterator.cxx:97-123 and 136-162; `hd` is the
size of the header. -/
def nextBlock (mem : Mem) (hd : Nat) (r : Reader) : Option (Reader × Bool) :=
  let ev : Option Ptr :=
    if r.first then some r.ev
    else (getPadded mem r.ev).bind fun n => (shift (sizesOf mem) r.ev n).map fun q => q.1
  match ev with
  | none => none
  | some ev =>
    let r := { r with first := false, ev := ev }
    if ev.full < hd then some ({ r with ev := Ptr.null }, false)
    else if ev.raw < hd then some ({ r with ev := Ptr.null }, false)
    else
      match getSize mem ev with
      | none => none
      | some s =>
        if ev.full < s then some ({ r with ev := Ptr.null }, false)
        else some ({ r with sub := Ptr.null, raw := Ptr.null }, true)

/-- `NextHadTu()`, Iterator.cxx:88-124. -/
def nextHadTu (mem : Mem) (r : Reader) : Option (Reader × Bool) :=
  if r.typ ≠ .unit then some (r, false)
  else if isNull r.ev then some (r, false)
  else nextBlock mem 8 r

/-- `NextEvent()`, Iterator.cxx:127-163. -/
def nextEvent (mem : Mem) (r : Reader) : Option (Reader × Bool) :=
  if isNull r.ev then some (r, false)
  else if r.typ ≠ .events then some (r, false)
  else nextBlock mem 32 r

/-- `NextSubeventsBlock()`, Iterator.cxx:166-185. -/
def nextSubeventsBlock (mem : Mem) (r : Reader) : Option (Reader × Bool) :=
  match r.typ with
  | .unit => nextHadTu mem r
  | .events => nextEvent mem r
  | .subevents =>
    let r := if r.first then r else { r with ev := Ptr.null }
    if isNull r.ev then some (r, false)
    else some ({ r with first := false, sub := Ptr.null, raw := Ptr.null }, true)
  | .other => some (r, false)

/-- `AssignEventPointer(ptr)`, Iterator.cxx:188-196. -/
def assignEventPointer (mem : Mem) (r : Reader) : Option (Ptr × Bool) :=
  if isNull r.ev then some (Ptr.null, false)
  else (getPadded mem r.ev).bind fun n => (resetTo (sizesOf mem) r.ev 0 n).map fun q => (q, true)

/-- Size of the header and of the container of the subevents, Iterator.cxx:204-216; `none` in the second
component: the function returns `false`. -/
def container (mem : Mem) (r : Reader) : Option (Option (Nat × Nat)) :=
  match r.typ with
  | .events => (getPadded mem r.ev).map fun n => some (32, n)
  | .unit => (getPadded mem r.ev).map fun n => some (8, n)
  | .subevents => some (some (0, r.ev.full))
  | .other => some none

/-- Part of `NextSubEvent()` behind the positioning of `fSubPtr`, Iterator.cxx:230-249. -/
def checkSub (mem : Mem) (r : Reader) (sub : Ptr) : Option (Reader × Bool) :=
  if sub.full < 16 then some ({ r with sub := Ptr.null }, false)
  else
    match getSize mem sub with
    | none => none
    | some s =>
      if s < 16 then some ({ r with sub := Ptr.null }, false)
      else
        match resetTo (sizesOf mem) sub 0 (padded s) with
        | none => none
        | some raw =>
          (shift (sizesOf mem) raw 16).map fun q => ({ r with sub := sub, raw := q.1 }, true)

/-- `NextSubEvent()`, Iterator.cxx:199-250. -/
def nextSubEvent (mem : Mem) (r : Reader) : Option (Reader × Bool) :=
  if isNull r.sub then
    if isNull r.ev then some (r, false)
    else
      match container mem r with
      | none => none
      | some none => some (r, false)
      | some (some (headsize, containersize)) =>
        if containersize = 0 then some (r, false)
        else if containersize < headsize then some (r, false)
        else
          match resetTo (sizesOf mem) r.ev 0 containersize with
          | none => none
          | some sub =>
            match shift (sizesOf mem) sub headsize with
            | none => none
            | some (sub, _) => checkSub mem { r with sub := sub } sub
  else
    match getPadded mem r.sub with
    | none => none
    | some n =>
      match shift (sizesOf mem) r.sub n with
      | none => none
      | some (sub, _) => checkSub mem { r with sub := sub } sub

/-- Loop of `NumEvents`, Iterator.cxx:259-265, for at most `fuel` calls of `NextEvent`; `none` also stands for
more calls than that. -/
def numLoop (mem : Mem) : Nat → Reader → Nat → Option Nat
  | 0, _, _ => none
  | fuel + 1, r, cnt =>
    match nextEvent mem r with
    | none => none
    | some (r, true) => numLoop mem fuel r (cnt + 1)
    | some (_, false) => some cnt

/-- `NumEvents(buf)`, Iterator.cxx:259-265, for a buffer with events. -/
def numEvents (mem : Mem) (fuel : Nat) : Option Nat := numLoop mem fuel (reset mem .events).1 0

/-- Data members of `WriteIterator`, Iterator.h:139-142; `mem` is the memory of `fBuffer`. -/
structure Writer where
  mem : Mem
  isBuf : Bool
  ev : Ptr
  sub : Ptr
  full : Nat

/-- Writer without buffer, Iterator.cxx:269-275. -/
def noWriter : Writer := { mem := [], isBuf := false, ev := Ptr.null, sub := Ptr.null, full := 0 }

/-- `Reset(buf)`, Iterator.cxx:291-307. -/
def wreset (mem : Mem) : Writer × Bool :=
  if (sizesOf mem).sum < 48 then (noWriter, false)
  else ({ noWriter with mem := mem, isBuf := true }, true)

/-- `SetTotalSize(len)` seen on the content, base/src/Buffer.cxx:99-137. -/
def cut : Mem → Nat → Mem
  | [], _ => []
  | s :: r, n => if n = 0 then [] else if n ≤ s.length then [s.take n] else s :: cut r (n - s.length)

/-- `Close()`, Iterator.cxx:309-320: the memory of the returned buffer. -/
def wclose (w : Writer) : Mem :=
  if w.full > 0 ∧ (sizesOf w.mem).sum ≥ w.full then cut w.mem w.full else w.mem

/-- `IsPlaceForEvent(subeventssize)`, Iterator.cxx:322-330; the sum is done with 64 bit. -/
def isPlace (w : Writer) (subeventssize : Nat) : Bool :=
  decide ((if isNull w.ev then (sizesOf w.mem).sum else w.ev.full) ≥ 32 + subeventssize)

/-- `NewEvent(evtSeqNr, runNr, minsubeventssize)`, Iterator.cxx:333-351. -/
def newEvent (w : Writer) (seq run : Word) (minsize : Nat) (date time : Word) : Option (Writer × Bool) :=
  if !w.isBuf then some (w, false)
  else
    let ev := if isNull w.ev then start (sizesOf w.mem) else w.ev
    if ev.full < 32 + minsize then some ({ w with ev := Ptr.null, sub := Ptr.null }, false)
    else (initEvent w.mem ev seq run date time).map fun mem =>
      ({ w with mem := mem, ev := ev, sub := Ptr.null }, true)

/-- Position of `fSubPtr` for the next subevent, Iterator.cxx:357-358, 384-385, 400-401. -/
def subStart (w : Writer) : Option Ptr :=
  if isNull w.sub then resetTo (sizesOf w.mem) w.ev 32 0 else some w.sub

/-- `NewSubevent(minrawsize, trigger)`, Iterator.cxx:353-365. -/
def newSubevent (w : Writer) (minraw : Nat) (trigger : Word) : Option (Writer × Bool) :=
  if isNull w.ev then some (w, false)
  else
    match subStart w with
    | none => none
    | some sub =>
      if sub.full < 16 + minraw then some ({ w with sub := sub }, false)
      else (setField w.mem sub 12 trigger).map fun mem => ({ w with mem := mem, sub := sub }, true)

/-- `maxrawdatasize()`, Iterator.h:136. -/
def maxRaw (w : Writer) : Nat := if isNull w.sub then 0 else sub32 w.sub.full 16

/-- `FinishSubEvent(rawdatasz)`, Iterator.cxx:367-378. -/
def finishSubEvent (w : Writer) (rawsz : Nat) : Option (Writer × Bool) :=
  if isNull w.sub then some (w, false)
  else if rawsz > maxRaw w then some (w, false)
  else
    (setField w.mem w.sub 0 (BitVec.ofNat 32 (rawsz + 16))).bind fun mem =>
    (getPadded mem w.sub).bind fun n =>
    (shift (sizesOf mem) w.sub n).map fun q => ({ w with mem := mem, sub := q.1 }, true)

/-- `AddSubevent(ptr, len)`, Iterator.cxx:396-410, with the `len` bytes at `ptr`; also `AddSubevent(sub)` and
`AddAllSubevents(evnt)`, Iterator.h:121-128. -/
def addSubevent (w : Writer) (bytes : List Byte) : Option (Writer × Bool) :=
  if isNull w.ev then some (w, false)
  else
    match subStart w with
    | none => none
    | some sub =>
      if sub.full < bytes.length then some ({ w with sub := sub }, false)
      else
        (copyFromRaw w.mem sub bytes).bind fun c =>
        (shift (sizesOf w.mem) sub bytes.length).map fun q => ({ w with mem := c.2, sub := q.1 }, true)

/-- `FinishEvent()`, Iterator.cxx:413-425; `distance_to` by the fuel of the number of segments. -/
def finishEvent (w : Writer) : Option (Writer × Bool) :=
  if isNull w.ev then some (w, false)
  else
    let dist : Option Nat :=
      if isNull w.sub then some 32
      else (distanceTo (sizesOf w.mem) (w.mem.length + 1) w.ev w.sub).map fun d => (d % 2 ^ 32).toNat
    dist.bind fun dist =>
    (setField w.mem w.ev 0 (BitVec.ofNat 32 dist)).bind fun mem =>
    (getPadded mem w.ev).bind fun n =>
    (shift (sizesOf mem) w.ev n).map fun q =>
      ({ w with mem := mem, ev := q.1, full := (w.full + n) % 2 ^ 32 }, true)

end Verif.HadIter
