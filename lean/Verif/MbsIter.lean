import Verif.HadIter

/-!
# Model of the MBS iterators, plugins/mbs/mbs/Iterator.h and plugins/mbs/src/Iterator.cxx

`none` stands for an access outside of the memory of the buffer.  Error messages are left out.  The memory
is that of the buffer the iterator was set to.  The machine is little-endian.  The header structures are those of
plugins/mbs/mbs/LmdTypeDefs.h:38-66 and plugins/mbs/mbs/MbsTypeDefs.h:42-150.  Not modelled: `CloseAndTransfer` (used
nowhere), `PrintHeader`, `PrintData`.
-/

namespace Verif.MbsIter

open Verif.Bytes Verif.Pointer Verif.HadTu Verif.HadIter

/-- `FullSize()` of the header at `p`, in `uint32_t`, LmdTypeDefs.h:54. -/
def fullSize (mem : Mem) (p : Ptr) : Option Nat := (word mem p 0).map fun w => (8 + w.toNat * 2) % 2 ^ 32

/-- `SetFullSize(sz)` on the header at `p`, LmdTypeDefs.h:55. -/
def setSize (mem : Mem) (p : Ptr) (sz : Nat) : Option Mem := putWord mem p 0 (BitVec.ofNat 32 (sub32 sz 8 / 2))

/-! ## Reading -/

/-- Data members of `ReadIterator`, Iterator.h:41-44. -/
structure Reader where
  first : Bool
  ev : Ptr
  sub : Ptr
  raw : Ptr
  deriving DecidableEq

/-- `Close()`, Iterator.cxx:71-77. -/
def closed : Reader := { first := false, ev := Ptr.null, sub := Ptr.null, raw := Ptr.null }

/-- `Reset(buf)`, Iterator.cxx:54-69, for a buffer that is not null; `typed`: its type is `mbt_MbsEvents`. -/
def reset (mem : Mem) (typed : Bool) : Reader × Bool :=
  if typed then ({ closed with ev := start (sizesOf mem), first := true }, true) else (closed, false)

/-- `IsLastEvent()`, Iterator.cxx:79-84. -/
def isLastEvent (mem : Mem) (r : Reader) : Option Bool :=
  if isNull r.ev then some true else (fullSize mem r.ev).map fun n => decide (r.ev.full ≤ n)

/-- `NextEvent()`, Iterator.cxx:87-120. -/
def nextEvent (mem : Mem) (r : Reader) : Option (Reader × Bool) :=
  if isNull r.ev then some (r, false)
  else
    let ev : Option Ptr :=
      if r.first then some r.ev
      else (fullSize mem r.ev).bind fun n => (shift (sizesOf mem) r.ev n).map fun q => q.1
    match ev with
    | none => none
    | some ev =>
      let r := { r with first := false, ev := ev }
      if ev.full < 16 then some ({ r with ev := Ptr.null }, false)
      else if ev.raw < 16 then some ({ r with ev := Ptr.null }, false)
      else
        match fullSize mem ev with
        | none => none
        | some n =>
          if ev.full < n then some ({ r with ev := Ptr.null }, false)
          else some ({ r with sub := Ptr.null, raw := Ptr.null }, true)

/-- `GetEventSize()`, Iterator.cxx:122-128. -/
def getEventSize (mem : Mem) (r : Reader) : Option Nat :=
  if !r.ev.attached then some 0
  else (fullSize mem r.ev).map fun n => if n < r.ev.full then n else r.ev.full

/-- `AssignEventPointer(ptr)`, Iterator.cxx:146-154; also `GetEventPointer()`, 130-135. -/
def assignEventPointer (mem : Mem) (r : Reader) : Option (Ptr × Bool) :=
  if isNull r.ev then some (Ptr.null, false)
  else (fullSize mem r.ev).bind fun n => (resetTo (sizesOf mem) r.ev 0 n).map fun q => (q, true)

/-- `GetSubeventsPointer()`, Iterator.cxx:137-143. -/
def getSubeventsPointer (mem : Mem) (r : Reader) : Option Ptr :=
  (assignEventPointer mem r).bind fun q => if isNull q.1 then some q.1 else (shift (sizesOf mem) q.1 16).map fun q => q.1

/-- Part of `NextSubEvent()` behind the positioning of `fSubPtr`, Iterator.cxx:170-184. -/
def checkSub (mem : Mem) (r : Reader) (sub : Ptr) : Option (Reader × Bool) :=
  if sub.full < 12 then some ({ r with sub := Ptr.null }, false)
  else
    match fullSize mem sub with
    | none => none
    | some n =>
      if n < 12 then some ({ r with sub := Ptr.null }, false)
      else
        match resetTo (sizesOf mem) sub 0 n with
        | none => none
        | some raw => (shift (sizesOf mem) raw 12).map fun q => ({ r with sub := sub, raw := q.1 }, true)

/-- `NextSubEvent()`, Iterator.cxx:157-187. -/
def nextSubEvent (mem : Mem) (r : Reader) : Option (Reader × Bool) :=
  if isNull r.sub then
    if isNull r.ev then some (r, false)
    else
      match fullSize mem r.ev with
      | none => none
      | some n =>
        if n < 16 then some (r, false)
        else
          match resetTo (sizesOf mem) r.ev 0 n with
          | none => none
          | some sub =>
            match shift (sizesOf mem) sub 16 with
            | none => none
            | some (sub, _) => checkSub mem { r with sub := sub } sub
  else
    match fullSize mem r.sub with
    | none => none
    | some n =>
      match shift (sizesOf mem) r.sub n with
      | none => none
      | some (sub, _) => checkSub mem { r with sub := sub } sub

/-- Loop of `NumEvents`, Iterator.cxx:187-193, for at most `fuel` calls of `NextEvent`; `none` also stands for more calls
than that. -/
def numLoop (mem : Mem) : Nat → Reader → Nat → Option Nat
  | 0, _, _ => none
  | fuel + 1, r, cnt =>
    match nextEvent mem r with
    | none => none
    | some (r, true) => numLoop mem fuel r (cnt + 1)
    | some (_, false) => some cnt

/-- `NumEvents(buf)`, Iterator.cxx:187-193, for a buffer with MBS events. -/
def numEvents (mem : Mem) (fuel : Nat) : Option Nat := numLoop mem fuel (reset mem true).1 0

/-! ## Writing -/

/-- Data members of `WriteIterator`, Iterator.h:91-95; `mem` is the memory of `fBuffer`. -/
structure Writer where
  mem : Mem
  ev : Ptr
  sub : Ptr
  data : Ptr
  full : Nat

/-- `Reset(buf)`, Iterator.cxx:220-237, of a writer whose `fSubData` is `data`: `Reset` does not touch it. -/
def wreset (data : Ptr) (mem : Mem) : Writer × Bool :=
  if (sizesOf mem).sum < 28 then ({ mem := [], ev := Ptr.null, sub := Ptr.null, data := data, full := 0 }, false)
  else ({ mem := mem, ev := start (sizesOf mem), sub := Ptr.null, data := data, full := 0 }, true)

/-- `IsPlaceForEvent(subeventssize, add_subev_header)`, Iterator.cxx:298-301; the sum is done with 64 bit. -/
def isPlaceForEvent (w : Writer) (size : Nat) (head : Bool) : Bool :=
  decide (w.ev.full ≥ 16 + size + (if head then 12 else 0))

/-- `Header` and `EventHeader::Init`, MbsTypeDefs.h:111-118; the third word has `iDummy` and `iTrigger`. -/
def initEvent (mem : Mem) (p : Ptr) (number : Word) : Option Mem :=
  (putWord mem p 0 0).bind fun mem =>
  (putWord mem p 4 0x1000a).bind fun mem =>
  (putWord mem p 8 0x10000).bind fun mem =>
  putWord mem p 12 number

/-- `SubeventHeader::InitFull`, MbsTypeDefs.h:69-74. -/
def initSub (mem : Mem) (p : Ptr) (id : Word) : Option Mem :=
  (putWord mem p 0 0).bind fun mem =>
  (putWord mem p 4 0x1000a).bind fun mem =>
  putWord mem p 8 id

/-- `NewEvent(event_number, minsubeventssize)`, Iterator.cxx:304-327. -/
def newEvent (w : Writer) (number : Word) (minsize : Nat) : Option (Writer × Bool) :=
  if !isNull w.sub then some (w, false)
  else if isNull w.ev then some (w, false)
  else if w.ev.full < 16 + minsize then some (w, false)
  else
    (resetTo (sizesOf w.mem) w.ev 16 0).bind fun sub =>
    (initEvent w.mem w.ev number).map fun mem => ({ w with mem := mem, sub := sub }, true)

/-- Common part of `NewSubevent` and `NewSubevent2`: header and `fSubData`. -/
def startSub (w : Writer) (id : Word) : Option (Writer × Bool) :=
  (initSub w.mem w.sub id).bind fun mem =>
  (resetTo (sizesOf w.mem) w.sub 12 0).map fun data => ({ w with mem := mem, data := data }, true)

/-- `NewSubevent(minrawsize, crate, procid, control)`, Iterator.cxx:329-345 and MbsTypeDefs.h:60-67. -/
def newSubevent (w : Writer) (minraw : Nat) (crate : BitVec 8) (procid : BitVec 16) (control : BitVec 8) : Option (Writer × Bool) :=
  if isNull w.sub then some (w, false)
  else if !isNull w.data then some (w, false)
  else if w.sub.full < 12 + minraw then some (w, false)
  else startSub w (control ++ crate ++ procid)

/-- `NewSubevent2(fullid)`, Iterator.cxx:349-363. -/
def newSubevent2 (w : Writer) (id : Word) : Option (Writer × Bool) :=
  if isNull w.sub then some (w, false)
  else if !isNull w.data then some (w, false)
  else startSub w id

/-- `IsPlaceForRawData(len)`, Iterator.cxx:365-368. -/
def isPlaceForRawData (w : Writer) (len : Nat) : Bool := decide (len ≤ w.data.full)

/-- `AddRawData(src, len)`, Iterator.cxx:371-376. -/
def addRawData (w : Writer) (bytes : List Byte) : Option (Writer × Bool) :=
  if isNull w.data || decide (bytes.length > w.sub.full) then some (w, false)
  else
    (copyFromRaw w.mem w.data bytes).bind fun c =>
    (shift (sizesOf w.mem) w.data c.1).map fun q => ({ w with mem := c.2, data := q.1 }, true)

/-- `maxrawdatasize()`, Iterator.h:159, in `uint32_t`. -/
def maxRaw (w : Writer) : Nat := if isNull w.sub then 0 else sub32 w.sub.full 12

/-- `distance_to` as `unsigned`, by the fuel of the number of segments. -/
def distance (mem : Mem) (p q : Ptr) : Option Nat :=
  (distanceTo (sizesOf mem) (mem.length + 1) p q).map fun d => (d % 2 ^ 32).toNat

/-- `FinishSubEvent(rawdatasz)`, Iterator.cxx:378-407. -/
def finishSubEvent (w : Writer) (rawsz : Nat) : Option (Writer × Bool) :=
  if isNull w.sub then some (w, false)
  else
    let filled : Option Nat :=
      if isNull w.data then some (maxRaw w) else (distance w.mem w.sub w.data).map fun d => sub32 d 12
    filled.bind fun filled =>
    let rawsz := if rawsz = 0 then filled else rawsz
    let rawsz := if rawsz > maxRaw w then maxRaw w else rawsz
    (setSize w.mem w.sub ((rawsz + 12) % 2 ^ 32)).bind fun mem =>
    (fullSize mem w.sub).bind fun n =>
    (shift (sizesOf mem) w.sub n).map fun q => ({ w with mem := mem, sub := q.1, data := Ptr.null }, true)

/-- `AddSubevent(source)`, Iterator.cxx:409-421, for a source in one piece of memory. -/
def addSubevent (w : Writer) (bytes : List Byte) : Option (Writer × Bool) :=
  if isNull w.sub then some (w, false)
  else if w.sub.full < bytes.length then some (w, false)
  else
    (copyFrom [bytes] w.mem w.sub (start [bytes.length]) 0).bind fun c =>
    (shift (sizesOf w.mem) w.sub bytes.length).map fun q => ({ w with mem := c.2, sub := q.1 }, true)

/-- `FinishEvent()`, Iterator.cxx:428-447. -/
def finishEvent (w : Writer) : Option (Writer × Bool) :=
  if isNull w.ev then some (w, false)
  else
    let size : Option Nat := if isNull w.sub then some w.ev.full else distance w.mem w.ev w.sub
    size.bind fun n =>
    (setSize w.mem w.ev n).bind fun mem =>
    (shift (sizesOf mem) w.ev n).map fun q =>
      ({ w with mem := mem, ev := q.1, sub := Ptr.null, full := (w.full + n) % 2 ^ 32 }, true)

/-- `DiscardEvent()`, Iterator.cxx:449-453. -/
def discardEvent (w : Writer) : Writer := { w with data := Ptr.null, sub := Ptr.null }

/-- `CopyEventFrom(ptr, finish)`, Iterator.cxx:456-480, for a source in one piece of memory. -/
def copyEventFrom (w : Writer) (bytes : List Byte) (finish : Bool) : Option (Writer × Bool) :=
  if !isNull w.sub then some (w, false)
  else if isNull w.ev then some (w, false)
  else if w.ev.full < bytes.length then some (w, false)
  else
    (copyFrom [bytes] w.mem w.ev (start [bytes.length]) 0).bind fun c =>
    (resetTo (sizesOf w.mem) w.ev bytes.length 0).bind fun sub =>
    let w := { w with mem := c.2, sub := sub }
    if finish then finishEvent w else some (w, true)

/-- `Close()`, Iterator.cxx:237-254: the memory of the returned buffer. -/
def wclose (w : Writer) : Option Mem :=
  ((if isNull w.data then some w else (finishSubEvent w 0).map fun q => q.1).bind fun w =>
    if isNull w.sub then some w else (finishEvent w).map fun q => q.1).map fun w =>
  if w.full > 0 ∧ (sizesOf w.mem).sum ≥ w.full then cut w.mem w.full else w.mem

end Verif.MbsIter
