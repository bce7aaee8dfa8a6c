import Verif.Bytes
import Verif.Pointer

/-!
# Model of the HADAQ headers, plugins/hadaq/hadaq/defines.h and plugins/hadaq/src/defines.cxx

A header is looked at through a pointer into the memory `mem` (the segments of a buffer).  `none` stands
for an access outside of the segment or for undefined behaviour.  The machine is little-endian.  All words
of the headers are `uint32_t`: an event has the words size, decoding, id, seqnr, date, time, runnr, pad, a
subevent has size, decoding, id, trignr, a transport unit has size and decoding.
-/

namespace Verif.HadTu

open Verif.Bytes Verif.Pointer

abbrev Word := BitVec 32
abbrev Mem := List (List Byte)

/-- The word `k` bytes behind the pointer. -/
def word (mem : Mem) (p : Ptr) (k : Nat) : Option Word :=
  (readMem mem { p with off := p.off + k } 4).map fun l => BitVec.ofNat 32 (dec l)

/-- Store a word `k` bytes behind the pointer. -/
def putWord (mem : Mem) (p : Ptr) (k : Nat) (v : Word) : Option Mem :=
  writeMem mem { p with off := p.off + k } (enc 4 v.toNat)

/-- `IsSwapped()`, defines.h:148. -/
def isSwapped (decoding : Word) : Bool := decide (decoding > 0xffffff)

/-- `((v & 0xFF) << 24) | ((v & 0xFF00) << 8) | ((v & 0xFF0000) >> 8) | ((v & 0xFF000000) >> 24)`, defines.h:154-157. -/
def swap (v : Word) : Word :=
  ((v &&& 0xFF) <<< 24) ||| ((v &&& 0xFF00) <<< 8) ||| ((v &&& 0xFF0000) >>> 8) ||| ((v &&& 0xFF000000) >>> 24)

/-- `Value(member)`, defines.h:152-163, and the value stored by `SetValue`, defines.h:166-178. -/
def value (decoding v : Word) : Word := if isSwapped decoding then swap v else v

/-- `Value(&field)`: `GetSize` (0), `GetDecoding` (4), `GetId` (8), `GetTrigNr`/`GetSeqNr` (12), `GetDate` (16),
`GetTime` (20), `GetRunNr` (24), defines.h:181-182, 208, 274, 460-469. -/
def getField (mem : Mem) (p : Ptr) (k : Nat) : Option Word :=
  match word mem p 4, word mem p k with
  | some d, some v => some (value d v)
  | _, _ => none

/-- `SetValue(&field, v)`: `SetSize`, `SetDecoding`, `SetId`, `SetTrigNr`, …, defines.h:191-193, 209, 275, 461-470. -/
def setField (mem : Mem) (p : Ptr) (k : Nat) (v : Word) : Option Mem :=
  match word mem p 4 with
  | some d => putWord mem p k (value d v)
  | none => none

/-- `SetDecodingDirect(dec)`, defines.h:150. -/
def setDecodingDirect (mem : Mem) (p : Ptr) (d : Word) : Option Mem := putWord mem p 4 d

/-- Rounding of `GetPaddedSize()`, defines.h:186-188, in `uint32_t`. -/
def padded (size : Nat) : Nat := if size % 8 = 0 then size else (size + 8 - size % 8) % 2 ^ 32

/-- `GetSize()`, defines.h:182. -/
def getSize (mem : Mem) (p : Ptr) : Option Nat := (getField mem p 0).map BitVec.toNat

/-- `GetPaddedSize()`, defines.h:184-189. -/
def getPadded (mem : Mem) (p : Ptr) : Option Nat := (getSize mem p).map padded

/-- `GetDataError()`, defines.h:211. -/
def getDataError (mem : Mem) (p : Ptr) : Option Bool :=
  (getField mem p 8).map fun id : Word => decide (id &&& (0x80000000 : Word) ≠ 0)

/-- `SetDataError(on)`, defines.h:213-219. -/
def setDataError (mem : Mem) (p : Ptr) (on : Bool) : Option Mem :=
  match getField mem p 8 with
  | none => none
  | some id => setField mem p 8 (if on then id ||| (0x80000000 : Word) else id &&& ~~~(0x80000000 : Word))

/-- `GetTrigTypeTrb3()`, defines.h:278. -/
def getTrigType (mem : Mem) (p : Ptr) : Option Byte :=
  (getField mem p 4).map fun d : Word => ((d &&& (0xF0 : Word)) >>> 4).setWidth 8

/-- `SetTrigTypeTrb3(typ)`, defines.h:280-284. -/
def setTrigType (mem : Mem) (p : Ptr) (typ : Byte) : Option Mem :=
  match getField mem p 4 with
  | none => none
  | some d => setField mem p 4 ((d &&& ~~~(0xF0 : Word)) ||| ((typ.setWidth 32 : Word) <<< 4))

/-- `Alignment()`, defines.h:272; shifting the `int` value 1 by 31 and more bits is undefined. -/
def alignment (mem : Mem) (p : Ptr) : Option Nat :=
  match getField mem p 4 with
  | none => none
  | some d => if ((d >>> 16) &&& 0xff).toNat < 31 then some (2 ^ ((d >>> 16) &&& 0xff).toNat) else none

/-- `GetNrOfDataWords()`, defines.h:298-306. -/
def nrOfDataWords (mem : Mem) (p : Ptr) : Option Nat :=
  match getSize mem p, alignment mem p with
  | some s, some a =>
    let datasize := sub32 s 16
    some (if a = 4 then datasize / 4 else if a = 2 then datasize / 2 else datasize)
  | _, _ => none

/-- `((tmp >> 8) & 0xff) | ((tmp << 8) & 0xff00)`, defines.h:320. -/
def swap16 (v : BitVec 16) : BitVec 16 := ((v >>> 8) &&& 0xff) ||| ((v <<< 8) &&& 0xff00)

/-- `Data(idx)`, defines.h:309-327. -/
def data (mem : Mem) (p : Ptr) (idx : Nat) : Option Nat :=
  match alignment mem p, word mem p 4 with
  | some a, some d =>
    if a = 4 then (word mem p (16 + 4 * idx)).map fun v => (value d v).toNat
    else if a = 2 then (readMem mem { p with off := p.off + (16 + 2 * idx) } 2).map fun l =>
      (if isSwapped d then swap16 (BitVec.ofNat 16 (dec l)) else BitVec.ofNat 16 (dec l)).toNat
    else (readMem mem { p with off := p.off + (16 + idx) } 1).map dec
  | _, _ => none

/-- `RawEvent::InitHeader(id)`, defines.cxx:34-51; the date and the time words come from the clock. -/
def initHeader (mem : Mem) (p : Ptr) (id date time : Word) : Option Mem :=
  (putWord mem p 4 0x30001).bind fun mem =>
  (setField mem p 8 id).bind fun mem =>
  (setField mem p 0 32).bind fun mem =>
  (setField mem p 16 date).bind fun mem => setField mem p 20 time

/-- `RawEvent::Init(evnt, run)`, defines.h:472-478, with `id = EvtId_DABC`. -/
def initEvent (mem : Mem) (p : Ptr) (evnt run date time : Word) : Option Mem :=
  (initHeader mem p 0x2001 date time).bind fun mem =>
  (setField mem p 12 evnt).bind fun mem =>
  (setField mem p 24 run).bind fun mem => putWord mem p 28 0

/-- `RawEvent::FirstSubevent()`, defines.cxx:53-58: distance of the subevent from the event, `none` in the second
component for the null pointer. -/
def firstSubevent (mem : Mem) (p : Ptr) : Option (Option Nat) :=
  (getSize mem p).map fun s => if sub32 s 32 < 16 then none else some 32

/-- `RawEvent::AllSubeventsSize()`, defines.cxx:60-64. -/
def allSubeventsSize (mem : Mem) (p : Ptr) : Option Nat :=
  (getPadded mem p).map fun n => if n < 32 then 0 else n - 32

/-- `RawEvent::NextSubevent(prev)`, defines.cxx:66-75, with the previous subevent `k` bytes behind the event. -/
def nextSubevent (mem : Mem) (p : Ptr) (k : Nat) : Option (Option Nat) :=
  match getPadded mem { p with off := p.off + k }, getSize mem p with
  | some n, some s => some (if k + n ≥ s then none else some (k + n))
  | _, _ => none

end Verif.HadTu
