import Verif.HadIter

/-! # Specification of written HADAQ events -/

namespace Verif.HadIter

open Verif.Bytes Verif.Pointer Verif.HadTu

/-- A subevent: the decoding word as it is stored (it selects the byte order), the id, the trigger number and the data. -/
structure Sub where
  decoding : Word
  id : Word
  trig : Word
  data : List Byte

/-- Bytes of words in memory. -/
def words (l : List Word) : List Byte := (l.map fun w => enc 4 w.toNat).flatten

/-- Size rounded up to a multiple of 8. -/
def up8 (n : Nat) : Nat := (n + 7) / 8 * 8

/-- Header and data of a subevent in the byte order chosen by the decoding word. -/
def Sub.bytes (x : Sub) : List Byte :=
  words [value x.decoding (BitVec.ofNat 32 (16 + x.data.length)), x.decoding, value x.decoding x.id, value x.decoding x.trig] ++ x.data

/-- Place taken by a subevent. -/
def Sub.room (x : Sub) : Nat := up8 (16 + x.data.length)

/-- Bytes of subevents one after the other, each filled up with any bytes to a multiple of 8. -/
inductive SubsIn : List Sub → List Byte → Prop where
  | nil : SubsIn [] []
  | cons {x : Sub} {l : List Sub} {pad B : List Byte} : x.bytes.length + pad.length = x.room → SubsIn l B →
      SubsIn (x :: l) (x.bytes ++ pad ++ B)

/-- Ways to bring subevents into an event: fill one with `NewSubevent`, `FinishSubEvent`, or copy bytes of complete subevents. -/
inductive Part where
  | fill (x : Sub)
  | copy (bytes : List Byte)

/-- What an event is to have. -/
structure Ev where
  seq : Word
  run : Word
  date : Word
  time : Word
  subs : List Sub

/-- Place taken by an event. -/
def Ev.room (e : Ev) : Nat := 32 + (e.subs.map Sub.room).sum

/-- Bytes of an event: the header in the byte order of the machine, and the subevents. -/
inductive EvIn : Ev → List Byte → Prop where
  | mk {e : Ev} {B : List Byte} : SubsIn e.subs B →
      EvIn e (words [BitVec.ofNat 32 e.room, 0x30001, 0x2001, e.seq, e.date, e.time, e.run, 0] ++ B)

/-- Bytes of events one after the other. -/
inductive EvsIn : List Ev → List Byte → Prop where
  | nil : EvsIn [] []
  | cons {e : Ev} {l : List Ev} {E B : List Byte} : EvIn e E → EvsIn l B → EvsIn (e :: l) (E ++ B)

/-- The parts bring the subevents `l`. -/
inductive Brings : List Part → List Sub → Prop where
  | nil : Brings [] []
  | fill {x : Sub} {ps : List Part} {l : List Sub} : Brings ps l → Brings (.fill x :: ps) (x :: l)
  | copy {a : List Sub} {B : List Byte} {ps : List Part} {l : List Sub} : SubsIn a B → Brings ps l → Brings (.copy B :: ps) (a ++ l)

/-- `f` after a call that returned `true`. -/
def andThen (r : Option (Writer × Bool)) (f : Writer → Option (Writer × Bool)) : Option (Writer × Bool) :=
  match r with
  | some (w, true) => f w
  | r => r

/-- What a user does to write one part: for `fill` `NewSubevent(size, trig)`, then decoding, trigger number and id are set in the
header, the data are copied to `rawdata()`, and `FinishSubEvent(size)` (as plugins/hadaq/src/MonitorModule.cxx:123-152). -/
def writePart (w : Writer) : Part → Option (Writer × Bool)
  | .copy bytes => addSubevent w bytes
  | .fill x =>
    andThen (newSubevent w x.data.length x.trig) fun w =>
    ((setDecodingDirect w.mem w.sub x.decoding).bind fun m =>
      (setField m w.sub 12 x.trig).bind fun m =>
      (setField m w.sub 8 x.id).bind fun m =>
      writeMem m { w.sub with off := w.sub.off + 16 } x.data).bind fun m =>
    finishSubEvent { w with mem := m } x.data.length

/-- Writing the parts one after the other. -/
def writeParts (w : Writer) : List Part → Option (Writer × Bool)
  | [] => some (w, true)
  | p :: ps => andThen (writePart w p) fun w => writeParts w ps

/-- Writing an event: `NewEvent`, the parts, `FinishEvent`. -/
def writeEvent (w : Writer) (e : Ev) (ps : List Part) : Option (Writer × Bool) :=
  andThen (newEvent w e.seq e.run 0 e.date e.time) fun w =>
  andThen (writeParts w ps) fun w => finishEvent w

/-- Writing events. -/
def writeEvents (w : Writer) : List (Ev × List Part) → Option (Writer × Bool)
  | [] => some (w, true)
  | e :: es => andThen (writeEvent w e.1 e.2) fun w => writeEvents w es

/-- What a reader sees of a subevent: `GetDecoding()`, `GetId()`, `GetTrigNr()` and the `GetSize() - 16` bytes at `rawdata()`. -/
structure SubSeen where
  decoding : Option Word
  id : Option Word
  trig : Option Word
  data : Option (List Byte)

/-- What a reader sees of an event: `GetSeqNr()`, `GetRunNr()`, `GetId()`, `GetDate()`, `GetTime()` and the subevents. -/
structure EvSeen where
  seq : Option Word
  run : Option Word
  id : Option Word
  date : Option Word
  time : Option Word
  subs : List SubSeen

/-- What is seen of a subevent with the given subevent and raw data pointers. -/
def seenSub (mem : Mem) (sub raw : Ptr) : SubSeen :=
  { decoding := getField mem sub 4, id := getField mem sub 8, trig := getField mem sub 12,
    data := (getSize mem sub).bind fun n => readMem mem raw (n - 16) }

/-- Reading all subevents with `NextSubEvent`, with less than `fuel` calls. -/
def readSubs (mem : Mem) : Nat → Reader → Option (Reader × List SubSeen)
  | 0, _ => none
  | fuel + 1, r =>
    match nextSubEvent mem r with
    | none => none
    | some (r, false) => some (r, [])
    | some (r, true) =>
      (readSubs mem fuel r).map fun q => (q.1, seenSub mem r.sub r.raw :: q.2)

/-- Reading all events with `NextEvent`. -/
def readEvents (mem : Mem) (subfuel : Nat) : Nat → Reader → Option (List EvSeen)
  | 0, _ => none
  | fuel + 1, r =>
    match nextEvent mem r with
    | none => none
    | some (_, false) => some []
    | some (r, true) =>
      (readSubs mem subfuel r).bind fun q =>
        (readEvents mem subfuel fuel q.1).map fun l =>
          { seq := getField mem r.ev 12, run := getField mem r.ev 24, id := getField mem r.ev 8, date := getField mem r.ev 16,
            time := getField mem r.ev 20, subs := q.2 } :: l

/-- What is to be seen of a subevent; the decoding in the byte order of the subevent. -/
def Sub.seen (x : Sub) : SubSeen :=
  { decoding := some (value x.decoding x.decoding), id := some x.id, trig := some x.trig, data := some x.data }

/-- What is to be seen of an event; `EvtId_DABC` is the id set by `NewEvent`. -/
def Ev.seen (e : Ev) : EvSeen :=
  { seq := some e.seq, run := some e.run, id := some 0x2001, date := some e.date, time := some e.time, subs := e.subs.map Sub.seen }

/-- Going through the subevents of an event with `FirstSubevent` and `NextSubevent`: distances from the event. -/
def walk (mem : Mem) (p : Ptr) : Nat → Option Nat → Option (List Nat)
  | 0, _ => none
  | _ + 1, none => some []
  | fuel + 1, some k => (nextSubevent mem p k).bind fun n => (walk mem p fuel n).map (k :: ·)

/-- Where subevents are when the first one starts at `k`. -/
def positions : Nat → List Sub → List Nat
  | _, [] => []
  | k, x :: l => k :: positions (k + x.room) l

end Verif.HadIter
