import Verif.MbsIter
import Verif.Spec.HadIter
import Verif.Spec.HadWrite

/-! # Specification of the MBS iterators: places in the content of a buffer with one segment, events and subevents -/

namespace Verif.MbsIter

open Verif.Bytes Verif.Pointer Verif.HadTu
open Verif.HadIter (isNull words Inside)

/-- Size given by the header at offset `o` of the content: eight bytes and two bytes for each word, modulo `2^32`. -/
def sizeAt (s : List Byte) (o : Nat) : Nat := (8 + 2 * dec ((s.drop o).take 4)) % 2 ^ 32

/-- Calls on a read iterator. -/
inductive Call where
  | event
  | subEvent
  | last
  | size
  | eventPointer
  | subsPointer
  deriving DecidableEq

/-- A call, giving the new state. -/
def Call.run (mem : Mem) (r : Reader) : Call → Option (Reader × Bool)
  | .event => nextEvent mem r
  | .subEvent => nextSubEvent mem r
  | .last => (isLastEvent mem r).map fun b => (r, b)
  | .size => (getEventSize mem r).map fun n => (r, decide (n > 0))
  | .eventPointer => (assignEventPointer mem r).map fun q => (r, q.2)
  | .subsPointer => (getSubeventsPointer mem r).map fun q => (r, !isNull q)

/-- Everything else is asked for only after `NextEvent`. -/
def Call.Allowed (r : Reader) : Call → Prop
  | .event => True
  | _ => r.first = false

/-- States reached from `Reset` by allowed calls. -/
inductive Reached (mem : Mem) (typed : Bool) : Reader → Prop where
  | reset : Reached mem typed (reset mem typed).1
  | call {r r' : Reader} {b : Bool} (c : Call) : Reached mem typed r → c.Allowed r → c.run mem r = some (r', b) → Reached mem typed r'

/-! ## Events and subevents -/

/-- What a subevent is to have: the full id and the data. -/
structure Sub where
  id : Word
  data : List Byte
  deriving DecidableEq

/-- Bytes of a subevent: number of 16-bit words behind the first eight bytes, type, id, data. -/
def Sub.bytes (x : Sub) : List Byte := words [BitVec.ofNat 32 (2 + x.data.length / 2), 0x1000a, x.id] ++ x.data

/-- Place taken by a subevent. -/
def Sub.room (x : Sub) : Nat := 12 + x.data.length

/-- Sizes are counted in words of two bytes. -/
def Sub.Even (x : Sub) : Prop := x.data.length % 2 = 0

/-- What an event is to have: the word with the trigger, the number, and the subevents. -/
structure Ev where
  trig : Word
  number : Word
  subs : List Sub
  deriving DecidableEq

/-- Place taken by an event. -/
def Ev.room (e : Ev) : Nat := 16 + (e.subs.map Sub.room).sum

/-- Bytes of an event. -/
def Ev.bytes (e : Ev) : List Byte :=
  words [BitVec.ofNat 32 (4 + (e.subs.map Sub.room).sum / 2), 0x1000a, e.trig, e.number] ++ (e.subs.map Sub.bytes).flatten

/-- How subevents get into an event. -/
inductive Part where
  /-- `NewSubevent2`, then `AddRawData` for each piece, then `FinishSubEvent`. -/
  | pieces (id : Word) (l : List (List Byte))
  /-- `NewSubevent` with the size, the data are copied to `rawdata()`, `FinishSubEvent` with the size. -/
  | direct (crate : BitVec 8) (procid : BitVec 16) (control : BitVec 8) (data : List Byte)
  /-- `AddSubevent`. -/
  | copy (bytes : List Byte)

/-- The parts bring these subevents. -/
inductive Brings : List Part → List Sub → Prop where
  | nil : Brings [] []
  | pieces {id : Word} {l : List (List Byte)} {ps : List Part} {xs : List Sub} : (∀ d ∈ l, d ≠ []) → Brings ps xs →
      Brings (.pieces id l :: ps) ({ id := id, data := l.flatten } :: xs)
  | direct {crate : BitVec 8} {procid : BitVec 16} {control : BitVec 8} {data : List Byte} {ps : List Part} {xs : List Sub} : Brings ps xs →
      Brings (.direct crate procid control data :: ps) ({ id := control ++ crate ++ procid, data := data } :: xs)
  | copy {l : List Sub} {ps : List Part} {xs : List Sub} : l ≠ [] → Brings ps xs → Brings (.copy (l.map Sub.bytes).flatten :: ps) (l ++ xs)

/-- How events get into the buffer. -/
inductive Entry where
  /-- `NewEvent`, the parts, `FinishEvent`. -/
  | build (number : Word) (ps : List Part)
  /-- `CopyEventFrom`, and `FinishEvent`. -/
  | copy (bytes : List Byte)
  /-- `CopyEventFrom` with `finish` false, more subevents, and `FinishEvent`. -/
  | extend (bytes : List Byte) (ps : List Part)

/-- The entry brings this event; `NewEvent` sets the trigger 1. -/
inductive Gives : Entry → Ev → Prop where
  | build {number : Word} {ps : List Part} {l : List Sub} : Brings ps l → Gives (.build number ps) { trig := 0x10000, number := number, subs := l }
  | copy {e : Ev} : Gives (.copy e.bytes) e
  | extend {e : Ev} {ps : List Part} {l : List Sub} : Brings ps l → Gives (.extend e.bytes ps) { e with subs := e.subs ++ l }

/-- `f` after a call that returned `true`. -/
def andThen (r : Option (Writer × Bool)) (f : Writer → Option (Writer × Bool)) : Option (Writer × Bool) :=
  match r with
  | some (w, true) => f w
  | r => r

/-- `AddRawData` for each piece. -/
def addPieces (w : Writer) : List (List Byte) → Option (Writer × Bool)
  | [] => some (w, true)
  | d :: l => andThen (addRawData w d) fun w => addPieces w l

/-- What a user does to write one part. -/
def writePart (w : Writer) : Part → Option (Writer × Bool)
  | .copy bytes => addSubevent w bytes
  | .pieces id l => andThen (newSubevent2 w id) fun w => andThen (addPieces w l) fun w => finishSubEvent w 0
  | .direct crate procid control data =>
    andThen (newSubevent w data.length crate procid control) fun w =>
    (writeMem w.mem { w.sub with off := w.sub.off + 12 } data).bind fun m => finishSubEvent { w with mem := m } data.length

/-- Writing the parts of an event. -/
def writeParts (w : Writer) : List Part → Option (Writer × Bool)
  | [] => some (w, true)
  | p :: ps => andThen (writePart w p) fun w => writeParts w ps

/-- Writing an event. -/
def writeEntry (w : Writer) : Entry → Option (Writer × Bool)
  | .build number ps => andThen (newEvent w number 0) fun w => andThen (writeParts w ps) finishEvent
  | .copy bytes => copyEventFrom w bytes true
  | .extend bytes ps => andThen (copyEventFrom w bytes false) fun w => andThen (writeParts w ps) finishEvent

/-- Writing events. -/
def writeEntries (w : Writer) : List Entry → Option (Writer × Bool)
  | [] => some (w, true)
  | e :: es => andThen (writeEntry w e) fun w => writeEntries w es

/-- What a reader sees of a subevent: the type, the id, and the `rawdatasize()` bytes at `rawdata()`. -/
structure SubSeen where
  type : Option Word
  id : Option Word
  data : Option (List Byte)

/-- What a reader sees of an event: the type, the word with the trigger, the number, and the subevents. -/
structure EvSeen where
  type : Option Word
  trig : Option Word
  number : Option Word
  subs : List SubSeen

/-- What is seen of a subevent with the given subevent and raw data pointers. -/
def seenSub (mem : Mem) (sub raw : Ptr) : SubSeen :=
  { type := word mem sub 4, id := word mem sub 8, data := readMem mem raw raw.full }

/-- Reading all subevents with `NextSubEvent`, with less than `fuel` calls. -/
def readSubs (mem : Mem) : Nat → Reader → Option (Reader × List SubSeen)
  | 0, _ => none
  | fuel + 1, r =>
    match nextSubEvent mem r with
    | none => none
    | some (r, false) => some (r, [])
    | some (r, true) => (readSubs mem fuel r).map fun q => (q.1, seenSub mem r.sub r.raw :: q.2)

/-- Reading all events with `NextEvent`. -/
def readEvents (mem : Mem) (subfuel : Nat) : Nat → Reader → Option (List EvSeen)
  | 0, _ => none
  | fuel + 1, r =>
    match nextEvent mem r with
    | none => none
    | some (_, false) => some []
    | some (r, true) =>
      (readSubs mem subfuel r).bind fun q =>
        (readEvents mem subfuel fuel q.1).map fun l =>
          { type := word mem r.ev 4, trig := word mem r.ev 8, number := word mem r.ev 12, subs := q.2 } :: l

/-- What is to be seen of a subevent. -/
def Sub.seen (x : Sub) : SubSeen := { type := some 0x1000a, id := some x.id, data := some x.data }

/-- What is to be seen of an event. -/
def Ev.seen (e : Ev) : EvSeen := { type := some 0x1000a, trig := some e.trig, number := some e.number, subs := e.subs.map Sub.seen }

end Verif.MbsIter
