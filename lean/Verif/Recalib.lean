import Verif.Bytes
/-!
# Recalibration of HADAQ events

Code: `plugins/stream/src/RecalibrateModule.cxx:84-132` (`retransmit`, called for every event of
input, output and pool, `RecalibrateModule.h:62-66`), with `Buffer::SetTotalSize`
(`base/src/Buffer.cxx:99-137`) and `Module::SendToAllOutputs` (`base/src/Module.cxx:942-970`).

Simplifications.
* A buffer with events is the list of events which the iterator finds in it (see C33).
* `TransformEvent` of the stream framework is a parameter: bytes written for an event, given the
  room in the target buffer; no bytes when it fails.
* A buffer of the pool has one segment of `cap` bytes.
* Whether outputs accept a buffer and whether the pool has one are inputs of a call; all outputs
  get the same content, so one log of sent buffers is kept.
-/

namespace Verif.Recalib
open Verif.Bytes

abbrev Event := List Byte

/-- A buffer: with HADAQ events, or of other type. -/
inductive Buf
  | events (l : List Event)
  | other (typ : Nat) (data : List Byte)

/-- Configuration: `fReplace`, size of buffers of the pool, and the two ways to transform an
event: in place, or into a target with some room. -/
structure Conf where
  replace : Bool
  cap : Nat
  inPlace : Event → Event
  transform : Event → Nat → List Byte

structure State where
  inp : List Buf
  sent : List Buf

inductive Res
  | ok (s : State) (again : Bool)
  /-- `exit(5)`, or memory behind the buffer overwritten -/
  | died

/-- Loop `RecalibrateModule.cxx:107-111`; `room`: bytes left in the target. -/
def transformAll (t : Event → Nat → List Byte) (room : Nat) : List Event → Option (List Event)
  | [] => some []
  | e :: l =>
    let r := t e room
    if r = [] then some []
    else if room < r.length then none
    else (transformAll t (room - r.length) l).map (r :: ·)

/-- The buffer which is sent: an empty result is a null buffer (`Buffer.cxx:101-104`), which
`SendToAllOutputs` ignores (`Module.cxx:944`). -/
def convert (c : Conf) : Buf → Option (Option Buf)
  | .other t d => some (some (.other t d))
  | .events l =>
    if c.replace then some (some (.events (l.map c.inPlace)))
    else (transformAll c.transform c.cap l).map fun l' =>
      if l' = [] then none else some (.events l')

/-- `retransmit()`, `RecalibrateModule.cxx:84-132`. -/
def retransmit (c : Conf) (canSend canTake : Bool) (s : State) : Res :=
  match s.inp with
  | [] => .ok s false
  | b :: l =>
    if !canSend then .ok s false
    else if !c.replace && !canTake then .ok s false
    else match convert c b with
      | none => .died
      | some none => .ok { inp := l, sent := s.sent } true
      | some (some b') => .ok { inp := l, sent := s.sent ++ [b'] } true

/-- What happens: a buffer arrives in the input queue, or the module is called. -/
inductive Op
  | arrive (b : Buf)
  | call (canSend canTake : Bool)

def step (c : Conf) (s : State) : Op → Option State
  | .arrive b => some { s with inp := s.inp ++ [b] }
  | .call x y => match retransmit c x y s with
    | .ok s' _ => some s'
    | .died => none

/-- `none`: the process has ended. -/
def run (c : Conf) : State → List Op → Option State
  | s, [] => some s
  | s, o :: l => (step c s o).bind fun s' => run c s' l

end Verif.Recalib
