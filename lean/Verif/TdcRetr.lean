import Verif.Bytes
/-!
# Calibration of TDC data

Code: `plugins/stream/src/TdcCalibrationModule.cxx:371-604` (`retransmit`, called for every event
of input, output and pool, `TdcCalibrationModule.h:105-109`): the way of the data. With
`Buffer::SetTotalSize` (`base/src/Buffer.cxx:99-137`) and `LocalTransport::Send`
(`base/src/LocalTransport.cxx:63`) for a null buffer.

Simplifications.
* A buffer is the list of blocks (events, transport units) with the subevents which the iterator
  finds (C33). `fits`: the claimed size is not larger than the rest of the buffer (line 520).
* `TransformSubEvent` and `EmulateTransform` of the stream framework are parameters.
* Creation of TDC processors and the status items are not modelled.
* Whether the output accepts a buffer and the pool has one are inputs of a call.
-/

namespace Verif.TdcRetr
open Verif.Bytes

structure Sub where
  data : List Byte
  padded : Nat
  fits : Bool
  /-- alignment 4 and swapped -/
  good : Bool

inductive Buf
  /-- HADAQ events, transport units or subevents -/
  | data (typ : Nat) (blocks : List (List Sub))
  | other (typ : Nat) (bytes : List Byte)
  /-- new buffer with subevents: the bytes written -/
  | subs (bytes : List Byte)

/-- Configuration: `fTrbProc` exists, `fReplace`, `fDummy`; size and old content of a buffer of the
pool; transformations: in place, and bytes written for a subevent given the room; size returned by
`EmulateTransform`. -/
structure Conf where
  proc : Bool
  replace : Bool
  dummy : Bool
  cap : Nat
  old : List Byte
  inPlace : Sub → Sub
  transform : Sub → Nat → List Byte
  emulate : Sub → Nat

/-- What is in the target behind `reslen` after a subevent, `TdcCalibrationModule.cxx:531-551`;
`EmulateTransform` does not get the target. -/
def write (c : Conf) (s : Sub) (room : Nat) : List Byte :=
  if c.dummy then (c.old.drop (c.cap - room)).take (c.emulate s) else c.transform s room

/-- Loop over the subevents of a block with a target, lines 518-552; result: the room left and
the bytes. `none`: `exit`, or written behind the end of the target. -/
def copyBlock (c : Conf) : Nat → List Sub → Option (Nat × List Byte)
  | room, [] => some (room, [])
  | room, s :: l =>
    if !s.fits then some (room, [])
    else if room < s.padded then none
    else if !c.dummy && !s.good then none
    else if room < (write c s room).length then none
    else (copyBlock c (room - (write c s room).length) l).map fun r =>
      (r.1, write c s room ++ r.2)

/-- Loop over the blocks, line 517. -/
def copyBlocks (c : Conf) : Nat → List (List Sub) → Option (List Byte)
  | _, [] => some []
  | room, b :: l => (copyBlock c room b).bind fun r =>
    (copyBlocks c r.1 l).map fun d => r.2 ++ d

/-- The same loop without target: subevents are changed in place. -/
def placeBlock (c : Conf) : List Sub → Option (List Sub)
  | [] => some []
  | s :: l =>
    if !s.fits then some (s :: l)
    else if !c.dummy && !s.good then none
    else (placeBlock c l).map (c.inPlace s :: ·)

def placeBlocks (c : Conf) : List (List Sub) → Option (List (List Sub))
  | [] => some []
  | b :: l => (placeBlock c b).bind fun b' => (placeBlocks c l).map (b' :: ·)

/-- The buffer which is sent, lines 386-598; inner `none`: null buffer, which is not sent. -/
def convert (c : Conf) : Buf → Option (Option Buf)
  | .data t bl =>
    if !c.proc then some (some (.data t bl))
    else if c.replace then (placeBlocks c bl).map fun x => some (.data t x)
    else (copyBlocks c c.cap bl).map fun d => if d = [] then none else some (.subs d)
  | b => some (some b)

structure State where
  inp : List Buf
  sent : List Buf

inductive Res
  | ok (s : State) (again : Bool)
  | died

/-- `retransmit()`. -/
def retransmit (c : Conf) (canSend canTake : Bool) (s : State) : Res :=
  match s.inp with
  | [] => .ok s false
  | b :: l =>
    if !canSend then .ok s false
    else if !c.replace && !canTake then .ok s false
    else match convert c b with
      | none => .died
      | some none => .ok { inp := l, sent := s.sent } true
      | some (some b') => .ok { inp := l, sent := s.sent ++ [b'] } true

inductive Op
  | arrive (b : Buf)
  | call (canSend canTake : Bool)

def step (c : Conf) (s : State) : Op → Option State
  | .arrive b => some { s with inp := s.inp ++ [b] }
  | .call x y => match retransmit c x y s with
    | .ok s' _ => some s'
    | .died => none

/-- `none`: the process has ended. -/
def run (c : Conf) : State → List Op → Option State
  | s, [] => some s
  | s, o :: l => (step c s o).bind fun s' => run c s' l

end Verif.TdcRetr
