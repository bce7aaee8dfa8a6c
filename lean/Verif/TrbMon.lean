import Verif.Spec.HadWrite
/-!
# Monitor of TrbNet registers

Code: `plugins/hadaq/src/MonitorModule.cxx:111-182` (`ReadAllVariables`, `ProcessTimerEvent`,
`BeforeModuleStart`) with the write iterator as modelled for C32.

Simplifications.
* `DoRead` (a shell command) is a parameter.
* The trigger type is put into the decoding word together with the byte order (the code sets the
  byte order first and changes the word afterwards, lines 128-130, `defines.h:280-284`); the trigger
  type in the id of the event (lines 125-126) is left out.
* `writePart` (from the specification of C32) is the sequence of calls for the subevent; the result
  of `FinishSubEvent`, which the code ignores, ends the sequence there.
* Buffers have one segment.
-/

namespace Verif.TrbMon
open Verif.Bytes Verif.Pointer Verif.HadTu Verif.HadIter

/-- Configuration: `fAddrs0`, `fAddrs`, `fSubevId`, `fTriggerType`. -/
structure Conf where
  addrs0 : List Word
  addrs : List Word
  subId : Word
  trigType : Nat

/-- `fTriggerType` as limited by the constructor, `MonitorModule.cxx:39`. -/
def trigType (c : Conf) : Nat := if c.trigType > 15 then 15 else c.trigType

/-- Stored decoding word, `MonitorModule.cxx:128-130`. -/
def decoding (c : Conf) : Word :=
  swap ((swap 0x11000200 &&& ~~~0xF0) ||| BitVec.ofNat 32 (trigType c * 16))

/-- First address for the register with number `n`, line 139. -/
def addr0 (c : Conf) (n : Nat) : Word :=
  if c.addrs0.length ≥ c.addrs.length then c.addrs0.getD n 0 else c.addrs0.getD 0 0

/-- Loop over the registers, lines 135-147: words which are written with `SetValue`. -/
def rawWords (c : Conf) (read : Word → Word → Word) : Nat → List Word → List Word
  | _, [] => []
  | n, a :: l =>
    (if c.addrs0.length = 0 then [a, read 0 a] else [addr0 c n, a, read (addr0 c n) a])
      ++ rawWords c read (n + 1) l

/-- `block_size`, line 118. -/
def blockSize (c : Conf) : Nat := if c.addrs0.length = 0 then 2 else 3

/-- The subevent with number `id`. -/
def subOf (c : Conf) (read : Word → Word → Word) (id : Word) : Sub :=
  { decoding := decoding c, id := c.subId, trig := id,
    data := words ((rawWords c read 0 c.addrs).map (value (decoding c))) }

/-- `ReadAllVariables(buf)`: result and the buffer; `id`: `fEventId`. `none`: undefined. -/
def readAll (c : Conf) (read : Word → Word → Word) (id date time : Word) (mem : Mem) :
    Option (Bool × Mem) :=
  (andThen (newEvent (wreset mem).1 id 0 (c.addrs.length * 4 * blockSize c + 16) date time) fun w =>
    andThen (writePart w (.fill (subOf c read id))) finishEvent).map fun r => (r.2, wclose r.1)

structure State where
  eventId : Word
  sent : List Mem

/-- Timer event or start: `buf` is what `TakeBuffer` gives, `none` a null buffer; `fEventId` is
increased when the event is complete, line 154. -/
def tick (c : Conf) (read : Word → Word → Word) (date time : Word) (buf : Option Mem) (s : State) :
    Option State :=
  match buf with
  | none => some s
  | some mem => (readAll c read s.eventId date time mem).map fun r =>
    if r.1 then { eventId := s.eventId + 1, sent := s.sent ++ [r.2] } else s

/-- Input of one timer event. -/
structure In where
  read : Word → Word → Word
  date : Word
  time : Word
  buf : Option Mem

def run (c : Conf) : State → List In → Option State
  | s, [] => some s
  | s, i :: l => (tick c i.read i.date i.time i.buf s).bind fun s' => run c s' l

end Verif.TrbMon
