import Verif.Bytes
/-!
# Timing events of a White Rabbit receiver

`saftdabc::Input`, plugins/saft/src/Input.cxx, with the calls which `dabc::InputTransport` makes, base/src/DataTransport.cxx:218-545.

A timing event is the C structure of 64 bytes, plugins/saft/saftdabc/Definitions.h:114-134; `slot` is its size.  Every method holds `fQueueMutex`,
so that a call is one action.  Simplified: the sizes of the buffers from the pool are inputs; exceptions of saftlib, stop of the transport,
`Close`, and the format RAW are left out.
-/

namespace Verif.Saft
open Verif.Bytes

/-- plugins/saft/saftdabc/Definitions.h:119-125. -/
structure TE where
  event : BitVec 64
  param : BitVec 64
  deadline : BitVec 64
  executed : BitVec 64
  flags : BitVec 64
  overflows : BitVec 64
  descr : List Byte
  deriving DecidableEq, Repr

/-- `sizeof(Timing_Event)`: six times 8 bytes and 16 bytes of text. -/
def slot : Nat := 64

structure Cfg where
  callback : Bool
  single : Bool
  hadaq : Bool

/-- State of the transport with the size of its buffer: `inpInit`, `inpHasBuffer`, `inpCallBack`, `inpCompleting`, `inpError`. -/
inductive Tr where
  | init
  | hasBuffer (cap : Nat)
  | callBack (cap : Nat)
  | completing (cap : Nat)
  | error
  deriving DecidableEq, Repr

/-- What was sent: size of the buffer, event number, the timing events and the size which the subevent announces for its data. -/
structure Sent where
  cap : Nat
  number : Nat
  data : List TE
  raw : Nat
  deriving DecidableEq, Repr

structure S where
  tr : Tr := .init
  queue : List TE := []
  waiting : Bool := false
  over : BitVec 64 := 0
  lastOver : BitVec 64 := 0
  number : Nat := 0
  sent : List Sent := []
  deriving DecidableEq, Repr

/-- What saftlib tells about an event; `descr` is none for the label of events which come not from an input. -/
structure Sig where
  event : BitVec 64
  param : BitVec 64
  deadline : BitVec 64
  executed : BitVec 64
  flags : BitVec 16
  descr : Option (List Byte)
  deriving DecidableEq, Repr

/-- `"WR_Event"`, plugins/saft/saftdabc/Definitions.h:27. -/
def label : List Byte := [87, 82, 95, 69, 118, 101, 110, 116]

/-- The event which is queued, plugins/saft/src/Input.cxx:500-536; the text is cut by `snprintf` with 14, Definitions.h:132. -/
def mkEvent (g : Sig) (over lastOver : BitVec 64) : TE :=
  { event := g.event, param := g.param,
    deadline := if g.descr.isSome then g.deadline - 5000 else g.deadline,
    executed := g.executed, flags := g.flags.setWidth 64, overflows := over - lastOver,
    descr := (g.descr.getD label).take 13 }

/-- The loop which fills, plugins/saft/src/Input.cxx:272-319 and 363-403: `room` bytes are left, `ec` events were filled. -/
def take (single : Bool) : List TE → Nat → Nat → List TE × List TE
  | [], _, _ => ([], [])
  | e :: q, room, ec =>
    if single ∧ ec = 1 then ([], e :: q)
    else if room < slot then ([], e :: q)
    else
      let r := take single q (room - slot) (ec + 1)
      (e :: r.1, r.2)

/-- `Write_Mbs`, plugins/saft/src/Input.cxx:254-329: event header 16, subevent header 12 bytes.  `FinishSubEvent` without argument takes
the filled size, plugins/mbs/src/Iterator.cxx:378-406. -/
def writeMbs (single : Bool) (cap : Nat) (s : S) : S :=
  if cap < 16 + slot + 12 then s
  else
    let r := take single s.queue (cap - 28) 0
    { s with queue := r.2, number := s.number + 1, sent := s.sent ++ [⟨cap, s.number, r.1, slot * r.1.length⟩] }

/-- `Write_Hadaq`, plugins/saft/src/Input.cxx:332-411: event header 32, subevent header 16 bytes.  `rawsize` begins with the size of the
subevent header.  When `FinishSubEvent` refuses the size, plugins/hadaq/src/Iterator.cxx:367-378, the event ends with its header. -/
def writeHadaq (single : Bool) (cap : Nat) (s : S) : S :=
  if cap < 32 + slot then s
  else if cap < 32 + 16 + slot then { s with number := s.number + 1 }
  else
    let r := take single s.queue (cap - 48) 0
    let raw := 16 + slot * r.1.length
    { s with queue := r.2, number := s.number + 1,
             sent := s.sent ++ [if raw ≤ cap - 48 then ⟨cap, s.number, r.1, raw⟩ else ⟨cap, s.number, [], 0⟩] }

inductive Act where
  /-- `Read_Size` and, unless it has to be repeated, a buffer of the given size from the pool -/
  | size (cap : Nat)
  /-- `Read_Start` -/
  | start
  /-- `Read_Complete` and sending -/
  | complete
  /-- `EventHandler` -/
  | event (g : Sig)
  /-- `OverflowHandler` -/
  | overflow (n : BitVec 64)
  deriving DecidableEq, Repr

/-- `EventHandler`, plugins/saft/src/Input.cxx:490-573, with `Read_CallBack`, base/src/DataTransport.cxx:218-257. -/
def handle (c : Cfg) (g : Sig) (s : S) : S :=
  let s := { s with queue := s.queue ++ [mkEvent g s.over s.lastOver], lastOver := s.over }
  if c.callback ∧ s.waiting then
    { s with waiting := false, tr := match s.tr with | .callBack cap => .completing cap | _ => .error }
  else s

/-- One action; `none` when the transport makes no such call in its state. -/
def step (c : Cfg) (s : S) : Act → Option S
  | .size cap =>
    match s.tr with
    | .init =>
      -- plugins/saft/src/Input.cxx:135-174
      if c.callback then some { s with tr := .hasBuffer cap }
      else if s.queue = [] then some s
      else some { s with tr := .hasBuffer cap }
    | _ => none
  | .start =>
    match s.tr with
    | .hasBuffer cap =>
      -- plugins/saft/src/Input.cxx:177-206
      if s.queue = [] then
        if c.callback then some { s with waiting := true, tr := .callBack cap } else some { s with tr := .error }
      else some { s with tr := .completing cap }
    | _ => none
  | .complete =>
    match s.tr with
    | .completing cap =>
      -- plugins/saft/src/Input.cxx:210-251
      let s' := if c.hadaq then writeHadaq c.single cap s else writeMbs c.single cap s
      some { s' with tr := .init }
    | _ => none
  | .event g => some (handle c g s)
  | .overflow n => some { s with over := n }

def run (c : Cfg) : List Act → S → Option S
  | [], s => some s
  | a :: as, s => (step c s a).bind (run c as)

/-! ## Conditions -/

/-- The check of the numbers of configured values, plugins/saft/src/Input.cxx:80-88; true when `Read_Init` goes on. -/
def accepted (ids masks offsets flags : Nat) : Bool :=
  !(!(ids == masks) && (ids == offsets) && (ids == flags))

/-- The loop over conditions, plugins/saft/src/Input.cxx:448-459; of the four comparisons only the last counts.  `none` is an access behind
the end of a vector. -/
def conditions {α : Type} : List α → List α → List α → List α → Option (List (α × α × α × α))
  | _, _, _, [] => some []
  | i :: is, m :: ms, o :: os, f :: fs => (conditions is ms os fs).map ((i, m, o, f) :: ·)
  | _, _, _, _ :: _ => none

end Verif.Saft
