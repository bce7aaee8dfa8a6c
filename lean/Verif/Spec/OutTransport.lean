import Verif.OutTransport

/-!
# What an output object may rely on

Written from the description of `DataOutput` (`base/dabc/DataIO.h:152-232`): an
automaton over everything that happens between the transport and its
surrounding.
-/

namespace Verif.OutTransport.Spec

open Verif.OutTransport

/-- Where the conversation with the output object stands. -/
inductive P where
  /-- ready for the next buffer -/
  | idle
  /-- the same, but only after a pause -/
  | timed
  /-- the same, but only after a call-back -/
  | asked
  /-- the output will accept a buffer -/
  | checked
  /-- the output wants the next buffer to be skipped -/
  | skipping
  /-- the output will call back when the buffer is written -/
  | writing
  /-- the writing must be completed -/
  | written
  /-- an error was reported -/
  | failed
  /-- the output wants to try again, but only after a pause -/
  | paused
  /-- pause over, the output must be initialised again -/
  | reinit
  /-- the output is at its end and must be deleted -/
  | closing
  /-- the output must be given up on a wish from outside -/
  | leaving
  | gone
deriving DecidableEq, Repr

def checkNext : Code → P
  | .ok => .checked
  | .again => .idle
  | .againTimeOut => .timed
  | .callBack => .asked
  | .skip => .skipping
  | .close => .closing
  | .error | .other => .failed

def writeNext : Code → P
  | .ok => .written
  | .callBack => .writing
  | .skip => .idle
  | .close => .closing
  | _ => .failed

def complNext : Code → P
  | .ok => .idle
  | .close => .closing
  | _ => .failed

def backNext : P → Code → Option P
  | .gone, _ | .leaving, _ | .closing, _ | .failed, _ | .checked, _ | .skipping, _ | .written, _ | .reinit, _ => none
  | .asked, .ok => some .idle
  | .writing, .ok => some .written
  | p, .ok => some p
  | _, _ => some .failed

def timerNext : P → Option P
  | .timed => some .idle
  | .paused => some .reinit
  | .idle => some .idle
  | .asked => some .asked
  | .writing => some .writing
  | _ => none

def quitNext : P → Option P
  | .gone | .leaving => none
  | _ => some .leaving

/-- `retry`: may a failed output be used again (setting of the transport). -/
def deleteNext (retry : Bool) : P → Option P
  | .closing | .leaving => some .gone
  | .failed => if retry then none else some .gone
  | _ => none

/-- What may happen next. -/
def next (retry : Bool) (p : P) (e : Ev) : Option P :=
  match e with
  | .check r => if p = .idle then some (checkNext r) else none
  | .write _ r => if p = .checked then some (writeNext r) else none
  | .complete r => if p = .written then some (complNext r) else none
  | .back r => backNext p r
  | .flush => if p = .idle then some .idle else none
  | .drop _ => if p = .skipping then some .idle else none
  | .eof => if p = .idle then some .closing else none
  | .retry r => if p = .failed ∧ retry = true then some (if r then .paused else .closing) else none
  | .init r => if p = .reinit then some (if r then .idle else .paused) else none
  | .quit => quitNext p
  | .delete => deleteNext retry p
  | .timer => timerNext p

/-- The automaton on a whole history. -/
def run (retry : Bool) (l : List Ev) : Option P :=
  l.foldl (fun o e => o.bind fun p => next retry p e) (some .idle)

/-- What was taken out of the queue of the port. -/
def consumed (l : List Ev) : List Item :=
  l.filterMap fun e => match e with
    | .write b _ => some (.data b)
    | .drop b => some (.data b)
    | .flush => some .eol
    | .eof => some .eof
    | _ => none

/-- One step together with the list of what came into the queue of the port
while the transport was there. -/
def arriveStep (c : Cfg) (p : S × List Item) (o : Op) : S × List Item :=
  (step c p.1 o,
   match o with
   | .arrive i => if p.1.opened then p.2 ++ [i] else p.2
   | _ => p.2)

/-- What came into the queue of the port while the transport was there. -/
def arrived (c : Cfg) (os : List Op) : List Item := (os.foldl (arriveStep c) (new, [])).2

end Verif.OutTransport.Spec
