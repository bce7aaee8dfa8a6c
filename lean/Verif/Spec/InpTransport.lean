import Verif.InpTransport

/-!
# What an input object and the receiver of the data may rely on

Written from the description of `DataInput` (`base/dabc/DataIO.h:49-137`) and
of `Read_CallBack` (`DataTransport.h:132-134`): an automaton over everything
that happens between the transport and its surrounding.
-/

namespace Verif.InpTransport.Spec

open Verif.InpTransport

/-- Where the conversation with the input object stands. -/
inductive P where
  /-- the size of the next buffer can be asked for -/
  | idle
  /-- the same, but only after a pause -/
  | timed
  /-- the input will say the size with a call-back -/
  | sizing
  /-- size known (0: any size will do), a buffer is needed -/
  | sized (n : Nat)
  /-- a buffer of suitable size is there -/
  | got (b sz : Nat)
  /-- the input will fill the buffer and call back -/
  | waiting (b : Nat)
  /-- the buffer can be completed -/
  | filling (b : Nat)
  /-- the same, but only after a pause -/
  | ftimed (b : Nat)
  /-- the buffer is filled and must be sent -/
  | full (b : Nat)
  /-- no more data: end of stream, error or call-back out of turn -/
  | finished
  /-- object deleted, the receiver has still to be told -/
  | ended
  /-- the receiver was told -/
  | over
  /-- the input must be given up on a wish from outside -/
  | leaving
  | gone
  /-- the whole process was ended: call-back while nothing was going on -/
  | exit
deriving DecidableEq, Repr

/-- The size as announced by the input. -/
def announced (v : Nat) : P :=
  if v ≤ validSize then .sized v
  else if v = cDfltBufSize then .sized 0
  else .finished

def sizeNext (r : Nat) : P :=
  if r = cRepeat then .idle
  else if r = cRepeatTimeOut then .timed
  else if r = cCallBack then .sizing
  else announced r

def backNext : P → Nat → Option P
  | .sizing, v => some (announced v)
  | .waiting b, _ => some (.filling b)
  | .idle, _ => some .exit
  | .timed, _ | .sized _, _ | .got _ _, _ | .filling _, _ | .ftimed _, _ | .finished, _ => some .finished
  | .full _, _ | .ended, _ | .over, _ | .leaving, _ | .gone, _ | .exit, _ => none

def startNext (b r : Nat) : P :=
  if r = cOk then .filling b else if r = cCallBack then .waiting b else .finished

def complNext (b r : Nat) : P :=
  if r = cOk then .full b
  else if r = cSkipBuffer then .idle
  else if r = cRepeat then .filling b
  else if r = cRepeatTimeOut then .ftimed b
  else .finished

def timerNext : P → Option P
  | .timed => some .idle
  | .ftimed b => some (.filling b)
  | .ended => none
  | .over => none
  | .leaving => none
  | .exit => none
  | p => some p

def quitNext : P → Option P
  | .full _ | .ended | .over | .leaving | .gone | .exit => none
  | _ => some .leaving

def deleteNext : P → Option P
  | .finished => some .ended
  | .leaving => some .gone
  | _ => none

/-- What may happen next. -/
def next (p : P) (e : Ev) : Option P :=
  match e with
  | .size r => if p = .idle then some (sizeNext r) else none
  | .back v => backNext p v
  | .take b sz =>
    match p with
    | .sized n => some (if sz < n then .finished else .got b (if n = 0 then sz else n))
    | _ => none
  | .start b sz r => if p = .got b sz then some (startNext b r) else none
  | .complete b r => if p = .filling b then some (complNext b r) else none
  | .send b => if p = .full b then some .idle else none
  | .eof => if p = .ended then some .over else none
  | .quit => quitNext p
  | .delete => deleteNext p
  | .create => if p = .gone then some .idle else none
  | .timer => timerNext p

/-- The automaton on a whole history. -/
def run (l : List Ev) : Option P := l.foldl (fun o e => o.bind fun p => next p e) (some .idle)

/-- Buffers which the input declared as filled. -/
def filled (l : List Ev) : List Nat :=
  l.filterMap fun e => match e with
    | .complete b r => if r = cOk then some b else none
    | _ => none

/-- Buffers which were sent. -/
def sent (l : List Ev) : List Nat :=
  l.filterMap fun e => match e with
    | .send b => some b
    | _ => none

/-- Buffers which were taken from the pool. -/
def taken (l : List Ev) : List Nat :=
  l.filterMap fun e => match e with
    | .take b _ => some b
    | _ => none

/-- An input object which does not use the mode with several buffers and calls
back from inside of `Read_Size` and `Read_Start` only when it then returns
`di_CallBack`. -/
structure Fits (a : Ans) : Prop where
  size : a.sizeBack ≠ none → a.size = cCallBack
  start : a.startBack ≠ none → a.start = cCallBack
  need : a.start ≠ cNeedMoreBuf
  enough : a.start ≠ cHasEnoughBuf
  more : a.compl ≠ cMoreBufReady

def answers : Op → List Ans
  | .output as | .pool _ as | .timer as | .back _ _ as => as
  | _ => []

def AllFit (os : List Op) : Prop := ∀ o ∈ os, ∀ a ∈ answers o, Fits a

end Verif.InpTransport.Spec
