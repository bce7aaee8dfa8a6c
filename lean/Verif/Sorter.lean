import Verif.Trig

/-!
# Sorter of subevents

`hadaq::SorterModule`, plugins/hadaq/src/SorterModule.cxx, plugins/hadaq/hadaq/SorterModule.h.

A buffer of the input queue is a list of subevents in the order in which the iterator of `retransmit` visits them, or an
end-of-file buffer. A record of `fSubs` keeps, instead of the address of the subevent, the subevent itself; that the memory
behind the address still belongs to a buffer in the input queue is a theorem. What other threads decide - whether one can
send or take a buffer, whether the input queue is full, which result `std::sort` gives - are inputs of a call (`Env`).
Buffers which arrive while `retransmit` runs are taken as arrived before. `fLastRet`, `fBufCnt` are only for debugging,
`fFlushCnt` only decides whether a timer event does something (an input of `timer`).
-/

namespace Verif.Sorter

open Verif.Bytes Verif.Trig

/-- A subevent: trigger number `(GetTrigNr() >> 8) & (fTriggersRange - 1)`, padded size, and content. -/
structure Sub where
  trig : Word
  size : Nat
  content : List Byte
  deriving DecidableEq

/-- A buffer. -/
inductive Inp where
  | eof
  | data (l : List Sub)
  deriving DecidableEq

/-- `SubsRec`, SorterModule.h:38-43. -/
structure Rec where
  sub : Sub
  buf : Nat
  deriving DecidableEq

/-- Data members, SorterModule.h:53-62; `out` is the size of `fOutBuf` and what is written to it, `sent` are the buffers sent,
`old` the subevents skipped with the message "older events appeared". -/
structure State where
  queue : List Inp
  next : Nat
  ready : Nat
  last : Word
  subs : List Rec
  out : Option (Nat × List Sub)
  sent : List Inp
  old : List Sub
  deriving DecidableEq

/-- Constructor, SorterModule.cxx:22-45. -/
def init : State := { queue := [], next := 0, ready := 0, last := 0xffffffff, subs := [], out := none, sent := [], old := [] }

/-- What is decided outside of the module during one call. -/
structure Env where
  full : Bool
  sendEof : Bool
  send1 : Bool
  send2 : Bool
  take : Bool
  size : Nat
  sort : List Rec → List Rec

/-- `DecremntInputIndex(cnt)`, SorterModule.cxx:47-65. -/
def decrement (st : State) (cnt : Nat) : State :=
  { st with
    next := if st.next > cnt then st.next - cnt else 0,
    ready := if st.ready > cnt then st.ready - cnt else 0,
    subs := st.subs.filterMap fun r => if r.buf < cnt then none else some { r with buf := r.buf - cnt } }

/-- Largest buffer index, SorterModule.cxx:76-78. -/
def maxBuf (l : List Rec) : Nat := l.foldl (fun m r => if r.buf > m then r.buf else m) 0

/-- Smallest buffer index, SorterModule.cxx:89-93. -/
def minBuf (l : List Rec) : Nat := l.foldl (fun m r => if r.buf < m then r.buf else m) 0xffffffff

/-- `SkipInputBuffers(0, cnt)`. -/
def skip (st : State) (cnt : Nat) : State := { st with queue := st.queue.drop cnt }

/-- `RemoveUsedSubevents(num)`, SorterModule.cxx:67-107. -/
def removeUsed (st : State) (num : Nat) : State × Bool :=
  if num = 0 then (st, false)
  else if num ≥ st.subs.length then
    let m := maxBuf st.subs
    (skip (decrement { st with subs := [] } (m + 1)) (m + 1), true)
  else
    let m := minBuf (st.subs.drop num)
    let st := { st with subs := st.subs.drop num }
    if m > 0 then (skip (decrement st m) m, true) else (st, false)

/-- Check that the trigger numbers follow each other, SorterModule.cxx:157-165; `none` if not. -/
def chain (range : Word) : Word → List Rec → Option Word
  | prev, [] => some prev
  | prev, r :: l =>
    if prev ≠ 0xffffffff then (if diff range prev r.sub.trig = 1 then chain range r.sub.trig l else none)
    else chain range r.sub.trig l

/-- Result of the first loop of `retransmit`: state, `new_data`, `flush_data`, and whether an end-of-file buffer is in front. -/
structure Scanned where
  st : State
  newData : Bool
  flush : Bool
  eof : Bool

/-- First loop of `retransmit`, SorterModule.cxx:114-176, with the buffers from `fNextBufIndx` on. -/
def scan (range : Word) : List Inp → State → Bool → Scanned
  | [], st, nd => ⟨st, nd, false, false⟩
  | .eof :: _, st, nd => if st.next = 0 then ⟨st, nd, false, true⟩ else ⟨st, nd, true, false⟩
  | .data l :: q, st, nd =>
    let subs := st.subs ++ l.map fun s => ⟨s, st.next⟩
    let nd := nd || !l.isEmpty
    if st.ready = st.next ∧ st.subs = [] then
      match chain range st.last subs with
      | some prev => scan range q { st with last := prev, ready := st.ready + 1, subs := [], next := st.next + 1 } false
      | none => scan range q { st with subs := subs, next := st.next + 1 } nd
    else scan range q { st with subs := subs, next := st.next + 1 } nd

/-- Result of the second loop: number of records used, last trigger number, what is written, what is too old, and whether
the buffer is full. -/
structure Filled where
  cnt : Nat
  last : Word
  written : List Sub
  old : List Sub
  full : Bool

/-- Second loop of `retransmit`, SorterModule.cxx:206-240, with the rest size of the output buffer; `hold` stands for
`!full_recv_queue && !flush_data`. -/
def fill (range : Word) (next : Nat) (hold : Bool) : List Rec → Word → Nat → Filled
  | [], last, _ => ⟨0, last, [], [], false⟩
  | r :: l, last, free =>
    let d := if last ≠ 0xffffffff then diff range last r.sub.trig else 1
    if d < 0 then
      let f := fill range next hold l last free
      { f with cnt := f.cnt + 1, old := r.sub :: f.old }
    else if d ≠ 1 ∧ r.buf + 2 > next ∧ hold = true then ⟨0, last, [], [], false⟩
    else if free < r.sub.size then ⟨0, last, [], [], true⟩
    else
      let f := fill range next hold l r.sub.trig (free - r.sub.size)
      { f with cnt := f.cnt + 1, written := r.sub :: f.written }

/-- Filled size of the output buffer. -/
def filled (l : List Sub) : Nat := (l.map Sub.size).sum

/-- `Recv()` of the first buffer, `DecremntInputIndex()` and `Send(buf)`, SorterModule.cxx:127-129, 184-186. -/
def forward (st : State) : State :=
  let st := { st with sent := st.sent ++ st.queue.take 1, queue := st.queue.drop 1 }
  decrement st 1

/-- Part of `retransmit` with an output buffer, SorterModule.cxx:204-257. -/
def fillOut (range : Word) (env : Env) (flush : Bool) (st : State) (size : Nat) (content : List Sub) : State × Bool :=
  let f := fill range st.next (!env.full && !flush) st.subs st.last (size - filled content)
  let content := content ++ f.written
  let flush := flush || f.full || env.full
  let st := { st with last := f.last, old := st.old ++ f.old }
  let st := if flush = true ∧ filled content > 0 then { st with out := none, sent := st.sent ++ [.data content] }
    else { st with out := some (size, content) }
  let r := removeUsed st f.cnt
  (r.1, flush || r.2)

/-- `retransmit()`, SorterModule.cxx:110-257. -/
def retransmit (range : Word) (env : Env) (st : State) : State × Bool :=
  let s := scan range (st.queue.drop st.next) st false
  if s.eof then (if env.sendEof then (forward s.st, true) else (s.st, false))
  else
    let st := if s.newData then { s.st with subs := env.sort s.st.subs } else s.st
    if st.ready > 0 ∧ env.send1 = true ∧ st.queue ≠ [] then (forward st, true)
    else if !env.send2 then (st, false)
    else
      match st.out with
      | some (size, content) => fillOut range env s.flush st size content
      | none => if env.take then fillOut range env s.flush st env.size [] else (st, false)

/-- `ProcessTimerEvent`, SorterModule.cxx:260-281, when the buffer is to be flushed. -/
def timer (send : Bool) (st : State) : State :=
  match st.out with
  | some (_, content) => if send = true ∧ filled content > 0 then { st with out := none, sent := st.sent ++ [.data content] } else st
  | none => st

end Verif.Sorter
