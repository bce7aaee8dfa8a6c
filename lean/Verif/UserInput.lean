/-!
# Model of the user readout

`user::Input`, plugins/user/src/Input.cxx, with the calls made by `dabc::InputTransport`, base/src/DataTransport.cxx:345-573, and the effect
of `mbs::WriteIterator` (plugins/mbs/src/Iterator.cxx:205-254, 304-345, 378-446) on a buffer with one segment.

What the functions of the user do (which trigger comes, what is read out) is an input of every call.  Simplified: the readout returns one of
the four codes below; its size is below 2^32; the output port always accepts buffers and the pool always has one; event numbers do not wrap.
Access to memory outside of the buffer is one outcome, after which nothing more is modelled.
-/

namespace Verif.UserInput

abbrev Byte := BitVec 8

/-- Options of the url, plugins/user/src/Input.cxx:30-37. -/
structure Cfg where
  bufsize : Nat := 65536
  crate : Nat := 0
  procid : Nat := 1
  control : Nat := 7
  size : Nat := 32
  early : Bool := false
  deriving DecidableEq, Repr

inductive Code
  | ok
  | skip
  | timeout
  | error
  deriving DecidableEq, Repr

/-- What the function `User_Readout` does: bytes written from the address it gets, value of `size`, result. -/
structure Readout where
  data : List Byte
  size : Nat
  code : Code
  deriving DecidableEq, Repr

/-- Calls of functions of the user. -/
inductive Call
  | wait
  | reset
  | readout
  deriving DecidableEq, Repr

/-- MBS event with its only subevent. -/
structure Ev where
  num : Nat
  trigger : Nat
  crate : Nat
  procid : Nat
  control : Nat
  raw : List Byte
  deriving DecidableEq, Repr

/-- Content of the buffer of the transport: memory as it came from the pool, nothing, or an event. -/
inductive Buf
  | mem (m : List Byte)
  | null
  | event (e : Ev)
  deriving DecidableEq, Repr

inductive Out
  | outside
  | ret (code : Code) (buf : Buf) (count : Nat) (calls : List Call)
  deriving DecidableEq, Repr

/-- Bytes `d` written at position `n` of `m`. -/
def put (m : List Byte) (n : Nat) (d : List Byte) : List Byte := m.take n ++ d ++ m.drop (n + d.length)

/-- Two bytes of `iTrigger`. -/
def le16 (x : Nat) : List Byte := [BitVec.ofNat 8 x, BitVec.ofNat 8 (x / 256)]

/-- Raw data after the readout: `evhdr` is `iter.rawdata()`, so the trigger type goes to bytes 10 and 11 of the raw data,
plugins/user/src/Input.cxx:92-99. -/
def filled (m : List Byte) (trig : Nat) (r : Readout) : List Byte := put (put (m.drop 28) 10 (le16 trig)) 0 r.data

/-- `FinishSubEvent(subsize)`, plugins/mbs/src/Iterator.cxx:378-407: limited by the buffer, whole 16-bit words. -/
def rawSize (len : Nat) (sz : Nat) : Nat := 2 * (min sz (len - 28) / 2)

/-- Event in the buffer, plugins/user/src/Input.cxx:90-127; arguments 3 and 4 of `NewSubevent` are the procid and the control. -/
def mkEv (c : Cfg) (count : Nat) (m : List Byte) (trig : Nat) (r : Readout) : Ev where
  num := count
  trigger := 1
  crate := c.crate % 256
  procid := c.control % 65536
  control := c.procid % 256
  raw := (filled m trig r).take (rawSize m.length r.size)

/-- `Read_Complete`, plugins/user/src/Input.cxx:78-138, for a buffer with memory `m`. -/
def complete (c : Cfg) (count : Nat) (m : List Byte) (trig : Nat) (r : Readout) : Out :=
  if trig = 0 then .ret .timeout (.mem m) count [.wait]
  else if m.length < 40 ∨ m.length < 28 + c.size ∨ m.length < 28 + r.data.length then .outside
  else
    let calls := if c.early then [Call.wait, .reset, .readout] else [Call.wait, .readout, .reset]
    match r.code with
    | .ok => .ret .ok (.event (mkEv c count m trig r)) (count + 1) calls
    | code => .ret code .null count calls

/-- States of the transport between calls of `ProcessSend`: a buffer will be taken, the timeout of `Read_Complete` is waited for, closed,
memory was accessed outside of the buffer. -/
inductive Phase
  | init
  | waiting
  | closed
  | broken
  deriving DecidableEq, Repr

structure St where
  phase : Phase := .init
  cur : Buf := .null
  count : Nat := 0
  sent : List Ev := []
  calls : List Call := []
  deriving DecidableEq, Repr

/-- Inputs of one call: memory of the buffer from the pool, trigger, readout. -/
structure Inp where
  mem : List Byte
  trig : Nat
  r : Readout
  deriving DecidableEq, Repr

/-- `Read_Complete` and what the transport does with the result, base/src/DataTransport.cxx:497-567. -/
def finish (c : Cfg) (s : St) (m : List Byte) (i : Inp) : St :=
  match complete c s.count m i.trig i.r with
  | .outside => { s with phase := .broken }
  | .ret code b n l =>
    let s := { s with count := n, calls := s.calls ++ l }
    match code with
    | .ok => { s with phase := .init, cur := .null, sent := s.sent ++ (match b with | .event e => [e] | _ => []) }
    | .skip => { s with phase := .init, cur := .null }
    | .timeout => { s with phase := .waiting, cur := b }
    | .error => { s with phase := .closed, cur := .null }

/-- One call of `ProcessSend`, base/src/DataTransport.cxx:345-573; without buffer nothing is done (line 491). -/
def step (c : Cfg) (s : St) (i : Inp) : St :=
  match s.phase with
  | .init => finish c s i.mem i
  | .waiting =>
    match s.cur with
    | .mem m => finish c s m i
    | _ => s
  | .closed => s
  | .broken => s

def run (c : Cfg) (s : St) (is : List Inp) : St := is.foldl (step c) s

/-- The readout which is built in, plugins/user/src/Input.cxx:177-191: `k` values are left, `sz` bytes were written. -/
def builtinLoop (c : Cfg) (vals : Nat → BitVec 32) : Nat → Nat → Readout
  | 0, sz => ⟨[], sz, .ok⟩
  | k + 1, sz =>
    if c.size ≤ sz then ⟨[], sz, .error⟩
    else
      let r := builtinLoop c vals k (sz + 4)
      let v := vals (99 - k)
      ⟨[v.setWidth 8, (v >>> 8).setWidth 8, (v >>> 16).setWidth 8, (v >>> 24).setWidth 8] ++ r.data, r.size, r.code⟩

def builtin (c : Cfg) (vals : Nat → BitVec 32) : Readout := builtinLoop c vals 100 0

end Verif.UserInput
