import Verif.Text
/-!
# Record with slow control data

`mbs::SlowControlData`, plugins/mbs/mbs/SlowControlData.h:33-265, used by the EPICS, DIM and FESA plugins.

Simplified: values of type `double` are their 8 bytes.  `reserve` of more than `lim` values throws.  Reading outside of the
given memory is the result `oob`.
-/

namespace Verif.SlowData
open Verif.Bytes Verif.Json Verif.Text

structure R where
  id : Nat := 0
  time : Nat := 0
  longNames : List (List Byte) := []
  longs : List (BitVec 64) := []
  doubleNames : List (List Byte) := []
  doubles : List (BitVec 64) := []
  deriving DecidableEq, Repr

/-- `AddLong`, plugins/mbs/mbs/SlowControlData.h:107-118, and `AddDouble`, 121-131: names and values. -/
def add (name : List Byte) (v : BitVec 64) (check : Bool) : List (List Byte) → List (BitVec 64) → List (List Byte) × List (BitVec 64)
  | [], vs => ([name], vs ++ [v])
  | n :: ns, w :: vs =>
    if check ∧ n = name then (n :: ns, v :: vs)
    else
      let r := add name v check ns vs
      (n :: r.1, w :: r.2)
  | n :: ns, [] => (n :: ns ++ [name], [v])

def addLong (name : List Byte) (v : BitVec 64) (check : Bool) (r : R) : R :=
  let p := add name v check r.longNames r.longs
  { r with longNames := p.1, longs := p.2 }

def addDouble (name : List Byte) (v : BitVec 64) (check : Bool) (r : R) : R :=
  let p := add name v check r.doubleNames r.doubles
  { r with doubleNames := p.1, doubles := p.2 }

/-- Number and names of one kind, plugins/mbs/mbs/SlowControlData.h:50-57. -/
def block (ns : List (List Byte)) : List Byte := decNat (ns.length % 2 ^ 32) ++ [32, 0] ++ ns.flatMap (· ++ [0])

/-- `BuildDescriptor`, plugins/mbs/mbs/SlowControlData.h:46-69. -/
def descriptor (r : R) : List Byte :=
  let d := block r.longNames ++ block r.doubleNames
  d ++ List.replicate ((4 - d.length % 4) % 4) 0

def values (vs : List (BitVec 64)) : List Byte := enc 8 vs.length ++ vs.flatMap fun v => enc 8 v.toNat

/-- What `Write` copies, plugins/mbs/mbs/SlowControlData.h:160-186. -/
def image (r : R) : List Byte :=
  enc 4 r.id ++ enc 4 r.time ++ values r.longs ++ values r.doubles ++ descriptor r

/-- `GetRawSize`, plugins/mbs/mbs/SlowControlData.h:142-153, as `unsigned`. -/
def rawSize (r : R) : Nat :=
  (4 + 4 + 8 + r.longs.length * 8 + 8 + r.doubles.length * 8 + (descriptor r).length) % 2 ^ 32

inductive Wr where
  /-- returned 0 -/
  | fail
  /-- returned size, the memory afterwards -/
  | ok (size : Nat) (mem : List Byte)
  /-- wrote behind the end of the buffer -/
  | overrun
  deriving DecidableEq, Repr

/-- `Write`, plugins/mbs/mbs/SlowControlData.h:155-188. -/
def write (r : R) (buf : List Byte) : Wr :=
  let size := rawSize r
  if size > buf.length then .fail
  else if (image r).length > buf.length then .overrun
  else .ok size (image r ++ buf.drop (image r).length)

inductive Rd (α : Type) where
  | ok (a : α)
  /-- returned false -/
  | bad
  /-- read outside of the memory -/
  | oob
  | thrown
  /-- a number out of range for `sscanf` -/
  | undef
  deriving DecidableEq, Repr

def Rd.bind {α β : Type} (x : Rd α) (f : α → Rd β) : Rd β :=
  match x with
  | .ok a => f a
  | .bad => .bad
  | .oob => .oob
  | .thrown => .thrown
  | .undef => .undef

/-- `memcpy` of a number of `k` bytes. -/
def getNum (k : Nat) (l : List Byte) : Rd (Nat × List Byte) :=
  if l.length < k then .oob else .ok (dec (l.take k), l.drop k)

/-- plugins/mbs/mbs/SlowControlData.h:206-210, 215-219. -/
def getVals : Nat → List Byte → Rd (List (BitVec 64) × List Byte)
  | 0, l => .ok ([], l)
  | n + 1, l => (getNum 8 l).bind fun p => (getVals n p.2).bind fun q => .ok (BitVec.ofNat 64 p.1 :: q.1, q.2)

/-- Number of values and values, plugins/mbs/mbs/SlowControlData.h:204-210, 213-219. -/
def getValues (lim : Nat) (l : List Byte) : Rd (List (BitVec 64) × List Byte) :=
  (getNum 8 l).bind fun p => if lim < p.1 then .thrown else getVals p.1 p.2

/-- Text until the zero byte and what follows it. -/
def getStr (l : List Byte) : Rd (List Byte × List Byte) :=
  if 0 ∈ l then .ok (l.takeWhile (· ≠ 0), (l.dropWhile (· ≠ 0)).tail) else .oob

/-- plugins/mbs/mbs/SlowControlData.h:233-240, 254-261. -/
def getNames : Nat → List Byte → Rd (List (List Byte) × List Byte)
  | 0, l => .ok ([], l)
  | n + 1, l =>
    if l = [] then .bad
    else (getStr l).bind fun p => (getNames n p.2).bind fun q => .ok (p.1 :: q.1, q.2)

/-- Number of names, which must be `num`, and names, plugins/mbs/mbs/SlowControlData.h:221-240, 242-261. -/
def getBlock (num : Nat) (l : List Byte) : Rd (List (List Byte) × List Byte) :=
  (getStr l).bind fun p =>
    match scanUint 32 p.1 with
    | .fail => .bad
    | .undef => .undef
    | .val v => if v ≠ num then .bad else getNames num p.2

/-- `Read`, plugins/mbs/mbs/SlowControlData.h:190-264. -/
def read (lim : Nat) (buf : List Byte) : Rd R :=
  if buf.length < 24 then .bad
  else
    (getNum 4 buf).bind fun i => (getNum 4 i.2).bind fun t =>
    (getValues lim t.2).bind fun lv => (getValues lim lv.2).bind fun dv =>
    (getBlock lv.1.length dv.2).bind fun ln => (getBlock dv.1.length ln.2).bind fun dn =>
    .ok { id := i.1, time := t.1, longNames := ln.1, longs := lv.1, doubleNames := dn.1, doubles := dv.1 }

end Verif.SlowData
