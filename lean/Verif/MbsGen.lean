/-!
# Model of the MBS generator

`mbs::GeneratorInput`, plugins/mbs/src/GeneratorInput.cxx, with the effect of the calls of `mbs::WriteIterator`
(plugins/mbs/src/Iterator.cxx:205-254, 304-345, 378-446) on a buffer with one segment.

Simplified: events are records instead of bytes (the bytes are in `Verif.MbsIter`); event numbers do not wrap; the random values of the
go4 format are left out.
-/

namespace Verif.MbsGen

/-- Options of the url, plugins/mbs/src/GeneratorInput.cxx:50-60. -/
structure Cfg where
  numsub : Nat := 2
  procid : Nat := 0
  size : Nat := 32
  go4 : Bool := true
  fullid : Nat := 0
  deriving DecidableEq, Repr

/-- Subevent: id, size of the raw data, first words which are set. -/
structure Sub where
  id : Nat
  size : Nat
  words : List Nat
  deriving DecidableEq, Repr

structure Ev where
  num : Nat
  subs : List Sub
  deriving DecidableEq, Repr

/-- Bytes of a subevent and of an event, with their headers. -/
def Sub.bytes (x : Sub) : Nat := 12 + x.size
def Ev.bytes (e : Ev) : Nat := 16 + (e.subs.map Sub.bytes).sum

/-- `subsz`, rounded by `SetRawDataSize`. -/
def Cfg.raw (c : Cfg) : Nat := if c.go4 then 4 * (c.size / 4) else 2 * (c.size / 2)

/-- Bytes written behind the header of the subevent, plugins/mbs/src/GeneratorInput.cxx:99-110. -/
def Cfg.written (c : Cfg) : Nat :=
  if c.go4 then 4 * (c.size / 4) else (if c.size > 0 then 4 else 0) + (if c.size > 4 then 4 else 0)

/-- Subevent `n` of event `num`, plugins/mbs/src/GeneratorInput.cxx:91-112. -/
def mkSub (c : Cfg) (num n : Nat) : Sub where
  id := if c.fullid ≠ 0 ∧ c.numsub = 1 then c.fullid else (c.procid + n) % 65536 + 65536 * ((c.procid + n + 1) % 256)
  size := c.raw
  words := if c.go4 then [] else (if c.size > 0 then [num] else []) ++ (if c.size > 4 then [c.procid + n] else [])

/-- Result of the loop over subevents: the subevents, the place left, whether all were written, whether anything was written behind the
end of the buffer. -/
structure SubRes where
  subs : List Sub
  rest : Nat
  done : Bool
  over : Bool
  deriving DecidableEq, Repr

/-- Loop over subevents, plugins/mbs/src/GeneratorInput.cxx:90-116; `k` are left, the next one is `n`. -/
def subLoop (c : Cfg) (num : Nat) : Nat → Nat → Nat → SubRes
  | 0, _, place => ⟨[], place, true, false⟩
  | k + 1, n, place =>
    /- `NewSubevent` refuses when there is no place at all, or too little. -/
    if place = 0 ∨ place < 12 + c.size then ⟨[], place, false, false⟩
    else
      let x := mkSub c num n
      let r := subLoop c num k (n + 1) (place - x.bytes)
      ⟨x :: r.subs, r.rest, r.done, decide (12 + c.written > place) || r.over⟩

/-- What was generated. -/
structure Res where
  events : List Ev
  count : Nat
  over : Bool
  deriving DecidableEq, Repr

/-- Main loop with `Close`, plugins/mbs/src/GeneratorInput.cxx:86-125.  `Close` also finishes an event which was not completed, unless
there is no place behind it. -/
def evLoop (c : Cfg) : Nat → Nat → Nat → Res
  | 0, _, count => ⟨[], count, false⟩
  | fuel + 1, place, count =>
    if place < 16 then ⟨[], count, false⟩
    else
      let r := subLoop c count c.numsub 0 (place - 16)
      if r.done then
        let q := evLoop c fuel r.rest (count + 1)
        ⟨⟨count, r.subs⟩ :: q.events, q.count, r.over || q.over⟩
      else ⟨if r.rest = 0 then [] else [⟨count, r.subs⟩], count, r.over⟩

/-- `Read_Complete`, plugins/mbs/src/GeneratorInput.cxx:81-130, for a buffer with `size` bytes; `Reset` refuses small buffers. -/
def complete (c : Cfg) (size count : Nat) : Res :=
  if size < 28 then ⟨[], count, false⟩ else evLoop c size size count

/-- Several buffers one after another. -/
def buffers (c : Cfg) (count : Nat) : List Nat → List (List Ev) × Nat
  | [] => ([], count)
  | b :: bs =>
    let r := complete c b count
    let q := buffers c r.count bs
    (r.events :: q.1, q.2)

end Verif.MbsGen
