import Verif.Buffer

/-!
# Model of `dabc::MemoryPool`, base/src/MemoryPool.cxx, with the buffers living on it

`World` is one allocated pool together with all `Buffer` objects.  Simplifications: the pool is neither
released nor re-allocated while used; each container is referenced by one `Buffer` object; each function
is one step (its accesses to the pool are under the pool mutex).  The fixed-size queue `fFree` is the
list of its items (see `Verif.Queue`, C02).  `none` results stand for an internal exception or
undefined behaviour.
-/

namespace Verif.Pool
open Verif.Buffer Verif.Pointer

/-- `MemoryBlock::Entry`, base/src/MemoryPool.cxx:30-35. -/
structure Entry where
  size : Nat
  refcnt : Nat
  deriving DecidableEq

/-- `fArr`, `fNumber`, `fFree`, base/src/MemoryPool.cxx:39-41. -/
structure Pool where
  arr : List Entry
  free : List Nat
  deriving DecidableEq

/-- `MemoryBlock::Allocate` / `Assign`, base/src/MemoryPool.cxx:76-125. -/
def Pool.create (sizes : List Nat) : Pool :=
  { arr := sizes.map fun s => ⟨s, 0⟩, free := List.range sizes.length }

/-- `fFree.Push(id)` on a queue of capacity `fNumber`: a full queue ignores the item, base/dabc/Queue.h:215-224. -/
def Pool.pushFree (p : Pool) (id : Nat) : Pool :=
  if p.free.length < p.arr.length then { p with free := p.free ++ [id] } else p

/-- One round of `IncreaseSegmRefs`, base/src/MemoryPool.cxx:430-439.  (`id == fNumber` passes the check
there and accesses outside of the array.) -/
def Pool.incOne (p : Pool) (id : Nat) : Option Pool :=
  match p.arr[id]? with
  | none => none
  | some e => some { p with arr := p.arr.set id { e with refcnt := e.refcnt + 1 } }

/-- `IncreaseSegmRefs(segm, num)`, base/src/MemoryPool.cxx:423-440. -/
def Pool.incRefs : Pool → List Seg → Option Pool
  | p, [] => some p
  | p, s :: rest => (p.incOne s.id).bind fun p => p.incRefs rest

/-- One round of `DecreaseSegmRefs`, base/src/MemoryPool.cxx:469-478. -/
def Pool.decOne (p : Pool) (id : Nat) : Option Pool :=
  match p.arr[id]? with
  | none => none
  | some e =>
    if e.refcnt = 0 then none
    else
      let p := { p with arr := p.arr.set id { e with refcnt := e.refcnt - 1 } }
      some (if e.refcnt - 1 = 0 then p.pushFree id else p)

/-- `DecreaseSegmRefs(segm, num)`, base/src/MemoryPool.cxx:462-480. -/
def Pool.decRefs : Pool → List Seg → Option Pool
  | p, [] => some p
  | p, s :: rest => (p.decOne s.id).bind fun p => p.decRefs rest

/-- `IsSingleSegmRefs(segm, num)`, base/src/MemoryPool.cxx:442-459. -/
def Pool.isSingle (p : Pool) : List Seg → Option Bool
  | [] => some true
  | s :: rest =>
    match p.arr[s.id]? with
    | none => none
    | some e => if e.refcnt ≠ 1 then some false else p.isSingle rest

/-- Size of block `id`. -/
def Pool.size (p : Pool) (id : Nat) : Nat := (p.arr[id]?.map Entry.size).getD 0

/-- First loop of `_TakeBuffer`, base/src/MemoryPool.cxx:355-366, over the items of `fFree`: number of
blocks needed, or `none` if the free blocks do not suffice.  `sum` is a `uint32_t`. -/
def needLoop (p : Pool) (size : Nat) : Nat → Nat → List Nat → Option Nat
  | sum, cnt, free =>
    if sum < size then
      match free with
      | [] => none
      | id :: rest => needLoop p size ((sum + p.size id) % 2 ^ 32) (cnt + 1) rest
    else some cnt
termination_by _ _ free => free.length

/-- Second loop of `_TakeBuffer`, base/src/MemoryPool.cxx:374-397: pool and segments. -/
def takeLoop (size : Nat) : Nat → Pool → List Nat → Option (Pool × List Seg)
  | sum, p, free =>
    if sum < size then
      match free with
      | [] => none
      | id :: rest =>
        match p.arr[id]? with
        | none => none
        | some e =>
          if e.refcnt ≠ 0 then none
          else
            let restsize := size - sum
            let seg : Seg := { id := id, off := 0, len := if restsize < e.size then restsize else e.size }
            let p := { arr := p.arr.set id { e with refcnt := e.refcnt + 1 }, free := rest : Pool }
            (takeLoop size ((sum + e.size) % 2 ^ 32) p rest).map fun r => (r.1, seg :: r.2)
    else some (p, [])
termination_by _ _ free => free.length

/-- A container, base/dabc/Buffer.h:69-81.  `owner` tells what `fPool` refers to. -/
inductive Owner where
  /-- this memory pool -/
  | pool
  /-- a `MemoryContainer`, base/src/Buffer.cxx:28-49 -/
  | memory
  /-- nothing (`MakeEmpty`, `CreateBuffer` without ownership) -/
  | nothing
  deriving DecidableEq

structure Cont where
  segs : List Seg
  cap : Nat
  owner : Owner
  deriving DecidableEq

/-- Outcome of a request for memory. -/
inductive TakeRes where
  /-- exception or null buffer; nothing changed -/
  | fail
  | ok (p : Pool) (c : Cont)
  deriving DecidableEq

/-- `_TakeBuffer(size, except, reserve_memory)`, base/src/MemoryPool.cxx:333-406, for an allocated pool. -/
def Pool.takeBuffer (p : Pool) (size : Nat) (reserve : Bool) : Option TakeRes :=
  if p.free.isEmpty ∧ reserve then some .fail
  else
    let size := if size = 0 ∧ reserve then p.size (p.free.headD 0) else size
    match needLoop p size 0 0 p.free with
    | none => some .fail
    | some cnt =>
      (takeLoop size 0 p p.free).bind fun (p, segs) =>
        let cap := if cnt < 8 then 8 else cnt
        if segs.length > cap then none else some (.ok p { segs := segs, cap := cap, owner := .pool })

/-- The pool, the blocks handed out by `TakeRawBuffer` (ghost) and all buffers; a released buffer is
`none`. -/
structure World where
  pool : Pool
  raw : List Nat
  bufs : List (Option Cont)
  deriving DecidableEq

def World.create (sizes : List Nat) : World := { pool := Pool.create sizes, raw := [], bufs := [] }

/-- Calls; buffers are named by their index in `bufs`. -/
inductive Op where
  | take (size : Nat)
  | takeRaw
  | releaseRaw (id : Nat)
  | create (size : Nat) (owner : Bool)
  | makeEmpty (cap : Nat)
  | dup (h : Nat)
  | release (h : Nat)
  | setTotalSize (h n : Nat)
  | cutFromBegin (h n : Nat)
  | insert (t pos s : Nat) (moverefs : Bool)
  | part (h : Nat) (p : Ptr) (len : Nat) (allowsegmented : Bool)

/-- Observable results. -/
inductive Out where
  | buffer (h : Nat) | rawId (id : Nat) | done | failed
  deriving DecidableEq

/-- A new buffer object. -/
def World.add (w : World) (c : Cont) : World × Out := ({ w with bufs := w.bufs ++ [some c] }, .buffer w.bufs.length)

/-- Destructor of the container, base/src/Buffer.cxx:53-72. -/
def World.drop (w : World) (c : Cont) : Option World :=
  if c.owner = .pool then (w.pool.decRefs c.segs).map fun p => { w with pool := p } else some w

/-- `Release()` of buffer `h`. -/
def World.releaseBuf (w : World) (h : Nat) : Option World :=
  match w.bufs[h]? with
  | some (some c) => (w.drop c).map fun w => { w with bufs := w.bufs.set h none }
  | _ => some w

/-- `Duplicate()`, base/src/Buffer.cxx:192-212. -/
def World.dupCont (w : World) (c : Cont) : Option (World × Cont) :=
  if c.owner = .pool then (w.pool.incRefs c.segs).map fun p => ({ w with pool := p }, c) else some (w, c)

/-- Effect of an edit on a container: the segments given back, base/src/Buffer.cxx:129-132 and 157.
`SetTotalSize` casts `fPool` to `MemoryPool` without check: undefined for `MemoryContainer`. -/
def World.edit (w : World) (h : Nat) (c : Cont) (r : Option Edit) (unchecked : Bool) : Option (World × Out) :=
  match r with
  | none => some (w, .failed)
  | some (none, _) => (w.releaseBuf h).map fun w => (w, .done)
  | some (some l, d) =>
    if d ≠ [] ∧ c.owner = .memory ∧ unchecked then none
    else
      (w.drop { c with segs := d }).map fun w => ({ w with bufs := w.bufs.set h (some { c with segs := l }) }, .done)

/-- End of `Insert` once `ownbuf` is known, base/src/Buffer.cxx:256-313.  `fromSrc`: `ownbuf` is the
container of `src` itself. -/
def World.insertOwn (w : World) (t pos s : Nat) (ct own : Cont) (fromSrc moverefs : Bool) : Option (World × Out) :=
  match insertSegs ct.segs ct.cap pos own.segs with
  | none => -- exception: a temporary `ownbuf` is destroyed
    if fromSrc then some (w, .failed) else (w.drop own).map fun w => (w, .failed)
  | some (l, extra) =>
    (if ct.owner = .pool then (w.pool.incRefs extra).map fun p => { w with pool := p } else some w).bind fun w =>
    let w := { w with bufs := w.bufs.set t (some { ct with segs := l }) }
    let own := if ct.owner = .pool ∧ own.owner = .pool then { own with segs := [] } else own
    if fromSrc then
      -- `ownbuf` and `src` are the same container; it is destroyed by `src.Release()`
      (w.drop own).map fun w => ({ w with bufs := w.bufs.set s none }, .done)
    else
      (w.drop own).bind fun w => (if moverefs then w.releaseBuf s else some w).map fun w => (w, .done)

/-- `Insert(pos, src, moverefs)`, base/src/Buffer.cxx:225-314. -/
def World.insert (w : World) (t pos s : Nat) (moverefs : Bool) : Option (World × Out) :=
  match w.bufs[t]?, w.bufs[s]? with
  | some bt, some (some cs) =>
    if totalSize cs.segs = 0 then some (w, .done)
    else
      match bt with
      | none =>
        if moverefs then some ({ w with bufs := (w.bufs.set t (some cs)).set s none }, .done)
        else (w.dupCont cs).map fun (w, c) => ({ w with bufs := w.bufs.set t (some c) }, .done)
      | some ct =>
        if ct.owner = .pool ∧ cs.owner ≠ .pool then
          (w.pool.takeBuffer (totalSize cs.segs) true).bind fun
          | .fail => some (w, .failed)
          | .ok p own => { w with pool := p }.insertOwn t pos s ct own false moverefs
        else if moverefs then w.insertOwn t pos s ct cs true true
        else (w.dupCont cs).bind fun (w, own) => w.insertOwn t pos s ct own false false
  | _, _ => some (w, .done)

/-- One call. -/
def World.step (w : World) : Op → Option (World × Out)
  | .take size =>
    (w.pool.takeBuffer size true).map fun
    | .fail => (w, .failed)
    | .ok p c => { w with pool := p }.add c
  | .takeRaw => -- base/src/MemoryPool.cxx:318-324
    match w.pool.free with
    | [] => some (w, .failed)
    | id :: rest => some ({ w with pool := { w.pool with free := rest }, raw := id :: w.raw }, .rawId id)
  | .releaseRaw id => -- base/src/MemoryPool.cxx:326-330
    some ({ w with pool := w.pool.pushFree id, raw := w.raw.erase id }, .done)
  | .create size owner => -- base/src/Buffer.cxx:419-448
    some (w.add { segs := [⟨0, 0, size⟩], cap := 8, owner := if owner then .memory else .nothing })
  | .makeEmpty cap => -- base/dabc/Buffer.h:216
    some (w.add { segs := [], cap := cap, owner := .nothing })
  | .dup h =>
    match w.bufs[h]? with
    | some (some c) => (w.dupCont c).map fun (w, c) => w.add c
    | _ => some (w, .failed)
  | .release h => (w.releaseBuf h).map fun w => (w, .done)
  | .setTotalSize h n =>
    match w.bufs[h]? with
    | some (some c) => w.edit h c (setTotalSize c.segs n) true
    | _ => some (w, .done)
  | .cutFromBegin h n =>
    match w.bufs[h]? with
    | some (some c) => w.edit h c (cutFromBegin c.segs n) false
    | _ => some (w, .done)
  | .insert t pos s moverefs => w.insert t pos s moverefs
  | .part h p len seg => -- base/src/Buffer.cxx:349-415; a part of a non-pool buffer gets no owner
    match w.bufs[h]? with
    | some (some c) =>
      (getNextPart c.segs p len seg).bind fun
      | (none, _) => some (w, .failed)
      | (some l, _) =>
        if c.owner = .pool then
          (w.pool.incRefs l).map fun q => { w with pool := q }.add { segs := l, cap := c.cap, owner := .pool }
        else some (w.add { segs := l, cap := c.cap, owner := .nothing })
    | _ => some (w, .failed)

end Verif.Pool
