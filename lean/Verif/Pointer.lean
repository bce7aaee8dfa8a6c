/-!
# Model of `dabc::Pointer`, base/dabc/Pointer.h and base/src/Pointer.cxx

A buffer is seen as the list of its segments; `sizes` are the segment sizes, `mem` the segment contents.
A pointer is the segment index, the offset of `fPtr` from the begin of that segment, and the two size
fields.  Simplifications: a pointer on raw memory (`Pointer(void*, sz)`, Pointer.h:57-64) is treated as a
pointer on a buffer with one segment (`NumSegments()` is only looked at in `long_shift` for
`fFullSize ≠ len`, which does not happen when raw and full size agree); source and target memory of a
copy do not overlap.  `none` stands for an exception (which terminates the program, since the functions
are declared `throw()`) or for access outside the segment.
-/

namespace Verif.Pointer

/-- Data members, base/dabc/Pointer.h:39-43.  `attached` is false after `reset()`. -/
structure Ptr where
  segm : Nat
  off : Nat
  raw : Nat
  full : Nat
  attached : Bool
  deriving DecidableEq

/-- Subtraction of `uint32_t`. -/
def sub32 (a b : Nat) : Nat := (a + 2 ^ 32 - b) % 2 ^ 32

/-- `SegmentSize(n)`, base/dabc/Buffer.h:174. -/
def segSize (sizes : List Nat) (n : Nat) : Nat := sizes.getD n 0

/-- `reset()`, base/dabc/Pointer.h:136-143. -/
def Ptr.null : Ptr := { segm := 0, off := 0, raw := 0, full := 0, attached := false }

/-- `reset(const Buffer&)` with `pos = 0`, base/dabc/Pointer.h:119-134. -/
def start (sizes : List Nat) : Ptr :=
  { segm := 0, off := 0, raw := segSize sizes 0, full := sizes.sum, attached := true }

/-- Loop of `long_shift`, base/src/Pointer.cxx:40-44. -/
def shiftLoop (sizes : List Nat) (segm len full : Nat) : Nat × Nat × Nat :=
  if segm < sizes.length ∧ segSize sizes segm < len then
    shiftLoop sizes (segm + 1) (len - segSize sizes segm) (sub32 full (segSize sizes segm))
  else (segm, len, full)
termination_by sizes.length - segm

/-- `long_shift(len)`, base/src/Pointer.cxx:25-52; called with `rawsize() ≤ len`. -/
def longShift (sizes : List Nat) (p : Ptr) (len : Nat) : Option Ptr :=
  if p.full = len then some { p with off := p.off + len, full := 0, raw := 0 }
  else
    let (segm, len, full) := shiftLoop sizes (p.segm + 1) (len - p.raw) (sub32 p.full p.raw)
    if segm ≥ sizes.length then none
    else some { p with segm := segm, off := len, raw := segSize sizes segm - len, full := sub32 full len }

/-- `shift(sz)`, base/dabc/Pointer.h:153-166: the new pointer and the returned value. -/
def shift (sizes : List Nat) (p : Ptr) (sz : Nat) : Option (Ptr × Nat) :=
  if sz < p.raw then some ({ p with off := p.off + sz, raw := p.raw - sz, full := sub32 p.full sz }, sz)
  else if sz > p.full then some (Ptr.null, p.full)
  else (longShift sizes p sz).map fun q => (q, sz)

/-- `setfullsize(sz)`, base/dabc/Pointer.h:168-174. -/
def setFullSize (p : Ptr) (sz : Nat) : Ptr :=
  if p.full > sz then { p with full := sz, raw := if p.raw > sz then sz else p.raw } else p

variable {α : Type}

/-- Sizes of the segments of a buffer. -/
def sizesOf (mem : List (List α)) : List Nat := mem.map List.length

/-- `memcpy` out of the current segment. -/
def readMem (mem : List (List α)) (p : Ptr) (len : Nat) : Option (List α) :=
  match mem[p.segm]? with
  | some s => if p.off + len ≤ s.length then some ((s.drop p.off).take len) else none
  | none => if len = 0 then some [] else none

/-- `memcpy` into the current segment. -/
def writeMem (mem : List (List α)) (p : Ptr) (d : List α) : Option (List (List α)) :=
  match mem[p.segm]? with
  | some s => if p.off + d.length ≤ s.length then
      some (mem.set p.segm (s.take p.off ++ d ++ s.drop (p.off + d.length))) else none
  | none => if d.length = 0 then some mem else none

/-- `copylen`, base/src/Pointer.cxx:78-79. -/
def copyLen (tp sp : Ptr) (sz : Nat) : Nat :=
  let copylen := if tp.raw < sp.raw then tp.raw else sp.raw
  if copylen > sz then sz else copylen

/-- Loop of `copyfrom`, base/src/Pointer.cxx:77-88: result `res` and the target memory. -/
def copyLoop (src : List (List α)) (tgt : List (List α)) (tp sp : Ptr) (sz res : Nat) : Option (Nat × List (List α)) :=
  if sz = 0 then some (res, tgt)
  else
    let copylen := copyLen tp sp sz
    if _h : copylen = 0 then some (res, tgt)
    else
      match readMem src sp copylen with
      | none => none
      | some d =>
        match writeMem tgt tp d with
        | none => none
        | some tgt' =>
          match shift (sizesOf tgt) tp copylen, shift (sizesOf src) sp copylen with
          | some (tp', _), some (sp', _) => copyLoop src tgt' tp' sp' (sz - copylen) (res + copylen)
          | _, _ => none
termination_by sz
decreasing_by
  have : copyLen tp sp sz ≠ 0 := _h
  omega

/-- `copyfrom(const Pointer& src, sz)`, base/src/Pointer.cxx:54-91. -/
def copyFrom (src : List (List α)) (tgt : List (List α)) (tp sp : Ptr) (sz : Nat) : Option (Nat × List (List α)) :=
  let sz := if sz = 0 then sp.full else sz
  if sz ≤ tp.raw ∧ sz ≤ sp.raw then
    match readMem src sp sz with
    | none => none
    | some d => (writeMem tgt tp d).map fun t => (sz, t)
  else
    let sz := if sz > sp.full then sp.full else sz
    let sz := if sz > tp.full then tp.full else sz
    copyLoop src tgt tp sp sz 0

/-- `copyto(void* tgt, sz)`, base/src/Pointer.cxx:98-108, into a memory area `area` of `sz` bytes. -/
def copyTo (src : List (List α)) (sp : Ptr) (area : List α) (sz : Nat) : Option (Nat × List α) :=
  if sz = 0 then some (0, area)
  else if sz ≤ sp.raw then
    (readMem src sp sz).map fun d => (sz, d ++ area.drop sz)
  else
    (copyFrom src [area] (start [sz]) sp sz).map fun r => (r.1, r.2.flatten)

/-- `copyfrom(const void *src, sz)`, base/src/Pointer.cxx:110-127; `none`: exception. -/
def copyFromRaw (tgt : List (List α)) (tp : Ptr) (d : List α) : Option (Nat × List (List α)) :=
  let sz := if d.length > tp.full then tp.full else d.length
  if sz = 0 then some (0, tgt)
  else if sz > tp.raw then none
  else (writeMem tgt tp (d.take sz)).map fun t => (sz, t)

/-- Loop of `distance_to`, base/src/Pointer.cxx:147-150; the fuel bounds the number of iterations, `none`
when it is exhausted or an exception is thrown. -/
def distLoop (sizes : List Nat) : Nat → Ptr → Nat → Nat → Option (Nat × Ptr)
  | 0, _, _, _ => none
  | fuel + 1, left, target, dist =>
    if left.segm < target then
      match shift sizes left left.raw with
      | some (q, _) => distLoop sizes fuel q target (dist + left.raw)
      | none => none
    else some (dist, left)

/-- `distance_to(child)`, base/src/Pointer.cxx:134-153, for pointers on the same buffer. -/
def distanceTo (sizes : List Nat) (fuel : Nat) (p c : Ptr) : Option Int :=
  let fwd (p c : Ptr) : Option Int :=
    (distLoop sizes fuel p c.segm 0).map fun r => (r.1 : Int) + ((c.off : Int) - (r.2.off : Int))
  if p.segm = c.segm then some ((c.off : Int) - (p.off : Int))
  else if p.segm > c.segm then (fwd c p).map (fun d => -d)
  else fwd p c

end Verif.Pointer
