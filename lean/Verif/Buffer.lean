import Verif.Pointer

/-!
# Model of the editing functions of `dabc::Buffer`, base/src/Buffer.cxx

A container is the list of its used segments and its capacity; sizes are natural numbers (totals are
assumed to stay below 2^32).  Functions return the segments whose references are given back to the pool
(`DecreaseSegmRefs`) or additionally taken (`IncreaseSegmRefs`); the pool itself is in `Verif.Pool`.
-/

namespace Verif.Buffer
open Verif.Pointer (Ptr)

/-- `MemSegment`, base/dabc/Buffer.h:53-59; the pointer `buffer` is represented by its offset from the
begin of the memory block `id`. -/
structure Seg where
  id : Nat
  off : Nat
  len : Nat
  deriving DecidableEq, Repr

/-- A zeroed segment, base/src/Buffer.cxx:275-277 and 475. -/
def Seg.zero : Seg := ⟨0, 0, 0⟩

/-- `GetTotalSize()`, base/src/Buffer.cxx:91-97. -/
def totalSize (segs : List Seg) : Nat := (segs.map Seg.len).sum

/-- `Locate(p, seg_indx, seg_shift)`, base/src/Buffer.cxx:172-189, with the loop variables `curr` and
`seg_indx`. -/
def locateLoop (p : Nat) : Nat → Nat → List Seg → Nat × Nat
  | _, idx, [] => (idx, 0)
  | curr, idx, s :: rest =>
    if curr < p then
      if curr + s.len ≤ p then locateLoop p (curr + s.len) (idx + 1) rest else (idx, p - curr)
    else (idx, 0)

def locate (segs : List Seg) (p : Nat) : Nat × Nat := locateLoop p 0 0 segs

/-- Result of an edit: the new container (`none` is the null buffer) and the segments given back. -/
abbrev Edit := Option (List Seg) × List Seg

/-- `SetTotalSize(len)`, base/src/Buffer.cxx:99-136; outer `none`: exception. -/
def setTotalSize (segs : List Seg) (len : Nat) : Option Edit :=
  if len = 0 then some (none, segs)
  else
    let totalsize := totalSize segs
    if len > totalsize then none
    else if len = totalsize then some (some segs, [])
    else
      let (nseg, npos) := locate segs len
      if nseg ≥ segs.length then none
      else
        let segs := if npos > 0 then segs.set nseg { segs.getD nseg Seg.zero with len := npos } else segs
        let nseg := if npos > 0 then nseg + 1 else nseg
        if nseg < segs.length then some (some (segs.take nseg), segs.drop nseg)
        else some (some segs, [])

/-- Loop `fSegm[n].copy_from(fSegm + n + nseg)`, base/src/Buffer.cxx:159-160, still `k` rounds to go. -/
def cutLoop (nseg : Nat) : Nat → Nat → List Seg → List Seg
  | 0, _, segs => segs
  | k + 1, n, segs => cutLoop nseg k (n + 1) (segs.set n (segs.getD (n + nseg) Seg.zero))

/-- `CutFromBegin(len)`, base/src/Buffer.cxx:139-169. -/
def cutFromBegin (segs : List Seg) (len : Nat) : Option Edit :=
  if len = 0 then some (some segs, [])
  else if len ≥ totalSize segs then some (none, segs)
  else
    let (nseg, npos) := locate segs len
    if nseg ≥ segs.length then none
    else
      let dropped := if nseg > 0 then segs.take nseg else []
      let segs := if nseg > 0 then (cutLoop nseg (segs.length - nseg) 0 segs).take (segs.length - nseg) else segs
      let segs := if npos > 0 then
          let s := segs.getD 0 Seg.zero
          segs.set 0 { s with len := s.len - npos, off := s.off + npos }
        else segs
      some (some segs, dropped)

/-- Loop moving complete segments to the end, base/src/Buffer.cxx:269-278; `n` counts down to `lo`,
`d = numrequired - NumSegments()`. -/
def moveLoop (lo d : Nat) : Nat → List Seg → List Seg
  | 0, segm => segm
  | n + 1, segm =>
    if n + 1 > lo then
      moveLoop lo d n ((segm.set (n + d) (segm.getD n Seg.zero)).set n Seg.zero)
    else segm

/-- Loop copying the segments of the source, base/src/Buffer.cxx:282-285. -/
def copySegs (at_ : Nat) : List Seg → List Seg → List Seg
  | [], segm => segm
  | s :: rest, segm => copySegs (at_ + 1) rest (segm.set at_ s)

/-- Splitting of the segment at the insert position, base/src/Buffer.cxx:288-300. -/
def splitSeg (segm : List Seg) (tgtseg tgtpos seg2 : Nat) : List Seg :=
  let s := segm.getD tgtseg Seg.zero
  (segm.set seg2 { id := s.id, len := s.len - tgtpos, off := s.off + tgtpos }).set tgtseg { s with len := tgtpos }

/-- Segment part of `Insert(pos, src)`, base/src/Buffer.cxx:256-303, for a non-null target with capacity
`cap` and the segments `own` of the source: the new segments and the segment whose reference is taken
additionally.  `none`: exception. -/
def insertSegs (segs : List Seg) (cap pos : Nat) (own : List Seg) : Option (List Seg × List Seg) :=
  let (tgtseg, tgtpos) := locate segs pos
  let numrequired := segs.length + own.length + (if tgtpos > 0 then 1 else 0)
  if numrequired > cap then none
  else
    let lo := tgtseg + (if tgtpos > 0 then 1 else 0)
    let segm := segs ++ List.replicate (cap - segs.length) Seg.zero
    let segm := moveLoop lo (numrequired - segs.length) segs.length segm
    let segm := copySegs lo own segm
    let extra := if tgtpos > 0 then [segm.getD tgtseg Seg.zero] else []
    let segm := if tgtpos > 0 then splitSeg segm tgtseg tgtpos (tgtseg + own.length + 1) else segm
    some (segm.take numrequired, extra)

/-- Loop skipping segment rests that are too small, base/src/Buffer.cxx:355-358 (only for
`allowsegmented = false`); the fuel is the number of segments, `none`: exception or no fuel. -/
def skipLoop (sizes : List Nat) : Nat → Ptr → Nat → Option Ptr
  | 0, p, len => if len > p.raw then none else some p
  | fuel + 1, p, len =>
    if len > p.raw then
      match Pointer.shift sizes p p.raw with
      | none => none
      | some (q, _) => if q.full < len then some q else skipLoop sizes fuel q len
    else some p

/-- Variables of the collecting loop of `GetNextPart`, base/src/Buffer.cxx:362-364. -/
structure Part where
  first : Option (Nat × Nat × Nat)  -- firstseg, firstptr (offset), firstlen
  lastseg : Nat
  lastlen : Nat

/-- Recording of one piece, base/src/Buffer.cxx:371-378. -/
def Part.add (st : Part) (p : Ptr) (partlen : Nat) : Part :=
  { first := match st.first with | none => some (p.segm, p.off, partlen) | some f => some f
    lastseg := p.segm, lastlen := partlen }

/-- `partlen`, base/src/Buffer.cxx:367-368. -/
def partLen (p : Ptr) (len : Nat) : Nat := if len > p.raw then p.raw else len

/-- Collecting loop of `GetNextPart`, base/src/Buffer.cxx:366-382: rest length, pointer, variables. -/
def partLoop (sizes : List Nat) (p : Ptr) (len : Nat) (st : Part) : Option (Nat × Ptr × Part) :=
  if 0 < len ∧ p.segm < sizes.length then
    let partlen := partLen p len
    if _h : partlen = 0 then some (len, p, st)
    else
      match Pointer.shift sizes p partlen with
      | none => none
      | some (q, _) => partLoop sizes q (len - partlen) (st.add p partlen)
  else some (len, p, st)
termination_by len
decreasing_by
  have : partLen p len ≠ 0 := _h
  omega

/-- `GetNextPart(ptr, len, allowsegmented)`, base/src/Buffer.cxx:349-415: the segments of the new
buffer (`none`: null buffer) and the moved pointer.  The references of the returned segments are taken
(line 394).  For `len = 0` the new buffer refers to the first segment with size 0 (and a null pointer).
Outer `none`: exception. -/
def getNextPart (segs : List Seg) (p : Ptr) (len : Nat) (allowsegmented : Bool) : Option (Option (List Seg) × Ptr) :=
  let sizes := segs.map Seg.len
  if p.full < len then some (none, p)
  else
    match (if allowsegmented then some p else skipLoop sizes sizes.length p len) with
    | none => none
    | some p =>
      if p.full < len then some (none, p)
      else
        match partLoop sizes p len { first := none, lastseg := 0, lastlen := 0 } with
        | none => none
        | some (rest, q, st) =>
          if rest > 0 then some (none, q)
          else
            match st.first with
            | none => some (some ((segs.take 1).map fun s => { s with off := 0, len := 0 }), q)
            | some (firstseg, firstptr, firstlen) =>
              let cnt := st.lastseg - firstseg + 1
              let l := (segs.drop firstseg).take cnt
              let l := l.modify 0 fun s => { s with off := s.off + firstptr, len := firstlen }
              let l := l.modify (st.lastseg - firstseg) fun s => { s with len := st.lastlen }
              some (some l, q)

end Verif.Buffer
