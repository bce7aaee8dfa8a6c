/-!
# Model of `dabc::ReferencesVector`, base/src/ReferencesVector.cxx, base/dabc/ReferencesVector.h

Objects are numbers, a reference is `some object` or `none` (null).  `released` and `destroyed` list the references which
were given back with `Release()` and `Destroy()`, in this order; `copies` counts references copied by the reallocation inside
of `std::vector` (the class is written so that this never happens).  What the destructor of an object does is not part of the
model.  `at()` with a wrong index throws in functions declared `throw()`: `none`.  Sizes are natural numbers, except for the
32-bit `new_capacity` of `ExpandVector`.
-/

namespace Verif.RefVector

structure W where
  vec : List (Option Nat)
  cap : Nat
  released : List Nat
  destroyed : List Nat
  copies : Nat
  deriving DecidableEq, Repr

/-- Constructor, base/src/ReferencesVector.cxx:22-26. -/
def init : W := { vec := [], cap := 8, released := [], destroyed := [], copies := 0 }

/-- `Reference::Release` of a reference which held `r`, base/src/Reference.cxx:138-145. -/
def release (w : W) (r : Option Nat) : W := { w with released := w.released ++ r.toList }

/-- `fVector->push_back(Reference())`; the vector doubles when it is full. -/
def pushBack (w : W) : W :=
  if w.vec.length < w.cap then { w with vec := w.vec ++ [none] }
  else { w with vec := w.vec ++ [none], cap := 2 * w.cap + 1, copies := w.copies + w.vec.length }

/-- `fVector->at(i) << ref` for a reference `r` outside of the vector (null afterwards), base/src/Reference.cxx:88-100. -/
def put (w : W) (i : Nat) (r : Option Nat) : Option W :=
  match w.vec[i]? with
  | none => none
  | some x => some (release { w with vec := w.vec.set i r } x)

/-- `ref << fVector->at(i)`: content of the slot, which is null afterwards. -/
def take (w : W) (i : Nat) : Option (Option Nat × W) :=
  match w.vec[i]? with
  | none => none
  | some x => some (x, { w with vec := w.vec.set i none })

/-- `fVector->at(i) << fVector->at(j)`. -/
def move (w : W) (i j : Nat) : Option W :=
  match w.vec[i]? with
  | none => none
  | some x =>
    let v := w.vec.set i none
    match v[j]? with
    | none => none
    | some y => some (release { w with vec := (v.set j none).set i y } x)

/-- Filling of the new vector in `ExpandVector`, lines 44-48. -/
def refill : List (Option Nat) → W → Option W
  | [], w => some w
  | r :: l, w =>
    match put (pushBack w) w.vec.length r with
    | none => none
    | some w => refill l w

/-- `ExpandVector`, lines 35-53. -/
def expand (w : W) : Option W :=
  if w.vec.length = 0 || decide (w.vec.length < w.cap) then some w
  else refill w.vec { w with vec := [], cap := 2 * w.cap % 2 ^ 32 }

/-- `Add`, lines 56-68: answer. -/
def add (w : W) (ref : Option Nat) : Option (Bool × W) :=
  if ref = none then some (false, w) else
  match expand w with
  | none => none
  | some w =>
    let w := pushBack w
    match put w (w.vec.length - 1) ref with
    | none => none
    | some w => some (true, w)

/-- Loop of `AddAt`, lines 82-83. -/
def shiftUp (pos : Nat) : Nat → W → Option W
  | 0, w => some w
  | n + 1, w =>
    if n + 1 > pos then
      match move w (n + 1) n with
      | none => none
      | some w => shiftUp pos n w
    else some w

/-- `AddAt`, lines 71-88. -/
def addAt (w : W) (ref : Option Nat) (pos : Nat) : Option (Bool × W) :=
  if ref = none then some (false, w) else
  match expand w with
  | none => none
  | some w =>
    let w := pushBack w
    if pos ≥ w.vec.length then
      match put w (w.vec.length - 1) ref with
      | none => none
      | some w => some (true, w)
    else
      match shiftUp pos (w.vec.length - 1) w with
      | none => none
      | some w =>
        match put w pos ref with
        | none => none
        | some w => some (true, w)

/-- Loop of `RemoveAt`, lines 111-112; `k` turns are left. -/
def shiftDown (indx : Nat) : Nat → W → Option W
  | 0, w => some w
  | k + 1, w =>
    match move w indx (indx + 1) with
    | none => none
    | some w => shiftDown (indx + 1) k w

/-- `fVector->pop_back()`. -/
def popBack (w : W) : W := release { w with vec := w.vec.dropLast } (w.vec.getLast?.getD none)

/-- `RemoveAt`, lines 103-115. -/
def removeAt (w : W) (n : Nat) : Option W :=
  if n ≥ w.vec.length then some w else
  match take w n with
  | none => none
  | some (r, w) =>
    match shiftDown n (w.vec.length - 1 - n) (release w r) with
    | none => none
    | some w => some (popBack w)

/-- Loop of `Remove`, lines 95-97. -/
def removeLoop (obj : Nat) : Nat → W → Option W
  | 0, w => some w
  | n + 1, w =>
    match w.vec[n]? with
    | none => none
    | some x =>
      if x = some obj then
        match removeAt w n with
        | none => none
        | some w => removeLoop obj n w
      else removeLoop obj n w

/-- `Remove`, lines 91-100; `obj` is `none` for a null pointer. -/
def remove (w : W) (obj : Option Nat) : Option (Bool × W) :=
  match obj with
  | none => some (false, w)
  | some o =>
    if w.vec.length = 0 then some (false, w) else
    match removeLoop o w.vec.length w with
    | none => none
    | some w => some (true, w)

/-- `ExtractRef(unsigned, Reference&)`, lines 127-135; `ref` is what the reference held before.
Answer and what it holds afterwards. -/
def extractRef (w : W) (n : Nat) (ref : Option Nat) : Option (Bool × Option Nat × W) :=
  if n ≥ w.vec.length then some (false, ref, w) else
  match take w n with
  | none => none
  | some (r, w) =>
    match removeAt (release w ref) n with
    | none => none
    | some w => some (true, r, w)

/-- `TakeRef`, lines 117-124. -/
def takeRef (w : W) (n : Nat) : Option (Option Nat × W) :=
  match extractRef w n none with
  | none => none
  | some (_, r, w) => some (r, w)

/-- Search of the first slot with the object. -/
def findObj (obj : Option Nat) : List (Option Nat) → Nat → Option Nat
  | [], _ => none
  | x :: l, n => if x = obj then some n else findObj obj l (n + 1)

/-- `ExtractRef(Object*, Reference&)`, lines 137-143. -/
def extractObj (w : W) (obj ref : Option Nat) : Option (Bool × Option Nat × W) :=
  match findObj obj w.vec 0 with
  | none => some (false, ref, w)
  | some n => extractRef w n ref

/-- `TakeLast`, lines 147-157. -/
def takeLast (w : W) : Option (Option Nat × W) :=
  if w.vec.length > 0 then
    match take w (w.vec.length - 1) with
    | none => none
    | some (r, w) => some (r, popBack w)
  else some (none, w)

/-- Loop of `Clear`, lines 162-167. -/
def clearLoop (owner : Bool) (n : Nat) : Nat → W → Option W
  | 0, w => some w
  | k + 1, w =>
    match take w n with
    | none => none
    | some (r, w) =>
      clearLoop owner (n + 1) k (if owner then { w with destroyed := w.destroyed ++ r.toList } else release w r)

/-- `Clear`, lines 160-172. -/
def clear (w : W) (owner : Bool) : Option W :=
  match clearLoop owner 0 w.vec.length w with
  | none => none
  | some w => some { w with vec := [], released := w.released ++ w.vec.filterMap id }

/-- `GetSize`, base/dabc/ReferencesVector.h:64. -/
def getSize (w : W) : Nat := w.vec.length

/-- `GetObject`, `Get`, base/dabc/ReferencesVector.h:67-71. -/
def getObject (w : W) (n : Nat) : Option Nat := if n < w.vec.length then w.vec[n]?.getD none else none

/-- `HasObject`, lines 183-190. -/
def hasObject (w : W) (obj : Option Nat) : Bool := decide (obj ≠ none) && w.vec.contains obj

/-- `FindObject`, lines 174-181; `named` tells which objects have the name. -/
def findObject (w : W) (named : Nat → Bool) : Option Nat := (w.vec.filterMap id).find? named

end Verif.RefVector
