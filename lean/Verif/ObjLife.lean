/-!
# Model of the life cycle of `dabc::Object`, base/src/Object.cxx, base/src/Reference.cxx

One object with its mutex, used by any number of threads.  The parts of `DecReference` between two locks are separate steps:
a call which is not finished is an entry of `pend`, and all other calls may come in between.  `refs` is the number of
`Reference` objects with this object, `childs` the number of childs in `fObjectChilds`, each of them has a counted pointer
on its parent.  `tok`: the thread has promised to call `DestroyCalledFromOwnThread`.

Calls with a pointer instead of a reference (`Reference(Object*)`, `Object::Destroy`, setting of flags) are possible as long
as the object is not deleted: the caller must know that.  A child is added by a caller with a reference.  Not modelled: objects without mutex (`flNoMutex`)
in several threads, `_DoDeleteItself` (only for threads), counting of blocks (`fObjectBlock`), the parent of the object.
`bad` is set when `DecReference` throws an exception in a `throw()` function or when a deleted object is used.
-/

namespace Verif.ObjLife

/-- `EObjectState`, base/dabc/Object.h. -/
inductive St where
  | normal
  | waitThread
  | doing
  | waitDestr
  | destr
  deriving DecidableEq, Repr

/-- Where a call of `DecReference` stands (lines of base/src/Object.cxx): before `DestroyByOwnThread` (420), before
`ObjectCleanup` (438), release of the parent pointer of `n` childs inside of it (850-853), after `ObjectCleanup` (447), before
`Manager::DestroyObject` (485), before the end of the local reference (502), before `delete` in the caller. -/
inductive Pc where
  | ask
  | clean
  | rel (n : Nat)
  | after
  | mgr
  | drop
  | del
  deriving DecidableEq, Repr

structure W where
  st : St
  cnt : Nat
  childs : Nat
  auto : Bool
  thrd : Bool
  clean : Bool
  refs : Nat
  pend : List Pc
  tok : Bool
  cleaned : Nat
  deleted : Nat
  bad : Bool
  deriving DecidableEq, Repr

/-- After the constructor; the flag may be given to it. -/
def init (auto : Bool) : W :=
  { st := .normal, cnt := 0, childs := 0, auto := auto, thrd := false, clean := false, refs := 0, pend := [], tok := false,
    cleaned := 0, deleted := 0, bad := false }

/-- `IncReference`, lines 273-291: answer. -/
def inc (w : W) : Bool × W :=
  if w.deleted > 0 then (false, { w with bad := true })
  else if w.st = .destr then (false, w)
  else (true, { w with cnt := w.cnt + 1 })

/-- `DecReference`, the part under the first lock, lines 321-418. -/
def dec (w : W) (ask dodec fromThr : Bool) : W :=
  if w.deleted > 0 then { w with bad := true }
  else if dodec && w.cnt == 0 then { w with bad := true }
  else
    let w := if dodec then { w with cnt := w.cnt - 1 } else w
    match w.st with
    | .normal =>
      let ask := ask || (w.auto && w.cnt == 0) || (dodec && w.cnt == w.childs && w.auto)
      if !ask then w
      else if w.thrd then { w with st := .waitThread, cnt := w.cnt + 1, pend := w.pend ++ [.ask] }
      else { w with st := .doing, pend := w.pend ++ [.clean] }
    | .waitThread => if !fromThr then w else { w with st := .doing, pend := w.pend ++ [.clean] }
    | .doing => w
    | .waitDestr => if w.cnt = 0 then { w with st := .destr, pend := w.pend ++ [.del] } else w
    | .destr => w

/-- Next part of the call number `i`.  `a` is the answer of `DestroyByOwnThread`, or whether there is a manager. -/
def go (w : W) (i : Nat) (a : Bool) : W :=
  match w.pend[i]? with
  | none => w
  | some pc =>
    let gone := w.pend.eraseIdx i
    if w.deleted > 0 then { w with bad := true }
    else match pc with
    | .ask =>
      -- lines 420-434
      if a then { w with tok := true, pend := gone }
      else { w with st := .doing, cnt := w.cnt - 1, pend := w.pend.set i .clean }
    | .clean => { w with cleaned := w.cleaned + 1, childs := 0, pend := w.pend.set i (.rel w.childs) }
    | .rel 0 => { w with pend := w.pend.set i .after }
    | .rel (n + 1) => dec { w with pend := w.pend.set i (.rel n) } false true false
    | .after =>
      -- lines 447-481
      if w.clean && a then { w with cnt := w.cnt + 1, st := .waitDestr, pend := w.pend.set i .mgr }
      else if w.cnt = 0 then { w with st := .destr, pend := w.pend.set i .del }
      else { w with st := .waitDestr, pend := gone }
    | .mgr =>
      -- copy of the reference for the manager
      match inc w with
      | (true, w) => { w with refs := w.refs + 1, pend := w.pend.set i .drop }
      | (false, w) => { w with bad := true }
    | .drop => dec { w with pend := gone } false true false
    | .del => { w with deleted := w.deleted + 1, pend := gone }

inductive Op where
  | copy                  -- Reference(const Reference&), line 58 of Reference.cxx
  | rawRef                -- Reference(Object*), line 23 of Reference.cxx
  | release               -- Reference::Release
  | destroy               -- Reference::Destroy
  | rawDestroy            -- Object::Destroy(Object*), line 918 of Object.cxx
  | thread                -- DestroyCalledFromOwnThread, line 507
  | setAuto (on : Bool)
  | setThread (on : Bool)
  | setCleanup
  | addChild              -- AddChildAt, lines 585-616
  | removeChild           -- RemoveChild, lines 618-681
  | go (i : Nat) (a : Bool)
  deriving DecidableEq, Repr

def step (w : W) (o : Op) : W :=
  match o with
  | .copy =>
    if w.refs = 0 then w
    else match inc w with
      | (true, w) => { w with refs := w.refs + 1 }
      | (false, w) => { w with bad := true }
  | .rawRef =>
    if w.deleted > 0 then w
    else match inc w with
      | (true, w) => { w with refs := w.refs + 1 }
      | (false, w) => w
  | .release => if w.refs = 0 then w else dec { w with refs := w.refs - 1 } false true false
  | .destroy => if w.refs = 0 then w else dec { w with refs := w.refs - 1 } true true false
  | .rawDestroy => if w.deleted > 0 then w else dec w true false false
  | .thread => if w.tok then dec { w with tok := false } true true true else w
  | .setAuto on => if w.deleted > 0 then w else { w with auto := on }
  | .setThread on => if w.deleted > 0 then w else { w with thrd := on }
  | .setCleanup => if w.deleted > 0 then w else { w with clean := true }
  | .addChild => if w.refs = 0 then w else { w with cnt := w.cnt + 1, childs := w.childs + 1 }
  | .removeChild => if w.childs = 0 then w else { w with cnt := w.cnt - 1, childs := w.childs - 1 }
  | .go i a => go w i a

def run : List Op → W → W
  | [], w => w
  | o :: l, w => run l (step w o)

end Verif.ObjLife
