/-!
# Model of the event queues of `dabc::Thread`

`EventId` (base/dabc/Thread.h:70-99), the prioritised event queues (base/dabc/Thread.h:255-263, 404-420) and
the selection of the next event (base/src/Thread.cxx:396-425).

A queue is `Queue<EventId,true>`; by property C01 it behaves as a list, so its content is a list here.
`Verif.Events` is generic in the number of queues (`fNumQueues` is 3, base/src/Thread.cxx:220).
-/

namespace Verif.Events

/-! ## EventId -/

/-- Constructor `EventId(code, item, arg)`, base/dabc/Thread.h:81-82. -/
def mkEventId (code item : BitVec 16) (arg : BitVec 32) : BitVec 64 :=
  (item.setWidth 64 <<< 48) ||| (arg.setWidth 64 <<< 16) ||| code.setWidth 64

/-- Constructor `EventId(code, item)`, base/dabc/Thread.h:79. -/
def mkEventId2 (code item : BitVec 16) : BitVec 64 := (item.setWidth 64 <<< 48) ||| code.setWidth 64

/-- Constructor `EventId(code)`, base/dabc/Thread.h:77. -/
def mkEventId1 (code : BitVec 16) : BitVec 64 := code.setWidth 64

/-- `GetCode()`, base/dabc/Thread.h:92. -/
def getCode (v : BitVec 64) : BitVec 16 := (v &&& 0xffff#64).setWidth 16

/-- `GetItem()`, base/dabc/Thread.h:93. -/
def getItem (v : BitVec 64) : BitVec 16 := (v >>> 48).setWidth 16

/-- `GetArg()`, base/dabc/Thread.h:94. -/
def getArg (v : BitVec 64) : BitVec 32 := ((v >>> 16) &&& 0xffffffff#64).setWidth 32

/-! ## Queues -/

/-- `EventsQueue`, base/dabc/Thread.h:255-263. -/
structure EvQ (E : Type) where
  scaler : Int
  items : List E

variable {E : Type}

/-- Creation of the queues, base/src/Thread.cxx:248-254. -/
def initQueues (n : Nat) : List (EvQ E) := List.replicate n { scaler := 8, items := [] }

/-- `_PushEvent(arg, nq)`, base/dabc/Thread.h:404-413.  Without `DABC_EXTRA_CHECKS` a queue number out
of range is an out-of-bounds access: `none`. -/
def pushEvent (qs : List (EvQ E)) (e : E) (nq : Int) : Option (List (EvQ E)) :=
  let k : Int := if nq < 0 then (qs.length : Int) - 1 else nq
  if 0 ≤ k ∧ k < qs.length then
    some (qs.modify k.toNat fun q => { q with items := q.items ++ [e] })
  else none

/-- First loop of `_GetNextEvent`, base/src/Thread.cxx:407-414, from queue `nq` on. -/
def firstLoop (nq : Nat) : List (EvQ E) → Option (Nat × E) × List (EvQ E)
  | [] => (none, [])
  | q :: qs =>
    match q.items with
    | [] => let r := firstLoop (nq + 1) qs; (r.1, q :: r.2)
    | e :: rest =>
      if q.scaler - 1 > 0 then (some (nq, e), { scaler := q.scaler - 1, items := rest } :: qs)
      else let r := firstLoop (nq + 1) qs; (r.1, { q with scaler := 8 } :: r.2)

/-- Second loop of `_GetNextEvent`, base/src/Thread.cxx:418-422. -/
def secondLoop (nq : Nat) : List (EvQ E) → Option (Nat × E) × List (EvQ E)
  | [] => (none, [])
  | q :: qs =>
    match q.items with
    | [] => let r := secondLoop (nq + 1) qs; (r.1, q :: r.2)
    | e :: rest => (some (nq, e), { q with items := rest } :: qs)

/-- `_GetNextEvent`, base/src/Thread.cxx:396-425.  The result is the event together with the number of
the queue it was taken from (the latter only for stating properties), `none` for `return false`. -/
def getNextEvent (qs : List (EvQ E)) : Option (Nat × E) × List (EvQ E) :=
  match firstLoop 0 qs with
  | (some r, qs) => (some r, qs)
  | (none, qs) => secondLoop 0 qs

/-- Actions on the queues, each under the thread mutex: firing an event with a priority
(base/src/Thread.cxx:1023-1028) and fetching the next one (base/src/Thread.cxx:1044-1053). -/
inductive Op (E : Type) where
  | fire (e : E) (nq : Int) | fetch

/-- A schedule of actions; the results of all fetches in order. -/
def run : List (EvQ E) → List (Op E) → Option (List (Option (Nat × E)) × List (EvQ E))
  | qs, [] => some ([], qs)
  | qs, .fire e nq :: ops => do
    let qs ← pushEvent qs e nq
    run qs ops
  | qs, .fetch :: ops => do
    let r := getNextEvent qs
    let (os, qs) ← run r.2 ops
    some (r.1 :: os, qs)

end Verif.Events
