/-!
# Model of the callers stack of a command and of `dabc::CommandsQueue`

Command part: base/dabc/Command.h:62-79, base/src/Command.cxx:68-94, 225-258.
Queue part: base/dabc/CommandsQueue.h:39-106, base/src/CommandsQueue.cxx.
-/

namespace Verif.Command

/-! ## Callers of one command -/

/-- `CommandContainer::CallerRec`, base/dabc/Command.h:62-75.  `worker = none` is a null pointer, `exe`
the `exe_ready` pointer.  `reg` is a ghost: the number of the `AddCaller` call that made the record. -/
structure Caller (W : Type) where
  worker : Option W
  exe : Option Nat
  reg : Nat
  deriving DecidableEq

/-- Command container: `fCallers` (oldest first), the field `_Result_` (base/dabc/Command.h:275) and the
ghost number of `AddCaller` calls so far. -/
structure Cmd (W : Type) where
  callers : List (Caller W)
  result : Option Int
  nreg : Nat

/-- A new command. -/
def Cmd.create {W : Type} : Cmd W := { callers := [], result := none, nreg := 0 }

variable {W : Type} [DecidableEq W]

/-- `AddCaller(worker, exe_ready)`, base/src/Command.cxx:68-76. -/
def Cmd.addCaller (c : Cmd W) (w : Option W) (exe : Option Nat) : Cmd W :=
  { c with callers := c.callers ++ [{ worker := w, exe := exe, reg := c.nreg }], nreg := c.nreg + 1 }

/-- Condition under which `RemoveCaller(worker, exe_ready)` erases a record, base/src/Command.cxx:89. -/
def removeMatch (w : Option W) (exe : Option Nat) (r : Caller W) : Bool :=
  r.worker = w && (exe = none || r.exe = exe)

/-- `RemoveCaller(worker, exe_ready)`, base/src/Command.cxx:78-94. -/
def Cmd.removeCaller (c : Cmd W) (w : Option W) (exe : Option Nat) : Cmd W :=
  { c with callers := c.callers.filter fun r => !removeMatch w exe r }

/-- Loop of `Reply`, base/src/Command.cxx:225-258, on the callers in reversed order (latest first).
`accept` answers `GetCommandReply` of the worker of a record.  Returns the records whose worker was
informed, in order, and the remaining records. -/
def replyLoop (accept : Caller W → Bool) : List (Caller W) → List (Caller W) × List (Caller W)
  | [] => ([], [])
  | r :: rest =>
    if r.worker.isNone then replyLoop accept rest
    else if accept r then ([r], rest)
    else let x := replyLoop accept rest; (r :: x.1, x.2)

/-- `cmd_false`, `cmd_timedout`, `cmd_noresult`, base/dabc/Command.h:36-45. -/
def cmdFalse : Int := 0
def cmdTimedout : Int := -1
def cmdNoresult : Int := -4

/-- `SetResult(res)`, base/dabc/Command.h:173. -/
def Cmd.setResult (c : Cmd W) (res : Int) : Cmd W := { c with result := some res }

/-- `GetResult()`, base/dabc/Command.h:174: default is `cmd_false`. -/
def Cmd.getResult (c : Cmd W) : Int := c.result.getD cmdFalse

/-- `Reply(res)`, base/src/Command.cxx:225-258: only a non-negative `res` is stored (line 229). -/
def Cmd.reply (c : Cmd W) (res : Int) (accept : Caller W → Bool) : List (Caller W) × Cmd W :=
  let c := if res ≥ 0 then c.setResult res else c
  let x := replyLoop accept c.callers.reverse
  (x.1, { c with callers := x.2.reverse })

/-- Actions on one command, each under the object mutex (Reply: one mutex section per caller). -/
inductive COp (W : Type) where
  | add (w : Option W) (exe : Option Nat)
  | remove (w : Option W) (exe : Option Nat)
  | reply (res : Int) (accept : Caller W → Bool)

/-- What one action does: (callers informed, new state). -/
def Cmd.step (c : Cmd W) : COp W → List (Caller W) × Cmd W
  | .add w exe => ([], c.addCaller w exe)
  | .remove w exe => ([], c.removeCaller w exe)
  | .reply res accept => c.reply res accept

/-- A history; the list of informed callers per action. -/
def Cmd.run : Cmd W → List (COp W) → List (List (Caller W)) × Cmd W
  | c, [] => ([], c)
  | c, op :: ops => let r := c.step op; let rs := Cmd.run r.2 ops; (r.1 :: rs.1, rs.2)

/-! ## CommandsQueue -/

/-- `EKind`, base/dabc/CommandsQueue.h:43-49. -/
inductive Kind where
  | none | submit | reply | assign | postponed
  deriving DecidableEq

/-- `QueueRec`, base/dabc/CommandsQueue.h:53-68; `seq` is a ghost: number of the `Push`. -/
structure Rec (C : Type) where
  cmd : C
  kind : Kind
  id : Nat
  seq : Nat
  deriving DecidableEq

/-- `fList`, `fKind`, `fIdCounter`, base/dabc/CommandsQueue.h:72-74; `pushes` is a ghost counter. -/
structure CQ (C : Type) where
  list : List (Rec C)
  kind : Kind
  idCounter : Nat
  pushes : Nat

variable {C : Type} [DecidableEq C]

/-- Constructor, base/src/CommandsQueue.cxx:7-12. -/
def CQ.create (kind : Kind) : CQ C := { list := [], kind := kind, idCounter := 0, pushes := 0 }

/-- `do { fIdCounter++; } while (fIdCounter==0)` on `uint32_t`, base/src/CommandsQueue.cxx:76. -/
def nextId (c : Nat) : Nat :=
  let c1 := (c + 1) % 2 ^ 32
  if c1 = 0 then (c1 + 1) % 2 ^ 32 else c1

/-- `Push(cmd, kind)`, base/src/CommandsQueue.cxx:71-85. -/
def CQ.push (q : CQ C) (cmd : C) (kind : Kind) : Nat × CQ C :=
  let kind := if kind = .none then q.kind else kind
  let id := nextId q.idCounter
  (id, { q with list := q.list ++ [{ cmd := cmd, kind := kind, id := id, seq := q.pushes + 1 }], idCounter := id, pushes := q.pushes + 1 })

/-- The loop "first record satisfying a condition is taken out", used by `PopWithKind`
(base/src/CommandsQueue.cxx:102-111) and `PopWithId` (116-125). -/
def takeFirst (p : Rec C → Bool) : List (Rec C) → Option (Rec C) × List (Rec C)
  | [] => (none, [])
  | r :: rest => if p r then (some r, rest) else let x := takeFirst p rest; (x.1, r :: x.2)

/-- `Pop()`, base/src/CommandsQueue.cxx:87-98.  `none` is the null command. -/
def CQ.pop (q : CQ C) : Option C × CQ C :=
  match q.list with
  | [] => (none, q)
  | r :: rest => (some r.cmd, { q with list := rest })

/-- `PopWithKind(kind)`, base/src/CommandsQueue.cxx:100-112. -/
def CQ.popWithKind (q : CQ C) (kind : Kind) : Option C × CQ C :=
  let x := takeFirst (fun r => r.kind = kind) q.list
  (x.1.map Rec.cmd, { q with list := x.2 })

/-- `PopWithId(id)`, base/src/CommandsQueue.cxx:114-126. -/
def CQ.popWithId (q : CQ C) (id : Nat) : Option C × CQ C :=
  let x := takeFirst (fun r => r.id = id) q.list
  (x.1.map Rec.cmd, { q with list := x.2 })

/-- Loop of `ChangeKind`, base/src/CommandsQueue.cxx:140-145: the id found and the new list. -/
def changeLoop (cmd : C) (kind : Kind) : List (Rec C) → Option Nat × List (Rec C)
  | [] => (none, [])
  | r :: rest =>
    if r.cmd = cmd then (some r.id, { r with kind := kind } :: rest)
    else let x := changeLoop cmd kind rest; (x.1, r :: x.2)

/-- `ChangeKind(cmd, kind)`, base/src/CommandsQueue.cxx:138-148. -/
def CQ.changeKind (q : CQ C) (cmd : C) (kind : Kind) : Nat × CQ C :=
  match changeLoop cmd kind q.list with
  | (some id, l) => (id, { q with list := l })
  | (none, _) => q.push cmd kind

/-- What `Cleanup` and `ReplyTimedout` do with a command. -/
inductive Effect (C : Type) where
  /-- `cmd.Reply(res)` -/
  | replied (c : C) (res : Int)
  /-- `cmd.Reply()`: the stored result is kept -/
  | repliedKeep (c : C)
  /-- `cmd.RemoveCaller(proc)` -/
  | callerRemoved (c : C)
  /-- kindNone: the reference is just released -/
  | released (c : C)
  deriving DecidableEq

/-- Switch in `Cleanup`, base/src/CommandsQueue.cxx:36-50. -/
def cleanupEffect (res : Int) (r : Rec C) : Effect C :=
  match r.kind with
  | .none => .released r.cmd
  | .postponed | .submit => .replied r.cmd res
  | .reply => .repliedKeep r.cmd
  | .assign => .callerRemoved r.cmd

/-- `Cleanup(m, proc, res)`, base/src/CommandsQueue.cxx:19-53, without interference of other threads. -/
def CQ.cleanup (q : CQ C) (res : Int) : List (Effect C) × CQ C :=
  (q.list.map (cleanupEffect res), { q with list := [] })

/-- `ReplyTimedout()`, base/src/CommandsQueue.cxx:56-68; `timedout` answers `cmd.IsTimedout()`. -/
def CQ.replyTimedout (q : CQ C) (timedout : C → Bool) : List (Effect C) × CQ C :=
  ((q.list.filter fun r => timedout r.cmd).map fun r => .replied r.cmd cmdTimedout,
   { q with list := q.list.filter fun r => !timedout r.cmd })

/-- Calls on a queue. -/
inductive QOp (C : Type) where
  | push (c : C) (k : Kind) | pop | popWithKind (k : Kind) | popWithId (id : Nat)
  | changeKind (c : C) (k : Kind) | cleanup (res : Int) | replyTimedout (t : C → Bool)

/-- Results of calls. -/
inductive QOut (C : Type) where
  | id (n : Nat) | cmd (c : Option C) | effects (l : List (Effect C))

/-- One call. -/
def CQ.step (q : CQ C) : QOp C → QOut C × CQ C
  | .push c k => let r := q.push c k; (.id r.1, r.2)
  | .pop => let r := q.pop; (.cmd r.1, r.2)
  | .popWithKind k => let r := q.popWithKind k; (.cmd r.1, r.2)
  | .popWithId i => let r := q.popWithId i; (.cmd r.1, r.2)
  | .changeKind c k => let r := q.changeKind c k; (.id r.1, r.2)
  | .cleanup res => let r := q.cleanup res; (.effects r.1, r.2)
  | .replyTimedout t => let r := q.replyTimedout t; (.effects r.1, r.2)

/-- A history of calls. -/
def CQ.run : CQ C → List (QOp C) → List (QOut C) × CQ C
  | q, [] => ([], q)
  | q, op :: ops => let r := q.step op; let rs := CQ.run r.2 ops; (r.1 :: rs.1, rs.2)

end Verif.Command
