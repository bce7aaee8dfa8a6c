/-!
# How threads wait for events

`dabc::Thread` waits with a condition (`base/src/Thread.cxx:1023-1054`, `base/dabc/threads.h:258-311`,
`base/src/threads.cxx:105-145`), `dabc::SocketThread` waits in `poll` for its sockets and a pipe
(`base/src/SocketThread.cxx:1074-1103, 1465-1699`).

All queues of a thread together are one list, and the event which comes next is decided by an argument:
the priorities are the subject of C20 and C21.  Steps are the sections under the mutex of the thread.
-/

namespace Verif.WaitEvent

/-- `_GetNextEvent`, `Thread.cxx:396-425`: one of the waiting events, `k` tells which. -/
def next {α : Type} (k : Nat) (l : List α) : Option α × List α := (l[k % l.length]?, l.eraseIdx (k % l.length))

/-! ## `dabc::Thread` -/

namespace Cond

/-- Where the thread is: not in `WaitEvent`; in `pthread_cond_wait`; woken up, without the mutex. -/
inductive Phase where
  | awake | asleep | woken
deriving DecidableEq, Repr

/-- An event was fired; `WaitEvent` returned. -/
inductive Ev where
  | post (e : Nat)
  | ret (r : Option Nat)
deriving DecidableEq, Repr

/-- `fired` is `fFiredCounter`, `waiting` is `fWaiting`. -/
structure T where
  events : List Nat
  fired : Nat
  waiting : Bool
  phase : Phase
  log : List Ev
deriving DecidableEq, Repr

def new : T := ⟨[], 0, false, .awake, []⟩

def note (s : T) (e : Ev) : T := { s with log := s.log ++ [e] }

/-- `_DoFire`, `threads.h:296-302`; `pthread_cond_signal` wakes the thread if it sleeps. -/
def doFire (s : T) : T :=
  { s with
    fired := s.fired + 1
    phase := if s.waiting && decide (s.phase = .asleep) then .woken else s.phase }

/-- `_Fire`, `Thread.cxx:1023-1042`. -/
def fire (e : Nat) (s : T) : T := note (doFire { s with events := s.events ++ [e] }) (.post e)

/-- The end of `_DoWait`, `threads.cxx:138-144`, and of `WaitEvent`, `Thread.cxx:1049-1053`. -/
def finish (k : Nat) (s : T) : T :=
  if 0 < s.fired then
    let p := next k s.events
    note { s with fired := s.fired - 1, events := p.2, phase := .awake } (.ret p.1)
  else note { s with phase := .awake } (.ret none)

/-- `WaitEvent`, `Thread.cxx:1044-1054`, with `_DoWait`; `t = some 0`: do not wait. -/
def wait (t : Option Nat) (k : Nat) (s : T) : T :=
  if s.fired = 0 then
    if t = some 0 then finish k s
    else { s with waiting := true, phase := .asleep }
  else finish k s

/-- `wait`: the thread calls `WaitEvent`; `wake`: the time is over, or the system wakes the thread for no
reason; `resume`: the thread got the mutex again. -/
inductive Op where
  | fire (e : Nat)
  | wait (t : Option Nat) (k : Nat)
  | wake
  | resume (k : Nat)
deriving DecidableEq, Repr

def step (s : T) : Op → T
  | .fire e => fire e s
  | .wait t k => if s.phase = .awake then wait t k s else s
  | .wake => if s.phase = .asleep then { s with phase := .woken } else s
  | .resume k => if s.phase = .woken then finish k { s with waiting := false } else s

def steps (s : T) (os : List Op) : T := os.foldl step s

end Cond

/-! ## `dabc::SocketThread` -/

namespace Sock

/-- Events in the queues: fired ones, events of the socket of worker `i`, `evntEnableCheck`. -/
inductive Ev where
  | user (e : Nat)
  | err (i : Nat)
  | read (i : Nat)
  | write (i : Nat)
  | enable
deriving DecidableEq, Repr

/-- `revents` of a socket. -/
structure Rev where
  err : Bool := false
  inp : Bool := false
  out : Bool := false
deriving DecidableEq, Repr

/-- `SocketAddon`: `Socket() > 0`, `fDoingInput`, `fDoingOutput`. -/
structure Addon where
  fd : Bool
  inp : Bool := false
  out : Bool := false
deriving DecidableEq, Repr

/-- An entry of `f_ufds` with `f_recs[..].indx`. -/
structure Ufd where
  indx : Nat
  inp : Bool
  out : Bool
deriving DecidableEq, Repr

/-- What can be seen from outside: a fired event; the results of `poll` for the sockets of some workers; the
result of `WaitEvent`. -/
inductive Rec where
  | post (e : Nat)
  | polled (l : List (Nat × Rev))
  | ret (r : Option Ev)
deriving DecidableEq, Repr

/-- `polling`: the thread is in `poll`, with the sockets it asks for, and the timeout. -/
inductive Phase where
  | awake
  | polling (set : List Ufd) (tm : Option Nat)
deriving DecidableEq, Repr

/-- `addons` are the addons of the workers 0, 1, …, `none` for a worker without socket. `pipe` is the number of
bytes in the pipe; `blocked`: the thread reads from the empty pipe. -/
structure T where
  events : List Ev
  check : Bool
  waitFire : Bool
  pipeFired : Bool
  pipe : Nat
  addons : List (Option Addon)
  bal : Nat
  phase : Phase
  blocked : Bool
  log : List Rec
deriving DecidableEq, Repr

/-- Constructor, `SocketThread.cxx:1074-1103`: worker 0 is no worker and there is no socket. -/
def new : T := ⟨[], false, false, false, 0, [none], 0, .awake, false, []⟩

def note (s : T) (e : Rec) : T := { s with log := s.log ++ [e] }

/-- `_Fire`, `SocketThread.cxx:1465-1480`. -/
def fire (e : Nat) (s : T) : T :=
  let s := note { s with events := s.events ++ [.user e] } (.post e)
  if s.waitFire && !s.pipeFired then { s with pipe := s.pipe + 1, pipeFired := true } else s

/-- The entry of `f_ufds` for worker `n`, `SocketThread.cxx:1527-1548`. -/
def entry (n : Nat) (a : Option Addon) : Option Ufd :=
  match a with
  | none => none
  | some a =>
    if n = 0 || !a.fd then none
    else if !a.inp && !a.out then none
    else some ⟨n, a.inp, a.out⟩

/-- `f_ufds` without the pipe. -/
def ufds (l : List (Option Addon)) : List Ufd := (l.mapIdx entry).filterMap id

/-- `WaitEvent` returns with `_GetNextEvent`; `ProcessExtraThreadEvent`, `SocketThread.cxx:1649-1657`, is called
for `evntEnableCheck`. -/
def give (k : Nat) (s : T) : T :=
  let p := next k s.events
  note { s with events := p.2, check := s.check || decide (p.1 = some .enable), phase := .awake } (.ret p.1)

/-- First part of `WaitEvent`, `SocketThread.cxx:1497-1550`; `tm` in milliseconds, `none`: negative. -/
def wait (tm : Option Nat) (k : Nat) (s : T) : T :=
  if s.events ≠ [] && !s.check then give k s
  else
    { s with
      waitFire := true
      phase := .polling (ufds s.addons) (if s.events ≠ [] then some 0 else tm) }

/-- The events for one socket, `SocketThread.cxx:1608-1630`. -/
def found (i : Nat) (r : Rev) : List Ev :=
  (if r.err then [.err i] else []) ++ (if r.inp then [.read i] else []) ++ (if r.out then [.write i] else [])

/-- What happens with the addon. -/
def mark (r : Rev) (a : Addon) : Addon :=
  { a with inp := a.inp && !r.err && !r.inp, out := a.out && !r.err && !r.out }

/-- One turn of the loop, `SocketThread.cxx:1591-1631`, for the socket with number `j` in the set. -/
def visit (set : List Ufd) (rev : Nat → Rev) (p : List Ev × List (Option Addon)) (j : Nat) :
    List Ev × List (Option Addon) :=
  match set[j]? with
  | none => p
  | some u => (p.1 ++ found u.indx (rev u.indx), p.2.modify u.indx fun a => a.map (mark (rev u.indx)))

/-- The order in which sockets are looked at, `SocketThread.cxx:1591-1594`. -/
def order (m bal : Nat) : List Nat := (List.range m).map fun x => (x + 1 + bal) % m

/-- Taking the byte out of the pipe, `SocketThread.cxx:1577-1583`. -/
def drain (s : T) : T :=
  if s.pipeFired then { s with pipe := s.pipe - 1, pipeFired := false, blocked := s.blocked || decide (s.pipe = 0) }
  else s

/-- What is done with the result of `poll`, `SocketThread.cxx:1589-1639`. -/
def collect (set : List Ufd) (res : Bool) (rev : Nat → Rev) (s : T) : T :=
  if res then
    let p := (order set.length s.bal).foldl (visit set rev) ([], s.addons)
    let s := note { s with events := s.events ++ p.1, addons := p.2 } (.polled (set.map fun u => (u.indx, rev u.indx)))
    if p.1 = [] then s
    else { s with check := false, events := s.events ++ [.enable], bal := (s.bal + 1) % 100000 }
  else s

/-- Second part of `WaitEvent`, `SocketThread.cxx:1552-1646`: `poll` returned; `res`: `poll_res > 0`, `rev i` is
the result for the socket of worker `i`. -/
def polled (set : List Ufd) (res : Bool) (rev : Nat → Rev) (k : Nat) (s : T) : T :=
  give k (collect set res rev (drain { s with waitFire := false }))

/-- `WorkersSetChanged`, `SocketThread.cxx:1660-1699`. -/
def change (l : List (Option Addon)) (s : T) : T :=
  { s with addons := none :: l, check := l.any Option.isSome }

/-- `fire`: any thread; all others: the thread itself.  `doing`: an addon wants to read or to write. -/
inductive Op where
  | fire (e : Nat)
  | wait (tm : Option Nat) (k : Nat)
  | poll (res : Bool) (rev : Nat → Rev) (k : Nat)
  | doing (i : Nat) (inp out : Bool)
  | change (l : List (Option Addon))

def step (s : T) : Op → T
  | .fire e => fire e s
  | .wait tm k => if s.phase = .awake then wait tm k s else s
  | .poll res rev k =>
    match s.phase with
    | .awake => s
    | .polling set _ => polled set res rev k s
  | .doing i a b =>
    if s.phase = .awake then
      { s with addons := s.addons.modify i fun x => x.map fun y => { y with inp := y.inp || a, out := y.out || b } }
    else s
  | .change l => if s.phase = .awake then change l s else s

def steps (s : T) (os : List Op) : T := os.foldl step s

end Sock

end Verif.WaitEvent
