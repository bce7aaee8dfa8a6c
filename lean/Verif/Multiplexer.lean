/-!
# Model of the multiplexer module, base/src/MultiplexerModule.cxx, base/src/Module.cxx:932-973

Buffers are numbers.  The inputs are set to signalling "every": each buffer that
arrives at a connected input gives one event (C25).  Events of one module have
one priority and are kept in order (C20): `pend` are the waiting input events.
A buffer and its event arrive together.  What the ports answer during a turn of
the loop is an input of the operation (`Look`); that `Send` works after a
positive answer is the subject of C24.
-/

namespace Verif.Multiplexer

/-- Answers of the outputs in one turn of the loop: `IsConnected()`, the first
and the second answer of `CanSend()`. -/
structure Look where
  conn : Nat → Bool
  can : Nat → Bool
  again : Nat → Bool

/-- `inputs` are the queues of the inputs, `outs` the buffers given to `Send` of
the outputs, `ids` is `fQueue`; `taken` are the buffers taken from the inputs,
with the number of the input. -/
structure S where
  inputs : List (List Nat)
  outs : List (List Nat)
  ids : List Nat
  pend : List Nat
  running : Bool
  taken : List (Nat × Nat)
deriving DecidableEq, Repr

/-- Constructor, `MultiplexerModule.cxx:18-37`, and the first start. -/
def new (inps outs : Nat) : S :=
  ⟨List.replicate inps [], List.replicate outs [], [], [], true, []⟩

/-- `CanSendToAllOutputs`, `Module.cxx:932-940`. -/
def canAll (outs : Nat) (l : Look) : Bool := (List.range outs).all fun n => !l.conn n || l.can n

/-- `SendToAllOutputs`, `Module.cxx:942-973`. -/
def sendAll (l : Look) (b : Nat) (outs : List (List Nat)) : List (List Nat) :=
  outs.mapIdx fun n o => if l.again n then o ++ [b] else o

/-- The body of the loop in `CheckDataSending`, `MultiplexerModule.cxx:60-74`. -/
def turn (l : Look) (id : Nat) (s : S) : S :=
  let id := if s.inputs.length ≤ id then 0 else id
  match s.inputs[id]? with
  | some (b :: r) =>
    { s with
      inputs := s.inputs.set id r
      outs := sendAll l b s.outs
      taken := s.taken ++ [(id, b)] }
  | _ => s

/-- The loop in `CheckDataSending`, `MultiplexerModule.cxx:59-75`, with `fQueue`
apart. -/
def loop (looks : Nat → Look) : List Nat → Nat → S → List Nat × S
  | [], _, s => ([], s)
  | id :: r, k, s =>
    if canAll s.outs.length (looks k) then loop looks r (k + 1) (turn (looks k) id s)
    else (id :: r, s)

/-- `CheckDataSending`, `MultiplexerModule.cxx:54-76`. -/
def check (looks : Nat → Look) (s : S) : S :=
  let p := loop looks s.ids 0 s
  { p.2 with ids := p.1 }

/-- `arrive`: a buffer comes to an input and its event is fired; `silent`: a
buffer comes to an input which is not connected yet, without event;
`inEvent`: the next input event is processed (`Module.cxx:818-827`,
`ModuleAsync.cxx:48-58`, `MultiplexerModule.cxx:39-47`); `outEvent`: an output
event is processed; `stop`; `start`: `ModuleAsync::DoStart`. -/
inductive Op where
  | arrive (p b : Nat)
  | silent (p b : Nat)
  | inEvent (looks : Nat → Look)
  | outEvent (looks : Nat → Look)
  | stop
  | start

/-- The events of `DoStart`, `ModuleAsync.cxx:84-91` with `NumStartEvents`,
`Port.cxx:306-318`. -/
def startEvents (inputs : List (List Nat)) : List Nat :=
  (inputs.mapIdx fun p q => List.replicate q.length p).flatten

def step (s : S) : Op → S
  | .arrive p b => { s with inputs := s.inputs.modify p (· ++ [b]), pend := if p < s.inputs.length then s.pend ++ [p] else s.pend }
  | .silent p b => { s with inputs := s.inputs.modify p (· ++ [b]) }
  | .inEvent looks =>
    match s.pend with
    | [] => s
    | p :: r =>
      let s := { s with pend := r }
      if s.running then check looks { s with ids := s.ids ++ [p] } else s
  | .outEvent looks => if s.running then check looks s else s
  | .stop => { s with running := false }
  | .start => if s.running then s else { s with running := true, pend := s.pend ++ startEvents s.inputs }

def steps (s : S) (os : List Op) : S := os.foldl step s

end Verif.Multiplexer
