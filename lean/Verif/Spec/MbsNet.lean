import Verif.MbsNet

/-!
# What the connection between MBS server and client has to give
-/

namespace Verif.MbsNet.Spec

open Verif.Bytes

/-- An MBS event with one subevent. -/
def mbsEvent (number id : Nat) (data : Data) : Data :=
  enc 4 ((data.length + 20) / 2) ++ enc 4 0x1000a ++ enc 4 0x10000 ++ enc 4 number ++
    (enc 4 ((data.length + 4) / 2) ++ enc 4 0x1000a ++ enc 4 id) ++ data

/-- Data of an event, of even length. -/
def evData (e : Ev) : Data := e.data ++ if e.data.length % 2 = 1 then [e.next] else []

/-- Events with numbers from `n` on. -/
def mbsEvents (id : Nat) : Nat → List Ev → Data
  | _, [] => []
  | n, e :: l => mbsEvent n id (evData e) ++ mbsEvents id (n + 1) l

/-- There is something to send in the buffer. -/
def Full (iter : Bool) (b : Buf) : Prop := b.raw ≠ [] ∧ (iter = true → ∃ e ∈ b.evs, e.data ≠ [])

instance (iter : Bool) (b : Buf) : Decidable (Full iter b) := by unfold Full; infer_instance

/-- What the client has to get of the items: the buffers itself, or events with consecutive numbers. -/
def payloads (iter : Bool) (id : Nat) : Nat → List Item → List Data
  | _, [] => []
  | _, .eof :: _ => []
  | n, .buf b :: l =>
    if Full iter b then
      if iter then mbsEvents id n b.evs :: payloads iter id (n + b.evs.length) l
      else b.raw :: payloads iter id n l
    else payloads iter id n l

/-- Buffers which can be sent: of even length and not longer than announced. -/
def Fit (iter : Bool) : Item → Prop
  | .eof => True
  | .buf b => if iter then (mbsEvents 0 0 b.evs).length ≤ 4194304 else b.raw.length % 2 = 0 ∧ b.raw.length ≤ 4194304

def posted : List Op → List Item
  | [] => []
  | .post i :: l => i :: posted l
  | _ :: l => posted l

/-- Operations without errors and without an end; buffers of the pool have the announced size. -/
def Calm : Op → Prop
  | .post .eof => False
  | .srvFail _ | .cliFail _ | .cliEnd | .cliCleanup => False
  | .readStart mem => 4194304 ≤ mem.length
  | _ => True

/-- Operations of server and client: no new buffers. -/
def Inner : Op → Prop
  | .post _ => False
  | op => Calm op

/-- Operations of the server and its environment. -/
def ServerOp : Op → Prop
  | .post _ | .work | .timer | .signal | .push _ | .sent | .req | .srvFail _ => True
  | _ => False

end Verif.MbsNet.Spec
