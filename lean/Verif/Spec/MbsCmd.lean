import Verif.MbsCmd
/-!
# What is expected from the workers sending commands to MBS
-/

namespace Verif.MbsCmd
open Verif.Bytes

/-- The commands submitted in a sequence of events. -/
def submitted : List Op → List Cmd
  | [] => []
  | .submit c :: l => c :: submitted l
  | _ :: l => submitted l

/-- A command that fits into the record. -/
def Fits : Proto → Cmd → Prop
  | .rem, c => c.text.length ≤ 510
  | .prompter pfx, c => pfx.length + c.text.length ≤ 255

instance (P : Proto) : DecidablePred (Fits P) := fun c => by
  cases P <;> (unfold Fits; infer_instance)

/-- Text in a record, as C code reads it. -/
def textIn : Proto → List Byte → List Byte
  | .rem, r => (r.drop 12).takeWhile (· != 0)
  | .prompter _, r => r.takeWhile (· != 0)

/-- Text expected in the record: prefix and command. -/
def expected : Proto → Cmd → List Byte
  | .rem, c => c.text
  | .prompter pfx, c => pfx ++ c.text

/-- A 32-bit number as a machine of either byte order writes it. -/
def wire (big : Bool) (v : Nat) : List Byte := if big then (enc 4 v).reverse else enc 4 v

/-- Reply of MBS: byte order mark, number of the command, status. -/
def RemReply (r : List Byte) (id st : Nat) : Prop :=
  ∃ big, r.take 12 = wire big 1 ++ wire big id ++ wire big st

/-- Reply of the prompter: byte order mark and status. -/
def PrompterReply (r : List Byte) (st : Nat) : Prop :=
  ∃ big, r.take 8 = wire big 1 ++ wire big st

/-- Number of the command in a record sent to MBS. -/
def idIn (r : List Byte) : Nat := dec ((r.drop 4).take 4)

/-- Events of the network on an established connection. -/
def NetOp : Op → Prop
  | .sendInfo => True
  | .recv _ => True
  | _ => False

/-- Text without zero bytes -/
def NoNul (l : List Byte) : Prop := (0 : Byte) ∉ l

/-- Texts of commands and the prefix are C strings, the prefix fits into the send buffer. -/
structure Good (P : Proto) (subs : List Cmd) : Prop where
  pfx : ∀ pfx, P = .prompter pfx → NoNul pfx ∧ pfx.length ≤ 256
  texts : ∀ c ∈ subs, NoNul c.text

/-- One exchange with MBS: the client submits a command when the previous one is answered, MBS
answers every record it gets with the number in it, in its byte order and with a status. -/
structure Exchange where
  cmd : Cmd
  big : Bool
  status : Nat
  info : List Byte

def exchange (s : St) (x : Exchange) : St :=
  let s1 := step .rem s (.submit x.cmd)
  if s1.sent.length = s.sent.length then s1
  else match s1.sent.getLast? with
    | some q => step .rem s1 (.recv
        (wire x.big 1 ++ wire x.big (idIn q) ++ wire x.big x.status ++ x.info))
    | none => s1

end Verif.MbsCmd
