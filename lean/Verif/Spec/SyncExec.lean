import Verif.SyncExec

/-!
# Specification for synchronous calls of a command

What was answered is read off the actions of the other threads alone.
-/

namespace Verif.SyncExec

/-- The results given by the calls of `Reply`, in order. -/
def replies : List Act → List Int
  | [] => []
  | .reply r :: as => r :: replies as
  | _ :: as => replies as

/-- What a reader of the result sees after these replies: the last one which is not negative, else what was there. -/
def answer (old : Int) : List Int → Int
  | [] => old
  | r :: rs => answer (if 0 ≤ r then r else old) rs

/-- The destination accepted the command. -/
def Accepted (as : List Act) : Prop := ∀ acc, Act.call false acc ∉ as

/-- No exception comes out of the event loop. -/
def Calm (as : List Act) : Prop := Act.throw ∉ as

/-- The time passed in these actions. -/
def spent : List Act → Int
  | [] => 0
  | .tick n :: as => n + spent as
  | _ :: as => spent as

/-- Actions of the calling thread after the begin of the call. -/
def own : Act → Bool
  | .loop _ | .wake _ | .eat | .throw | .check | .read | .remove => true
  | _ => false

end Verif.SyncExec
