import Verif.MbsServer

/-! Specification for the MBS server and its clients. -/

namespace Verif.MbsServer.Spec

/-- Client `k` is connected. -/
def Connected (s : S) (k : Nat) : Prop := ∃ (n : Nat) (items : List Item), s.slots[n]? = some (some ⟨items, some k⟩)

/-- Client `k` is connected and these buffers are in its queue. -/
def Waiting (s : S) (k : Nat) (items : List Item) : Prop := ∃ n : Nat, s.slots[n]? = some (some ⟨items, some k⟩)

/-- What the server took from its input since client `k` came. -/
def since (s : S) (k : Nat) : List Item := s.taken.drop (s.born k)

/-- No client comes while it is not processed yet that another one went. -/
def Orderly : S → List Op → Prop
  | _, [] => True
  | s, op :: r => (∀ f i, op = .connect f i → s.evs = []) ∧ Orderly (step s op) r

/-- Nobody destroys the transport of a client; clients which go away close it. -/
def Regular : Op → Prop
  | .destroy _ => False
  | _ => True

end Verif.MbsServer.Spec
