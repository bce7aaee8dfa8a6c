import Verif.Readout
/-!
# What is expected of reading events with a handle
-/

namespace Verif.Readout.Spec

/-- The events of a buffer which a user of the handle can get: an MBS handle gives the MBS events, a HADES handle the HADES events and
those inside of MBS events. -/
def visible (h : Bool) : Buf → List Ev
  | .eof => []
  | .other => []
  | .mbs l => if h then l.filter (·.raw) else l
  | .had l => if h then l else []

/-- The events which were returned. -/
def returned (log : List Ret) : List Ev := log.filterMap (·.ev)

/-- All events which the user could get. -/
def events (h : Bool) (bs : List Buf) : List Ev := bs.flatMap (visible h)

/-- The call does not limit the age. -/
def NoAge (a : Act) : Prop := ∀ t m, a = .call t m → m = none

/-- All buffers are of the kind of MBS. -/
def OnlyMbs (a : Act) : Prop := ∀ b, a = .arrive b → (∃ l, b = .mbs l) ∨ b = .eof

/-- All buffers are of the kind of HADES. -/
def OnlyHad (a : Act) : Prop := ∀ b, a = .arrive b → (∃ l, b = .had l) ∨ b = .eof ∨ b = .other

end Verif.Readout.Spec
