import Verif.SockWire

/-!
# What the packets of the command channel have to give
-/

namespace Verif.SockWire.Spec

/-- A message which can be sent: raw data in one segment, below 2 GB together. -/
structure Fit (m : Msg) : Prop where
  kind : m.kind = 1 ∨ m.kind = 2 ∨ m.kind = 3
  tmo : m.tmo < 4294967296
  cmd : m.cmd ≠ []
  raw : m.raw = [] ∨ ∃ seg, m.raw = [seg]
  size : m.cmd.length + m.raw.flatten.length < 2147483648

/-- What the other side has to get of it. -/
def view (m : Msg) : Out := .packet m.kind m.tmo m.cmd (if m.kind = 3 then [] else m.raw.flatten)

end Verif.SockWire.Spec
