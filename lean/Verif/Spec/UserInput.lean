import Verif.UserInput
/-!
# What the author of a readout expects
-/

namespace Verif.UserInput

/-- The readout keeps to the size which was configured, and says what it wrote. -/
def Readout.fair (c : Cfg) (r : Readout) : Prop := r.data.length ≤ c.size ∧ r.size = r.data.length

/-- Buffer large enough for the configured size of subevents. -/
def Inp.large (c : Cfg) (i : Inp) : Prop := 40 ≤ i.mem.length ∧ 28 + c.size ≤ i.mem.length

/-- Calls for one accepted trigger. -/
def Cfg.cycle (c : Cfg) : List Call := if c.early then [.wait, .reset, .readout] else [.wait, .readout, .reset]

/-- State after some calls of the transport. -/
def Reach (c : Cfg) (s : St) : Prop := ∃ is, s = run c {} is

end Verif.UserInput
