import Verif.Gosip
/-! # Answer to a list of commands -/

namespace Verif.Gosip
open Verif.Bytes

/-- The first `k` commands were executed with these lines and results; the others were skipped, which
happens only after an error. -/
structure Answered (exec : Nat → Text → Option Res) (line : Text → Text) (cmds : List Text)
    (res : List Res) (lines : List Text) (k : Nat) : Prop where
  one_each : res.length = cmds.length
  executed : lines = (cmds.take k).map line
  le : k ≤ cmds.length
  results : ∀ i c, i < k → cmds[i]? = some c → res[i]? = exec i c
  skipped : ∀ i, k ≤ i → i < cmds.length → res[i]? = some .skip
  go_on : ∀ i, i + 1 < k → res[i]? ≠ some .err
  stop : k < cmds.length → 0 < k ∧ res[k - 1]? = some .err

end Verif.Gosip
