import Verif.TransCmd
import Verif.Spec.Url
/-! # What the command to create a transport should do -/

namespace Verif.TransCmd
open Verif.Bytes Verif.Url Verif.Json

/-- The url with these options. -/
def withOpts (p : Parts) (ps : List Text) : Parts :=
  { p with options := if ps = [] then none else some (joined ps) }

/-- The device which a url names: `dev://name`, `device://name/more`, options do not matter. -/
inductive NamesDevice : Parts → Text → Prop
  | host {u : Parts} : u.protocol = some (lit "dev") ∨ u.protocol = some (lit "device") →
      u.file = none → NamesDevice u u.host
  | path {u : Parts} {t} : u.protocol = some (lit "dev") ∨ u.protocol = some (lit "device") →
      u.host ≠ [] → u.file = some t → t ≠ [] → 0 ∉ u.host → 0 ∉ t →
      NamesDevice u (u.host ++ lit "/" ++ t)

/-- No device is meant: the whole text is not the name of one and the url is of other kind. -/
def NoDevice (w : World) (u : Parts) : Prop :=
  w.device u.text = none ∧
    ((u.protocol ≠ some (lit "dev") ∧ u.protocol ≠ some (lit "device")) ∨
      ∃ n, NamesDevice u n ∧ w.device n = none)

/-- The kind of the transport is the url `u`: it is in the command, or the command has none and
it is the configured one together with configured options. -/
def Asked (kind : Text) (p : Port) (u : Parts) : Prop :=
  u.Ok ∧ ((kind ≠ [] ∧ kind = u.text) ∨
    (kind = [] ∧ ∃ (b : Parts) (own : List Text) (os : List (List Text)),
      (withOpts b own).Ok ∧ (∀ x ∈ own, x ≠ []) ∧
      (∀ l ∈ os, ∀ x ∈ l, x ≠ []) ∧ p.cfgUrl = (withOpts b own).text ∧
      p.cfgOpts = os.map joined ∧ u = withOpts b (own ++ os.flatten)))

/-- The thread for a transport. -/
inductive ThreadFor (lay : Layout) (mgr : Text) (p : Port) : Text → Prop
  | configured : p.cfgThrd ≠ [] → ThreadFor lay mgr p p.cfgThrd
  | minimal : p.cfgThrd = [] → lay = .minimal → ThreadFor lay mgr p mgr
  | permodule : p.cfgThrd = [] → lay = .permodule → ThreadFor lay mgr p p.thrd
  | inp : p.cfgThrd = [] → lay = .balanced → p.isInput = true →
      ThreadFor lay mgr p (p.thrd ++ lit "Inp")
  | out : p.cfgThrd = [] → lay = .balanced → p.isInput = false →
      ThreadFor lay mgr p (p.thrd ++ lit "Out")
  | maximal : p.cfgThrd = [] → lay = .maximal → ThreadFor lay mgr p (p.thrd ++ p.name)

end Verif.TransCmd
