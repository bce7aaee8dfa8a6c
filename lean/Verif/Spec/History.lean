import Verif.History
import Verif.Spec.FieldsMap

/-! # What is expected of the history: a log of the field values -/

namespace Verif.Record
open Verif.Bytes Verif.Stream

/-- Fields of the item as the log sees them. -/
abbrev Snap := Name → Option Val

/-- All fields of two snapshots are the same. -/
def SameSnap (a b : Snap) : Prop := ∀ n, SameOpt (a n) (b n)

/-- The item is marked with changed fields. -/
def Logs (s : Node) : NOp → Bool
  | .mark _ _ _ => s.fields.wasChanged
  | _ => false

/-- Versions and snapshots of the fields at all marks with changed fields, newest first. -/
def logStep (s : Node) (l : List (Nat × Snap)) (op : NOp) : List (Nat × Snap) :=
  if Logs s op then ((s.step op).ver, value (s.step op).fields.map) :: l else l

/-- Names and values as the application uses them; times differ from the time in the item and versions grow. -/
def NLegal (s : Node) : NOp → Prop
  | .set n v => 0 ∉ n ∧ n ≠ delName ∧ Plain v ∧ v ≠ .none
  | .remove _ => True
  | .setModified => True
  | .mark ver tm _ => s.ver < ver ∧ (s.autoTime = true → value s.fields.map timeName ≠ some (.datime tm))

/-- Items reachable by legal changes from a new item with history capacity `cap`, with the log. -/
inductive NReach (cap : Nat) (autoTime : Bool) : Node → List (Nat × Snap) → Prop
  | init : NReach cap autoTime { cap := cap, autoTime := autoTime } []
  | step {s l} (op : NOp) : NReach cap autoTime s l → NLegal s op → NReach cap autoTime (s.step op) (logStep s l op)

/-- Going back with diffs, first element of the list first. -/
def goBack (txt : Val → List Name) (f : Fields) (items : List (Nat × FMap)) : Fields := items.foldl (fun r h => r.applyDiff txt h.2) f

/-- Newest entry of the log with at most the given version. -/
def LatestAt (l : List (Nat × Snap)) (version : Nat) (e : Nat × Snap) : Prop :=
  e ∈ l ∧ e.1 ≤ version ∧ ∀ e' ∈ l, e'.1 ≤ version → e'.1 ≤ e.1

end Verif.Record
