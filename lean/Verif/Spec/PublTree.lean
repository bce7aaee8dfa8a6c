import Verif.PublTree
import Verif.Spec.Url

/-!
# What paths and requests mean
-/

namespace Verif.PublTree
open Verif.Bytes Verif.Json Verif.Text Verif.Url

/-- The pieces of a text between separators. -/
def pieces (sep : Byte → Bool) : Str → List Str
  | [] => [[]]
  | c :: s =>
    if sep c then [] :: pieces sep s
    else
      match pieces sep s with
      | [] => [[c]]
      | t :: ts => (c :: t) :: ts

/-- The names in a path: what stands between slashes, without empty pieces. -/
def comps (s : Str) : List Str := (pieces (· = slash) s).filter (· ≠ [])

/-- One name of a path: `.` stays, `..` goes up, every other name goes to the first child with this name. -/
def goto (r : Ref) (n : Str) : Option Ref :=
  if n = [dot] then some r else if n = [dot, dot] then r.parent else r.child n

/-- A path is followed name by name. -/
def walk : List Str → Ref → Option Ref
  | [], r => some r
  | n :: ns, r => (goto r n).bind (walk ns)

/-- A name which can be given to an item so that it is found again. -/
def Plain (n : Str) : Prop := n ≠ [] ∧ slash ∉ n ∧ n ≠ [dot] ∧ n ≠ [dot, dot]

/-- Going down from the top of a tree by names; result: all items passed, the last one first. -/
def down : Tree → List Tree → List Str → Option Ref
  | t, up, [] => some ⟨t, up⟩
  | t, up, n :: ns =>
    match t.kids.find? fun k => k.name = n with
    | none => none
    | some k => down k (t :: up) ns

/-- The item under a list of names. -/
def item (t : Tree) (ns : List Str) : Option Ref := down t [] ns

/-- The item under `ns` is the deepest on the way to `ns ++ more` which has a producer. -/
def NearestProducer (t : Tree) (ns : List Str) (j : Nat) (pr : Str) : Prop :=
  j ≤ ns.length ∧ (∃ r, item t (ns.take j) = some r ∧ r.cur.info.producer = some pr) ∧
    ∀ k, j < k → k ≤ ns.length → ∃ r, item t (ns.take k) = some r ∧ r.cur.info.producer = none

/-- The same for the item next to the top. -/
def TopProducer (t : Tree) (ns : List Str) (j : Nat) (pr : Str) : Prop :=
  j ≤ ns.length ∧ (∃ r, item t (ns.take j) = some r ∧ r.cur.info.producer = some pr) ∧
    ∀ k, k < j → ∃ r, item t (ns.take k) = some r ∧ r.cur.info.producer = none

/-- How authentication is asked for an item: by the deepest item on the way to it which says something. -/
def NearestAuth (t : Tree) (ns : List Str) (j : Nat) (a : Bool) : Prop :=
  j ≤ ns.length ∧ (∃ r, item t (ns.take j) = some r ∧ r.cur.info.auth = some a) ∧
    ∀ k, j < k → k ≤ ns.length → ∃ r, item t (ns.take k) = some r ∧ r.cur.info.auth = none

/-- Name of a worker: an item name, with or without a slash in front. -/
def WorkerName (w : Str) : Prop := ∃ i, IsItem i ∧ i ≠ [] ∧ (w = i ∨ w = slash :: i)

/-- The same worker, however the slash in front is written. -/
def bare (w : Str) : Str := if w.head? = some slash then w.tail else w

/-- What the publisher makes of its registrations: the item at the path of each one names the worker as producer, and no other item
has a producer. -/
structure Published (m : Mgr) (p : Publ) : Prop where
  node : ∀ e ∈ p.entries, e.isLocal = true →
    ∃ r, item p.loc (comps e.path) = some r ∧ r.cur.info.producer = some (composeAddr m [] e.worker)
  only : ∀ ns r pr, item p.loc ns = some r → r.cur.info.producer = some pr →
    ∃ e ∈ p.entries, e.isLocal = true ∧ comps e.path = ns ∧ pr = composeAddr m [] e.worker
  names : ∀ e ∈ p.entries, e.isLocal = true → comps e.path ≠ [] ∧ WorkerName e.worker

/-- The registration `e` is the one responsible for the item under `ns`: it has the longest path which leads towards the item. -/
def Responsible (p : Publ) (e : Entry) (ns : List Str) : Prop :=
  e ∈ p.entries ∧ e.isLocal = true ∧ comps e.path <+: ns ∧
    ∀ f ∈ p.entries, f.isLocal = true → comps f.path <+: ns → (comps f.path).length ≤ (comps e.path).length

/-- Other nodes know nothing about the item which is not known here. -/
def LocalOnly (p : Publ) (ns : List Str) : Prop :=
  ∀ e ∈ p.entries, e.isLocal = false → ∀ q, q <+: ns → item e.rem q ≠ none → item p.loc q ≠ none

/-- No worker has registered two hierarchies. -/
def OneEach (p : Publ) : Prop :=
  ∀ e ∈ p.entries, ∀ f ∈ p.entries, e.isLocal = true → f.isLocal = true → bare e.worker = bare f.worker → e = f

end Verif.PublTree
