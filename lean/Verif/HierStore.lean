import Verif.Spec.Hierarchy

/-!
# Model of the storage of hierarchies, base/src/HierarchyStore.cxx

`HierarchyStore` (base/src/HierarchyStore.cxx:20-196): `CheckForNextStore`, `ExtractData`, `WriteExtractedData`, `StartFile`, `WriteDiff`, as used by
the publisher (base/src/Publisher.cxx:241-246) and by the worker (base/src/Worker.cxx:703-724), and the choice of the file in
`HierarchyReading::ProduceStructure` (base/src/HierarchyStore.cxx:379-404).

The hierarchy and its streaming are those of `Verif.Hierarchy`.  Times are microseconds, 0 is no time.  A file is named by the second of its
creation and is a list of records; a record which was not written completely is `none`.  How a write ends is an input.  Setting a field always counts as
a change.  Left out: history, directories (`mkdir` is part of opening), the bytes of the file (C27), the selection of one entry when reading.
-/

namespace Verif.HierStore
open Verif.Hierarchy
variable {D X : Type}

/-- How writing of a record ends: complete, nothing was written, or only a part. -/
inductive Wr where
  | ok | lost | torn
  deriving DecidableEq

/-- File and its records. -/
structure File (D X : Type) where
  name : Nat
  recs : List (Option (Msg D X))

/-- Members of `HierarchyStore` with the hierarchy and the disk; `cur`: name of the opened file. -/
structure St (D X : Type) where
  h : H D X
  lastStore : Nat := 0
  lastFlush : Nat := 0
  doStore : Bool := false
  doFlush : Bool := false
  lastVersion : Nat := 0
  cur : Option Nat := none
  disk : List (File D X) := []

/-- `CheckForNextStore(now, store_period, flush_period)`, base/src/HierarchyStore.cxx:123-149. -/
def check (now : Nat) (storePeriod flushPeriod : Int) (s : St D X) : St D X × Bool :=
  if s.doStore || s.doFlush then (s, true)
  else
    let s :=
      if s.lastStore = 0 then { s with lastStore := now, lastFlush := now, doStore := false, doFlush := true }
      else if (now : Int) - s.lastStore > storePeriod then
        let s : St D X := { s with lastStore := now, doStore := true }
        if (now : Int) - s.lastFlush ≥ flushPeriod then { s with doFlush := true, lastFlush := now } else s
      else s
    (s, s.doStore || s.doFlush)

/-- What a write adds to the file. -/
def Wr.recs (w : Wr) (r : Msg D X) : List (Option (Msg D X)) :=
  match w with
  | .ok => [some r]
  | .lost => []
  | .torn => [none]

/-- Appends to the file with this name. -/
def addTo (n : Nat) (rs : List (Option (Msg D X))) (disk : List (File D X)) : List (File D X) :=
  disk.map fun f => if f.name = n then { f with recs := f.recs ++ rs } else f

/-- `WriteDiff(buf)`, base/src/HierarchyStore.cxx:92-112. -/
def writeDiff (w : Wr) (r : Msg D X) (s : St D X) : St D X :=
  match s.cur with
  | none => s
  | some n => { s with disk := addTo n (w.recs r) s.disk }

/-- `StartFile(buf)`, base/src/HierarchyStore.cxx:55-90, at the time `clock`; `opn`: directory and file can be created. -/
def startFile (clock : Nat) (opn : Bool) (w : Wr) (r : Msg D X) (s : St D X) : St D X :=
  let s := { s with cur := none }
  if opn then
    let n := clock / 1000000
    writeDiff w r { s with cur := some n, disk := s.disk.filter (fun f => f.name ≠ n) ++ [⟨n, []⟩] }
  else s

/-- What happens while writing: end of the write of the difference, time when the file is started, opening, end of the write of the full hierarchy. -/
structure Io where
  diff : Wr := .ok
  clock : Nat := 0
  opn : Bool := true
  full : Wr := .ok

/-- `ExtractData(h)`, base/src/HierarchyStore.cxx:151-179: new state and both buffers; `setTm`: setting of the field `storetm`. -/
def extract (setTm : Nat → X → X) (stamp : Nat → X → X) (s : St D X) : St D X × Option (Msg D X) × Option (Msg D X) :=
  let sbuf := if s.doStore then some (stream .full s.lastVersion s.h) else none
  let s := if s.doStore then { s with lastVersion := s.h.data.nodeVer } else s
  let fbuf := if s.doFlush then some (stream .full 0 s.h) else none
  let s := if s.doFlush then { s with lastVersion := s.h.data.nodeVer } else s
  let s :=
    if s.doFlush || s.doStore then
      let h := setVal (setTm s.lastStore s.h.data.val) s.h
      { s with h := (markAt (nextVersion h) (stamp s.lastStore) [] h).1 }
    else s
  (s, sbuf, fbuf)

/-- `WriteExtractedData()`, base/src/HierarchyStore.cxx:181-196. -/
def write (io : Io) (sbuf fbuf : Option (Msg D X)) (s : St D X) : St D X :=
  let s :=
    if s.doStore then
      let s := match sbuf with
        | some r => writeDiff io.diff r s
        | none => s
      { s with doStore := false }
    else s
  if s.doFlush then
    let s := match fbuf with
      | some r => startFile io.clock io.opn io.full r s
      | none => s
    { s with doFlush := false }
  else s

/-- The request of the publisher at the worker, base/src/Worker.cxx:703-724. -/
def exec (setTm stamp : Nat → X → X) (io : Io) (s : St D X) : St D X :=
  let r := extract setTm stamp s
  write io r.2.1 r.2.2 r.1

/-- File chosen for a time, base/src/HierarchyStore.cxx:381-387: `files` are the times of the files (here in seconds, as the names), `from` in
microseconds (0: none). -/
def pick (files : List Nat) (from_ : Nat) : Option Nat :=
  match files with
  | [] => none
  | f :: _ => some (if from_ = 0 then f else files.foldl (fun dt n => if n * 1000000 ≤ from_ then n else dt) f)

/-- Reading of the first record, base/src/HierarchyStore.cxx:389-400: `GetStrucutre`. -/
def structureAt [Inhabited D] [Inhabited X] (disk : List (File D X)) (files : List Nat) (from_ : Nat) (name : String) : Option (T D X) :=
  match pick files from_ with
  | none => none
  | some n =>
    match disk.find? fun f => f.name = n with
    | none => none
    | some f =>
      match f.recs with
      | some r :: _ => some (apply r (.empty name))
      | _ => none

end Verif.HierStore
