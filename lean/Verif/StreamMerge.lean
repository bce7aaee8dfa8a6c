/-!
# Model of the histograms of the stream plugin

`stream::DabcProcMgr::MakeH1`, `MakeH2`, `ClearHistogram`, `GetEntries`, plugins/stream/src/DabcProcMgr.cxx, and the summation of the
histograms of parallel modules, `stream::RunModule::ProduceMergedHierarchy`, plugins/stream/src/RunModule.cxx:259-325.

Simplified: a hierarchy is the list of its items in the order in which `dabc::Iterator` visits them (`Verif.ObjIter` shows that every item
is visited); the values in the bins are of any type with an addition.  Modules are stopped already (`Verif.StreamRun`).
-/

namespace Verif.StreamMerge

/-- Item: name, field `_dabc_hist`, field `_kind`, field `_no_reset`, array in the field `bins`. -/
structure Item (α : Type) where
  name : String
  hist : Bool
  kind : String
  noReset : Bool := false
  bins : Option (List α)
  deriving DecidableEq, Repr

variable {α : Type}

/-- Index of the first value after the description of the axes, plugins/stream/src/RunModule.cxx:305, 310 and
plugins/stream/src/DabcProcMgr.cxx:315. -/
def Item.first (x : Item α) : Nat := if x.kind = "ROOT.TH1D" then 3 else 6

/-- `MakeH1`, plugins/stream/src/DabcProcMgr.cxx:149-171; `n` is the value of `nbins`. -/
def makeH1 [Zero α] (name : String) (nbins : Nat) (n left right : α) : Item α :=
  { name := name, hist := true, kind := "ROOT.TH1D", bins := some ([n, left, right] ++ List.replicate (nbins + 2) 0) }

/-- `MakeH2`, plugins/stream/src/DabcProcMgr.cxx:222-252. -/
def makeH2 [Zero α] (name : String) (n1 n2 : Nat) (a1 l1 r1 a2 l2 r2 : α) : Item α :=
  { name := name, hist := true, kind := "ROOT.TH2D",
    bins := some ([a1, l1, r1, a2, l2, r2] ++ List.replicate ((n1 + 2) * (n2 + 2)) 0) }

/-- Loop `arr[indx++]=0.`. -/
def zeroFrom [Zero α] : Nat → List α → List α
  | _, [] => []
  | 0, _ :: xs => 0 :: zeroFrom 0 xs
  | n + 1, x :: xs => x :: zeroFrom n xs

/-- `ClearHistogram`, plugins/stream/src/DabcProcMgr.cxx:309-321, with its result. -/
def clear [Zero α] (x : Item α) : Item α × Bool :=
  match x.hist, x.bins with
  | true, some b => if x.noReset then (x, true) else ({ x with bins := some (zeroFrom x.first b) }, true)
  | _, _ => (x, false)

/-- `ClearAllDabcHistograms`, plugins/stream/src/DabcProcMgr.cxx:328-337; `isany` is true from the beginning. -/
def clearAll [Zero α] (l : List (Item α)) : List (Item α) × Bool := (l.map (fun x => (clear x).1), true)

/-- Sum of `bins[n+4]`, plugins/stream/src/DabcProcMgr.cxx:429-434. -/
def entries (nbins : Nat) (bins : List Int) : Int := (List.range nbins).foldl (fun s n => s + bins.getD (n + 4) 0) 0

/-- Loop `arr1[indx]+=arr2[indx]`. -/
def addFrom [Add α] : Nat → List α → List α → List α
  | _, [], _ => []
  | _, a, [] => a
  | 0, x :: xs, y :: ys => (x + y) :: addFrom 0 xs ys
  | n + 1, x :: xs, _ :: ys => x :: addFrom n xs ys

/-- One item, plugins/stream/src/RunModule.cxx:300-311. -/
def mergeItem [Add α] (x y : Item α) : Item α :=
  match x.hist && y.hist, x.bins, y.bins with
  | true, some a, some b => if a.length = b.length then { x with bins := some (addFrom x.first a b) } else x
  | _, _, _ => x

/-- Loop over the items, plugins/stream/src/RunModule.cxx:290-312; the second result is `miss`. -/
def mergeTwo [Add α] : List (Item α) → List (Item α) → List (Item α) × Bool
  | [], _ => ([], false)
  | x :: xs, [] => (x :: xs, true)
  | x :: xs, y :: ys =>
    if x.name ≠ y.name then (x :: xs, true)
    else (mergeItem x y :: (mergeTwo xs ys).1, (mergeTwo xs ys).2)

/-- Modules after the first one; the second result tells whether all could be added. -/
def mergeRest [Add α] (main : List (Item α)) : List (List (Item α)) → List (Item α) × Bool
  | [] => (main, true)
  | h :: hs =>
    let r := mergeTwo main h
    if r.2 then (r.1, false) else mergeRest r.1 hs

/-- `ProduceMergedHierarchy`: what is saved to the file. -/
def produce [Add α] : List (List (Item α)) → Option (List (Item α))
  | [] => none
  | h :: hs =>
    let r := mergeRest h hs
    if r.2 then some r.1 else none

end Verif.StreamMerge
