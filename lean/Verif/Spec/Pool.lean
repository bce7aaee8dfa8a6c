import Verif.Pool
import Verif.Spec.Pointer

/-! # Specification of the memory pool -/

namespace Verif.Pool
open Verif.Buffer Verif.Pointer

/-- Number of segments in `l` lying in block `i`. -/
def uses (l : List Seg) (i : Nat) : Nat := (l.map Seg.id).count i

/-- References a live buffer holds on block `i` of the pool. -/
def bufUses : Option Cont → Nat → Nat
  | none, _ => 0
  | some c, i => if c.owner = .pool then uses c.segs i else 0

/-- References all live buffers hold on block `i`. -/
def World.uses (w : World) (i : Nat) : Nat := (w.bufs.map (bufUses · i)).sum

/-- Some live buffer has a segment in block `i` of the pool. -/
def World.Used (w : World) (i : Nat) : Prop :=
  ∃ c : Cont, some c ∈ w.bufs ∧ c.owner = .pool ∧ ∃ s ∈ c.segs, s.id = i

/-- Buffer `h` exists and was not released. -/
def World.live (w : World) (h : Nat) : Prop := ∃ c, w.bufs[h]? = some (some c)

/-- Calls as they are meant to be made: `ReleaseRawBuffer` only for blocks got by `TakeRawBuffer`, the
target of `Insert` is null or lies in the pool, source and target differ, `GetNextPart` gets a
pointer which was not moved outside of the buffer. -/
def Legal (w : World) : Op → Prop
  | .releaseRaw id => id ∈ w.raw
  | .insert t _ s _ => t ≠ s ∧ t < w.bufs.length ∧ ∀ c, w.bufs[t]? = some (some c) → c.owner = .pool
  | .part h p len seg => seg = true ∧ 0 < len ∧ ∃ c, w.bufs[h]? = some (some c) ∧ NoEmpty (c.segs.map Seg.len) ∧
      OnBuffer (c.segs.map Seg.len) p ∧ 0 < p.raw
  | _ => True

/-- Worlds reachable from a new pool by legal calls. -/
inductive Reach (sizes : List Nat) : World → Prop
  | init : Reach sizes (World.create sizes)
  | step {w w' : World} {op : Op} {o : Out} : Reach sizes w → Legal w op → w.step op = some (w', o) → Reach sizes w'

end Verif.Pool
