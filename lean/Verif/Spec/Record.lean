import Verif.Record

/-! # What is expected of streaming of fields and fields maps -/

namespace Verif.Record
open Verif.Bytes Verif.Stream

/-- Values which can be stored and read back: sizes within the 32-bit number of 8-byte words of the format
resp. within the 32-bit arithmetic of lines 429 and 434, strings are C strings.  The values not listed here are buffers
and unknown kinds. -/
def Storable : Val → Prop
  | .str s => storeSize (.str s) < 2 ^ 32 ∧ 0 ∉ s
  | .arrstr l => storeSize (.arrstr l) < 2 ^ 32 ∧ ∀ s ∈ l, 0 ∉ s
  | .buffer _ => False
  | .other _ => False
  | v => storeSize v < 2 ^ 35

/-- What is read back: references are not stored, the null reference is read. -/
def readBack : Val → Val
  | .reference _ => .reference true
  | v => v

/-- The entries are strictly ordered, as in a `std::map`. -/
def Sorted (m : FMap) : Prop := m.Pairwise fun a b => nameLt a.1 b.1 = true

/-- The fields of a map taking part in the streaming with prefix `pre` can be stored. -/
def MapStorable (m : FMap) (pre : Name) : Prop :=
  mapStoreSize m pre < 2 ^ 35 ∧ (m.filter fun e => matchPrefix e.1 pre).length < 2 ^ 24 ∧
    ∀ e ∈ m, matchPrefix e.1 pre = true → Storable e.2.val ∧ 0 ∉ e.1 ∧ strStoreSize e.1 < 2 ^ 32

end Verif.Record
