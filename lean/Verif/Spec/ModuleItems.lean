import Verif.ModuleItems

/-! Specification for C98: the index of an item is its position in the list of its kind. -/

namespace Verif.ModuleItems.Spec
open Verif.ModuleItems

/-- The item with index `i` of kind `k`. -/
def At (m : M) (k : Kind) (i id : Nat) : Prop := (m.vec k)[i]? = some id

/-- The item `id` is named `name`. -/
def Named (m : M) (id : Nat) (name : List Char) : Prop := ∃ it, itemOf m.items id = some it ∧ it.name = name

/-- Nothing follows the item in the list of its kind. -/
def lastOne (m : M) : Op → Prop
  | .remove x => ∀ k p, At m k p x → (m.vec k)[p + 1]? = none
  | _ => True

/-- Items are removed only from the end of their lists. -/
def OnlyLast : M → List Op → Prop
  | _, [] => True
  | m, op :: ops => lastOne m op ∧ (match step m op with | some m => OnlyLast m ops | none => True)

/-- Operations without removing of items. -/
def grows : Op → Bool
  | .remove _ => false
  | _ => true

end Verif.ModuleItems.Spec
