import Verif.FileName

/-! # Files which exist -/

namespace Verif.FileName
open Verif.Bytes

/-- The file is in its directory and can be read. -/
def Exists (disk : Disk) (f : List Byte) : Prop := ∃ dir item, f = dir ++ item ∧ 47 ∉ item ∧ (dir = [] ∨ dir.getLast? = some 47) ∧ (item, true) ∈ disk dir

/-- Usual extension: no slash, wildcard or null byte, starts with a dot. -/
def Extension (ext : List Byte) : Prop := ext.head? = some 46 ∧ 47 ∉ ext ∧ 91 ∉ ext ∧ 42 ∉ ext ∧ 63 ∉ ext ∧ 0 ∉ ext

/-- The name of a file up to its extension ends with at most nine digits, and is not only digits. -/
def Tame (ext item : List Byte) : Prop := ∀ x, item = x ++ ext → ∃ a c d, x = a ++ c :: d ∧ ¬ (48 ≤ c.toNat ∧ c.toNat ≤ 57) ∧ d.length ≤ 9

/-- Usual name: no null byte; its last part has no bracket and is no hidden file. -/
def Usual (ext name : List Byte) : Prop :=
  0 ∉ name ∧ ∃ dir item, name = dir ++ item ∧ 47 ∉ item ∧ (dir = [] ∨ dir.getLast? = some 47) ∧ 91 ∉ item ∧
    (item.head? ≠ some 46 ∨ item = ext)

end Verif.FileName
