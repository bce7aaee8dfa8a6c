import Verif.Bytes
import Mathlib.Data.List.Forall2

/-!
# Specification: names described by a mask
-/

namespace Verif.NameMatch
open Verif.Bytes

/-- Piece of the name which a character of the mask stands for: anything for `*`, one character for `?`, otherwise itself. -/
def Piece (m : Byte) (p : List Byte) : Prop := if m = 42 then True else if m = 63 then p.length = 1 else p = [m]

/-- The name is a sequence of such pieces. -/
def Matches (mask name : List Byte) : Prop := ∃ ps, List.Forall₂ Piece mask ps ∧ ps.flatten = name

/-- Text without the character `b`. -/
def Without (b : Byte) (s : List Byte) : Prop := b ∉ s

/-- One of the masks in a list separated by `:`. -/
def PartOf (part mask : List Byte) : Prop :=
  ∃ pre post, mask = pre ++ part ++ post ∧ 58 ∉ part ∧ (pre = [] ∨ ∃ p, pre = p ++ [58]) ∧
    (post = [] ∨ ∃ p, post = 58 :: p)

end Verif.NameMatch
