import Verif.DimInfo
/-!
# What a DIM server sends

A service has a list of items, each is a number of values of one kind or a text with a fixed place.  The format names kind and number.
-/

namespace Verif.DimInfo

open Verif.Bytes

/-- Text of a number in decimal digits. -/
inductive Numeral : List Char → Nat → Prop
  | nil : Numeral [] 0
  | snoc {t n d} (ch : Char) : Numeral t n → d < 10 → ch.toNat = 48 + d → Numeral (t ++ [ch]) (10 * n + d)

inductive Item
  | ints (v : List (BitVec 32))
  | floats (v : List (BitVec 32))
  | doubles (v : List (BitVec 64))
  | text (s : List Byte) (pad : Nat)
  deriving DecidableEq, Repr

def Item.kind : Item → Char
  | .ints _ => 'I'
  | .floats _ => 'F'
  | .doubles _ => 'D'
  | .text .. => 'C'

/-- Number in the format. -/
def Item.count : Item → Nat
  | .ints v => v.length
  | .floats v => v.length
  | .doubles v => v.length
  | .text s pad => s.length + pad

/-- Bytes of the item: values with the low byte first, texts filled up with zeros. -/
def Item.bytes : Item → List Byte
  | .ints v => v.flatMap fun x => enc 4 x.toNat
  | .floats v => v.flatMap fun x => enc 4 x.toNat
  | .doubles v => v.flatMap fun x => enc 8 x.toNat
  | .text s pad => s ++ List.replicate pad 0

/-- Field which shows the item: one value, or a vector. -/
def Item.field : Item → Fld
  | .ints [x] => .int x.toInt
  | .ints v => .ints (v.map (·.toInt))
  | .floats [x] => .flt x.toNat
  | .floats v => .flts (v.map (·.toNat))
  | .doubles [x] => .dbl x.toNat
  | .doubles v => .dbls (v.map (·.toNat))
  | .text s _ => .str s

/-- Not empty, and no null byte inside of a text. -/
def Item.good (x : Item) : Prop := 0 < x.count ∧ ∀ s pad, x = .text s pad → (0 : Byte) ∉ s

/-- Format string of a list of items; a semicolon follows each item (it may be missing after the last one). -/
inductive Format : List Item → List Char → Prop
  | nil : Format [] []
  | last {x t} : Numeral t x.count → Format [x] (x.kind :: ':' :: t)
  | cons {x xs t f} : Numeral t x.count → Format xs f → Format (x :: xs) (x.kind :: ':' :: (t ++ ';' :: f))

/-- Part of a format string: items with a semicolon after each. -/
inductive Open : List Item → List Char → Prop
  | nil : Open [] []
  | cons {x xs t f} : Numeral t x.count → Open xs f → Open (x :: xs) (x.kind :: ':' :: (t ++ ';' :: f))

end Verif.DimInfo
