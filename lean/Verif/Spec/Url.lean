import Verif.Url
import Verif.Spec.Json

/-! # Parts of a URL and its options -/

namespace Verif.Url
open Verif.Bytes Verif.Json

/-- Parts of a URL; the port is its decimal text. -/
structure Parts where
  protocol : Option (List Byte)
  host : List Byte
  port : Option (List Byte)
  file : Option (List Byte)
  options : Option (List Byte)

def opt (pre : List Byte) : Option (List Byte) → List Byte
  | none => []
  | some t => pre ++ t

/-- `[protocol://]host[:port][/file][?options]` -/
def Parts.text (p : Parts) : List Byte :=
  (match p.protocol with | none => [] | some t => t ++ lit "://") ++ p.host ++ opt (lit ":") p.port ++ opt (lit "/") p.file ++ opt (lit "?") p.options

/-- A text without a given sequence of characters. -/
def Without (pat t : List Byte) : Prop := ¬ pat <:+: t

/-- The parts contain no separators; without protocol there is no `://` at all. -/
structure Parts.Ok (p : Parts) : Prop where
  nonempty : p.text ≠ []
  protocol : ∀ t, p.protocol = some t → Without (lit "://") t
  noprotocol : p.protocol = none → Without (lit "://") p.text
  host : ∀ b ∈ p.host, b ≠ 47 ∧ b ≠ 63 ∧ b ≠ 58
  port : ∀ t, p.port = some t → Digits t ∧ natVal t < 2 ^ 31
  file : ∀ t, p.file = some t → 63 ∉ t

/-- The codes which are understood in options. -/
def codes : List ((Byte × Byte) × Byte) :=
  [((50, 55), 39), ((50, 50), 34), ((50, 48), 32), ((51, 69), 62), ((51, 67), 60), ((53, 66), 91), ((53, 68), 93)]

/-- One pass from left to right replacing codes `%xy`. -/
def decode (f : Byte → Byte → Option Byte) : List Byte → List Byte
  | [] => []
  | 37 :: x :: y :: r =>
    match f x y with
    | some c => c :: decode f r
    | none => 37 :: decode f (x :: y :: r)
  | b :: r => b :: decode f r

def code (x y : Byte) : Option Byte := codes.lookup (x, y)

/-- The file name; without host it keeps its slash (`file:///tmp/x`). -/
def fileOf (host : List Byte) (port file : Option (List Byte)) : List Byte :=
  match file with
  | none => []
  | some t => if host = [] ∧ port = none then 47 :: t else t

/-- What parsing should give. -/
def Parts.expected (p : Parts) : Url where
  valid := true
  protocol := p.protocol.getD []
  host := p.host
  port := ((p.port.map natVal).getD 0 : Nat)
  file := fileOf p.host p.port p.file
  options := decode code (p.options.getD [])

/-! ## Options -/

/-- Text of one option: `&` only inside of quotes. -/
inductive OptText : List Byte → Prop
  | nil : OptText []
  | plain {b t} : b ≠ 39 → b ≠ 34 → b ≠ 38 → OptText t → OptText (b :: t)
  | quoted {q c t} : q = 39 ∨ q = 34 → q ∉ c → OptText t → OptText (q :: (c ++ q :: t))

/-- Options joined by `&`. -/
def joined : List (List Byte) → List Byte
  | [] => []
  | [p] => p
  | p :: q :: l => p ++ [38] ++ joined (q :: l)

/-- The option has this name: `name` or `name=…`. -/
def Named (name p : List Byte) : Prop := p = name ∨ ∃ t, p = name ++ [61] ++ t

/-- Value denoted by the text behind the equal sign. -/
def Denotes (t v : List Byte) : Prop :=
  (∃ q, (q = 39 ∨ q = 34) ∧ t = [q] ++ v ++ [q]) ∨ (t = v ∧ ∀ q c, q = 39 ∨ q = 34 → t ≠ [q] ++ c ++ [q])

/-- The option has this name and value. -/
def Says (name p v : List Byte) : Prop := (p = name ∧ v = []) ∨ ∃ t, p = name ++ [61] ++ t ∧ Denotes t v

/-- Writing characters as codes. -/
def encode (s : List Byte) : List Byte :=
  s.flatMap fun b => match codes.find? fun e => e.2 = b with | some e => [37, e.1.1, e.1.2] | none => [b]

/-! ## Addresses -/

/-- Decimal text of a positive number without leading zeros. -/
def Canonical (t : List Byte) : Prop := Digits t ∧ t.head? ≠ some 48

/-- Server `host` or `host:port`, the host being no node name. -/
def IsServer (s : List Byte) : Prop :=
  ∃ host port, s = host ++ opt (lit ":") port ∧ host ≠ [] ∧ (∀ b ∈ host, b ≠ 47 ∧ b ≠ 63 ∧ b ≠ 58) ∧ s.take 4 ≠ lit "node" ∧
    ∀ t, port = some t → Canonical t ∧ natVal t < 2 ^ 31

/-- Item name: no options, no slash in front. -/
def IsItem (s : List Byte) : Prop := 63 ∉ s ∧ s.head? ≠ some 47

end Verif.Url
