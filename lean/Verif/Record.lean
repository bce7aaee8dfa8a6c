import Verif.Stream

/-!
# Model of the streaming of record fields and fields maps, base/src/Record.cxx:336-454, 1450-1527
-/

namespace Verif.Record
open Verif.Bytes Verif.Stream

/-- A 64-bit word (`int64_t`, `uint64_t` or the bits of a `double`). -/
abbrev Word := BitVec 64

/-- Value of a `RecordField`: `fKind` with the unions, base/dabc/Record.h:239-274.  Strings are the bytes
before the null byte. -/
inductive Val where
  | none
  | bool (v : Word) | int (v : Word) | datime (v : Word) | uint (v : Word) | double (v : Word)
  | arrint (l : List Word) | arruint (l : List Word) | arrdouble (l : List Word)
  | str (s : List Byte) | arrstr (l : List (List Byte))
  | buffer (b : List Byte)
  /-- object reference, `isNull` -/
  | reference (isNull : Bool)
  /-- a kind number unknown to the program -/
  | other (kind : Nat)
  deriving DecidableEq

/-- `fKind`, base/dabc/Record.h:239-253. -/
def Val.kind : Val → Nat
  | .none => 0 | .bool _ => 1 | .int _ => 2 | .datime _ => 3 | .uint _ => 4 | .double _ => 5
  | .arrint _ => 6 | .arruint _ => 7 | .arrdouble _ => 8 | .str _ => 9 | .arrstr _ => 10
  | .buffer _ => 11 | .reference _ => 12 | .other k => k

/-- Memory of an array of words. -/
def words (l : List Word) : List Byte := l.flatMap fun w => enc 8 w.toNat

/-- Memory of an array of strings, one after the other with null bytes. -/
def strs (l : List (List Byte)) : List Byte := l.flatMap fun s => s ++ [0]

/-- The `switch` writing the value, base/src/Record.cxx:356-395. -/
def writeValue (s : OStr) : Val → OStr
  | .none => s
  | .bool v | .int v | .datime v | .uint v | .double v => s.write (enc 8 v.toNat)
  | .arrint l | .arruint l | .arrdouble l => (s.u64 l.length).write (words l)
  | .str v => s.write (v ++ [0])
  | .arrstr l => (s.u64 l.length).write (strs l)
  | .buffer b => (s.u64 b.length).write b
  | .reference _ => s
  | .other _ => s

/-- `Stream(s)` of a field into an output stream, base/src/Record.cxx:343-395 and 453, when `StoreSize()`
in line 351 gives `sz`. -/
def writeFieldSz (sz : Nat) (s : OStr) (v : Val) : OStr × Bool :=
  (writeValue ((s.u32 (sz / 8)).u32 (v.kind % 2 ^ 24)) v).verify s.pos sz

/-- `StoreSize()`, base/src/Record.cxx:336-341: `Stream` into a `sizestream`. -/
def storeSize (v : Val) : Nat := (writeFieldSz 0 (.size 0) v).1.pos

/-- `Stream(s)` of a field into an output stream, base/src/Record.cxx:343-395 and 453. -/
def writeField (s : OStr) (v : Val) : OStr × Bool := writeFieldSz (if s.isReal then storeSize v else 0) s v

/-- `(storesz - k) * 8` in 32-bit arithmetic, base/src/Record.cxx:430-444. -/
def bytes32 (storesz k : Nat) : Nat := ((storesz + 2 ^ 32 - k) % 2 ^ 32 * 8) % 2 ^ 32

/-- Cut memory of `n` words. -/
def cutWords : Nat → List Byte → List Word
  | 0, _ => []
  | n + 1, b => BitVec.ofNat 64 (dec (b.take 8)) :: cutWords n (b.drop 8)

/-- Cut `n` C strings; `none`: a null byte is missing. -/
def cutStrs : Nat → List Byte → Option (List (List Byte))
  | 0, _ => some []
  | n + 1, b => (cstr b).bind fun s => (cutStrs n (b.drop (s.length + 1))).map fun l => s :: l

/-- One word. -/
def readWord (s : IStr) : Option (Word × IStr) := (s.u64).map fun r => (BitVec.ofNat 64 r.1, r.2)

/-- An array of words; `new int64_t[n]` throws for an impossible size, then reading fails. -/
def readArr (s : IStr) : Option (List Word × IStr) :=
  (s.u64).bind fun (n, s) => (s.read (n * 8)).map fun r => (cutWords n r.1, r.2)

/-- The `switch` reading the value, base/src/Record.cxx:404-450. -/
def readValue (kind storesz : Nat) (s : IStr) : Option (Val × IStr) :=
  match kind with
  | 0 => some (.none, s)
  | 1 => (readWord s).map fun r => (.bool r.1, r.2)
  | 2 => (readWord s).map fun r => (.int r.1, r.2)
  | 3 => (readWord s).map fun r => (.datime r.1, r.2)
  | 4 => (readWord s).map fun r => (.uint r.1, r.2)
  | 5 => (readWord s).map fun r => (.double r.1, r.2)
  | 6 => (readArr s).map fun r => (.arrint r.1, r.2)
  | 7 => (readArr s).map fun r => (.arruint r.1, r.2)
  | 8 => (readArr s).map fun r => (.arrdouble r.1, r.2)
  | 9 => (s.read (bytes32 storesz 1)).bind fun (b, s) => (cstr b).map fun v => (.str v, s)
  | 10 => (s.u64).bind fun (n, s) =>
      (s.read (bytes32 storesz 2)).bind fun (b, s) => (cutStrs n b).map fun l => (.arrstr l, s)
  | 11 => (s.u64).bind fun (n, s) =>
      (s.read (bytes32 storesz 1)).bind fun (b, s) =>
        if n > b.length then none else some (.buffer (b.take n), s)
  | 12 => some (.reference true, s)
  | k => some (.other k, s)

/-- `Stream(s)` of a field from an input stream, base/src/Record.cxx:396-454. -/
def readField (s : IStr) : Option (Val × IStr × Bool) :=
  (s.u32).bind fun (storesz, t) => (t.u32).bind fun (storekind, t) =>
    (readValue (storekind % 2 ^ 24) storesz t).map fun (v, t) =>
      let r := t.verify s.pos (storesz * 8)
      (v, r.1, r.2)

/-! ## Maps of fields -/

/-- A field with its flags, base/dabc/Record.h:276-278. -/
structure Field where
  val : Val
  modified : Bool := false
  touched : Bool := false
  prot : Bool := false
  deriving DecidableEq

abbrev Name := List Byte

/-- `std::string` order. -/
def nameLt : Name → Name → Bool
  | _, [] => false
  | [], _ :: _ => true
  | a :: x, b :: y => a.toNat < b.toNat || (a = b && nameLt x y)

/-- `FieldsMap = std::map<std::string, RecordField>`, base/dabc/Record.h:361: the entries in order. -/
abbrev FMap := List (Name × Field)

/-- `fMap.find(name)`. -/
def find (m : FMap) (n : Name) : Option Field := (List.find? (fun e => e.1 = n) m).map Prod.snd

/-- Insertion at the sorted position. -/
def insertNew (n : Name) (f : Field) : FMap → FMap
  | [] => [(n, f)]
  | e :: m => if nameLt n e.1 then (n, f) :: e :: m else e :: insertNew n f m

/-- `fMap[name] = f` resp. an access to `fMap[name]` changing it to `f`. -/
def upsert (m : FMap) (n : Name) (g : Field → Field) : FMap :=
  match find m n with
  | some _ => m.map fun e => if e.1 = n then (e.1, g e.2) else e
  | none => insertNew n (g { val := .none }) m

/-- `fMap.erase(name)` / `RemoveField(name)`, base/src/Record.cxx:1387-1395. -/
def erase (m : FMap) (n : Name) : FMap := m.filter fun e => e.1 ≠ n

/-- `match_prefix(name, prefix)`, base/src/Record.cxx:1457-1464; 35 is `'#'`. -/
def matchPrefix (name pre : Name) : Bool :=
  match name with
  | [] => false
  | c :: _ => if c = 35 then false else pre.isEmpty || pre.isPrefixOf name

/-- Loop writing names and fields, base/src/Record.cxx:1488-1492. -/
def writeEntries (s : OStr) : FMap → OStr
  | [] => s
  | e :: m => writeEntries (writeField (s.writeStr e.1).1 e.2.val).1 m

/-- `Stream(s, nameprefix)` into an output stream, base/src/Record.cxx:1467-1492 and 1526, for the value `sz` of
`StoreSize`. -/
def writeMapSz (sz : Nat) (s : OStr) (m : FMap) (pre : Name) : OStr × Bool :=
  let l := m.filter fun e => matchPrefix e.1 pre
  (writeEntries ((s.u32 (sz / 8)).u32 l.length) l).verify s.pos sz

/-- `StoreSize(nameprefix)`, base/src/Record.cxx:1450-1455. -/
def mapStoreSize (m : FMap) (pre : Name) : Nat := (writeMapSz 0 (.size 0) m pre).1.pos

/-- `Stream(s, nameprefix)` into an output stream. -/
def writeMap (s : OStr) (m : FMap) (pre : Name) : OStr × Bool :=
  writeMapSz (if s.isReal then mapStoreSize m pre else 0) s m pre

/-- Loop reading the entries, base/src/Record.cxx:1511-1517. -/
def readEntries : Nat → IStr → FMap → Option (IStr × FMap)
  | 0, s, m => some (s, m)
  | n + 1, s, m =>
    (s.readStr).bind fun (name, s, _) => (readField s).bind fun (v, s, _) =>
      readEntries n s (upsert m name fun f => { f with val := v, touched := true })

/-- `Stream(s, nameprefix)` from an input stream, base/src/Record.cxx:1494-1526. -/
def readMap (s : IStr) (m : FMap) (pre : Name) : Option (FMap × IStr × Bool) :=
  (s.u32).bind fun (storesz, t) => (t.u32).bind fun (storenum, t) =>
    (readEntries (storenum % 2 ^ 24) t (m.map fun e => (e.1, { e.2 with touched := false }))).map fun (t, m) =>
      let m := m.filter fun e => e.2.touched || !matchPrefix e.1 pre
      let r := t.verify s.pos (storesz * 8)
      (m, r.1, r.2)

/-- `Record::Stream(s)` into an output stream for the value `sz`, base/src/Record.cxx:1680-1693 and 1709. -/
def writeRecSz (sz : Nat) (s : OStr) (name : Name) (m : FMap) : OStr × Bool :=
  (writeMap ((s.u64 sz).writeStr name).1 m []).1.verify s.pos sz

/-- Size found with the `sizestream`, base/src/Record.cxx:1686-1689 and 1717-1718. -/
def recStoreSize (name : Name) (m : FMap) : Nat := (writeRecSz 0 (.size 0) name m).1.pos

/-- `Record::SaveToBuffer()`, base/src/Record.cxx:1712-1733: content of the buffer, `none`: an empty buffer is
returned.  A record always needs some bytes, therefore `CreateBuffer` gives memory of exactly that size. -/
def saveToBuffer (name : Name) (m : FMap) : Option (List Byte) :=
  let size := recStoreSize name m
  match writeRecSz size (.mem [] size) name m with
  | (.mem out _, true) => some out
  | _ => none

/-- `Record::Stream(s)` from an input stream, base/src/Record.cxx:1694-1709. -/
def readRec (s : IStr) (m : FMap) : Option (Name × FMap × IStr × Bool) :=
  (s.u64).bind fun (sz, t) => (t.readStr).bind fun (name, t, _) => (readMap t m []).map fun (m, t, _) =>
    let r := t.verify s.pos sz
    (name, m, r.1, r.2)

/-- `Record::ReadFromBuffer(buf)`, base/src/Record.cxx:1735-1747: name, fields, result.  `m` are the fields of
the record before, empty for a null record. -/
def readFromBuffer (b : List Byte) (m : FMap) : Option (Name × FMap × Bool) :=
  (readRec ⟨b, 0⟩ m).map fun (name, m, _, ok) => (name, m, ok)

end Verif.Record
