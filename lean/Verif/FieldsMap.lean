import Verif.Record

/-!
# Model of the operations of `RecordFieldsMap` and of the setters of `RecordField`

base/src/Record.cxx:1030-1366 (setters), 1382-1447 and 1543-1600 (maps).  `cannot_modify()` is always false
(base/dabc/Record.h:272 and base/src/Record.cxx:302-306); `malloc` succeeds.
-/

namespace Verif.Record
open Verif.Bytes Verif.Stream

/-- Bits of a zero of either sign, and of a NaN (exponent all ones, fraction not zero). -/
def isZero (w : Word) : Bool := w.toNat % 2 ^ 63 = 0
def isNaN (w : Word) : Bool := w.toNat % 2 ^ 63 > 0x7ff0000000000000

/-- `==` of two doubles given by their bits. -/
def doubleEq (a b : Word) : Bool := (!isNaN a && a = b) || (isZero a && isZero b)

/-- `modified()` after storing a new value. -/
def Field.put (f : Field) (v : Val) : Field := { f with val := v, modified := true }

/-- `SetValue(src)`, base/src/Record.cxx:1030-1048, with `SetNull` 1051-1057, `SetBool` 1060-1071, `SetInt` 1073-1081,
`SetDatime` 1083-1093, `SetUInt` 1101-1112, `SetDouble` 1114-1125, `SetStr` 1144-1160, `SetBuffer` 1197-1208,
`SetReference` 1210-1221, `SetArrInt` 1224-1249, `SetArrUInt` 1263-1285, `SetArrDouble` 1312-1334, `SetArrStr` 1336-1344. -/
def Field.setVal (f : Field) (src : Val) : Field :=
  match src with
  | .none => if f.val = .none then f else f.put .none
  | .bool w => let v : Val := .bool (if w = 0 then 0 else 1); if f.val = v then f else f.put v
  | .int _ | .datime _ | .uint _ | .str _ => if f.val = src then f else f.put src
  | .double w => match f.val with
    | .double u => if doubleEq u w then f else f.put src
    | _ => f.put src
  | .arrint l | .arruint l | .arrdouble l => if l = [] then f else if f.val = src then f else f.put src
  | .arrstr _ | .buffer _ | .reference _ => f.put src
  | .other _ => f

/-- `RecordFieldsMap`, base/dabc/Record.h:377-379. -/
structure Fields where
  map : FMap := []
  changed : Bool := false

/-- `HasField(name)`, base/src/Record.cxx:1382-1385. -/
def has (m : FMap) (n : Name) : Bool := (find m n).isSome

/-- `Field(name).SetValue(v)` / `fMap[name] = v`. -/
def Fields.set (s : Fields) (n : Name) (v : Val) : Fields := { s with map := upsert s.map n fun f => f.setVal v }

/-- `Field(name)` alone, base/dabc/Record.h:401: creates a field without value. -/
def Fields.touch (s : Fields) (n : Name) : Fields := { s with map := upsert s.map n id }

/-- `Field(name).SetProtected(on)`, base/dabc/Record.h:308. -/
def Fields.protect (s : Fields) (n : Name) (on : Bool) : Fields := { s with map := upsert s.map n fun f => { f with prot := on } }

/-- `RemoveField(name)`, base/src/Record.cxx:1387-1395. -/
def Fields.remove (s : Fields) (n : Name) : Fields :=
  if has s.map n then { map := erase s.map n, changed := true } else s

/-- `WasChanged()`, base/src/Record.cxx:1409-1417. -/
def Fields.wasChanged (s : Fields) : Bool := s.changed || s.map.any fun e => e.2.modified

/-- `WasChangedWith(prefix)`, base/src/Record.cxx:1420-1430. -/
def Fields.wasChangedWith (s : Fields) (pre : Name) : Bool := s.map.any fun e => e.2.modified && pre.isPrefixOf e.1

/-- `ClearChangeFlags()`, base/src/Record.cxx:1433-1438. -/
def Fields.clearFlags (s : Fields) : Fields := { map := s.map.map fun e => (e.1, { e.2 with modified := false }), changed := false }

/-- `Clone()`, base/src/Record.cxx:1440-1448. -/
def Fields.clone (s : Fields) : Fields := s.map.foldl (fun r e => r.set e.1 e.2.val) {}

/-- `CopyFrom(src, overwrite)`, base/src/Record.cxx:1543-1548. -/
def Fields.copyFrom (s : Fields) (src : FMap) (overwrite : Bool) : Fields :=
  src.foldl (fun r e => if overwrite || !has r.map e.1 then r.set e.1 e.2.val else r) s

/-- `MoveFrom(src)`, base/src/Record.cxx:1550-1568. -/
def Fields.moveFrom (s : Fields) (src : FMap) : Fields :=
  let del := (s.map.filter fun e => !e.2.prot && !has src e.1).map Prod.fst
  src.foldl (fun r e => r.set e.1 e.2.val) (del.foldl Fields.remove s)

/-- "dabc:del" -/
def delName : Name := [100, 97, 98, 99, 58, 100, 101, 108]

/-- Loop of `MakeAsDiffTo`, base/src/Record.cxx:1574-1579. -/
def diffLoop (s : Fields) (del : List Name) : FMap → Fields × List Name
  | [] => (s, del)
  | e :: cur =>
    if !has s.map e.1 then diffLoop s (del ++ [e.1]) cur
    else if !e.2.modified then diffLoop (s.remove e.1) del cur
    else diffLoop s del cur

/-- `AsStrVect()`, base/src/Record.cxx:923-967; `txt` stands for the text forms of numbers and the splitting of strings. -/
def asStrVect (txt : Val → List Name) : Val → List Name
  | .arrstr l => l
  | .none | .buffer _ | .reference _ | .other _ => []
  | v => txt v

/-- Memory written by the `strncpy` of `SetStrVect`, base/src/Record.cxx:1186-1192: everything behind a null byte is filled with zeros. -/
def cpad (n : Name) : List Byte := let s := n.takeWhile (· ≠ 0); s ++ List.replicate (n.length + 1 - s.length) 0

/-- `SetStrVect(vect)`, base/src/Record.cxx:1162-1195. -/
def Field.setStrVect (f : Field) (vect : List Name) : Field :=
  if f.val = .arrstr vect then f
  else f.put (.arrstr ((cutStrs vect.length (vect.flatMap cpad)).getD []))

/-- `MakeAsDiffTo(current)`, base/src/Record.cxx:1570-1584. -/
def Fields.makeAsDiffTo (s : Fields) (cur : FMap) : Fields :=
  let r := diffLoop s [] cur
  if r.2.isEmpty then r.1 else { r.1 with map := upsert r.1.map delName fun f => f.setStrVect r.2 }

/-- `ApplyDiff(diff)`, base/src/Record.cxx:1586-1600. -/
def Fields.applyDiff (txt : Val → List Name) (s : Fields) (diff : FMap) : Fields :=
  diff.foldl (fun r e =>
    if e.1 ≠ delName then { r with map := upsert r.map e.1 fun f => { f.setVal e.2.val with modified := true } }
    else (asStrVect txt e.2.val).foldl Fields.remove r) s

end Verif.Record
