import Verif.Text

/-!
# Model of base/src/Url.cxx and of the item addresses in base/src/Manager.cxx:1439-1490
-/

namespace Verif.Url
open Verif.Bytes Verif.Json Verif.Text

/-- Members of `dabc::Url`, base/dabc/Url.h. -/
structure Url where
  valid : Bool
  protocol : List Byte
  host : List Byte
  port : Int
  file : List Byte
  options : List Byte
  deriving DecidableEq

/-- `while ((pos = opt.find("%xy")) != npos) opt.replace(pos, 3, rep)`, base/src/Url.cxx:111-117. -/
def replaceCode (x y rep : Byte) (opt : List Byte) : List Byte :=
  match _h : find [37, x, y] opt with
  | none => opt
  | some pos => replaceCode x y rep (opt.take pos ++ [rep] ++ opt.drop (pos + 3))
termination_by opt.length
decreasing_by
  have := find_le _h
  simp only [List.length_append, List.length_take, List.length_drop, List.length_cons, List.length_nil] at *
  omega

/-- `ReplaceSpecialSymbols(opt)`, base/src/Url.cxx:106-118. -/
def replaceSpecial (opt : List Byte) : List Byte :=
  let opt := replaceCode 50 55 39 opt
  let opt := replaceCode 50 50 34 opt
  let opt := replaceCode 50 48 32 opt
  let opt := replaceCode 51 69 62 opt
  let opt := replaceCode 51 67 60 opt
  let opt := replaceCode 53 66 91 opt
  replaceCode 53 68 93 opt

/-- Host name and port, base/src/Url.cxx:86-94; `none`: undefined behaviour of `sscanf`. -/
def setPort (u : Url) : Option Url :=
  match find [58] u.host with
  | none => some u
  | some pos =>
    match strToInt 32 (u.host.drop (pos + 1)) with
    | .val p => some { u with port := p, host := u.host.take pos }
    | .fail => some { u with valid := false, host := u.host.take pos }
    | .undef => none

/-- Host and file, base/src/Url.cxx:75-84. -/
def setFile (u : Url) (s : List Byte) : Option Url :=
  match find [47] s with
  | some pos => if pos = 0 then setPort { u with file := s } else setPort { u with host := s.take pos, file := s.drop (pos + 1) }
  | none => setPort { u with host := s }

/-- Options, base/src/Url.cxx:66-73. -/
def setRest (u : Url) (r : List Byte) : Option Url :=
  if r = [] then some u
  else match find [63] r with
    | some pos => setFile { u with options := replaceSpecial (r.drop (pos + 1)) } (r.take pos)
    | none => setFile u r

/-- `SetUrl(url)`, base/src/Url.cxx:46-97. -/
def setUrl (url : List Byte) : Option Url :=
  if url = [] then some ⟨false, [], [], 0, [], []⟩
  else match find [58, 47, 47] url with
    | some pos => setRest ⟨true, url.take pos, [], 0, [], []⟩ (url.drop (pos + 3))
    | none => setRest ⟨true, [], [], 0, [], []⟩ url

/-- `GetFullName()`, base/src/Url.cxx:121-127; `format` uses the C strings. -/
def Url.fullName (u : Url) : List Byte :=
  if u.file = [] then u.host else if u.host = [] then u.file else cstr u.host ++ [47] ++ cstr u.file

/-- `GetHostNameWithPort(dfltport)`, base/src/Url.cxx:138-144. -/
def Url.hostWithPort (u : Url) (dflt : Int) : List Byte :=
  let port := if u.port ≤ 0 then dflt else u.port
  if port > 0 then u.host ++ [58] ++ decInt port else u.host

/-- `ComposeItemName(nodeid, itemname)`, base/src/Url.cxx:146-151. -/
def composeItem (node : Int) (item : List Byte) : List Byte :=
  if node < 0 then [] else lit "dabc://node" ++ decInt node ++ [47] ++ cstr item

/-- `ComposePortName(nodeid, fullportname, portid)`, base/src/Url.cxx:153-164. -/
def composePort (node : Int) (port : List Byte) (id : Int) : List Byte :=
  if node < 0 ∨ port = [] then [] else composeItem node port ++ (if id ≥ 0 then decInt id else [])

/-- `DecomposeItemName(name, nodeid, fullportname)`, base/src/Url.cxx:166-192.  Outer `none`: undefined; inner `none`: `false`. -/
def decomposeItem (name : List Byte) : Option (Option (Int × List Byte)) :=
  (setUrl name).bind fun u =>
    if u.valid = false then some none
    else if u.protocol = [] then some (some (-1, u.fullName))
    else if u.protocol ≠ lit "dabc" then some none
    else if u.host.take 4 ≠ lit "node" then some none
    else match strToInt 32 (u.host.drop 4) with
      | .val n => if n < 0 then some none else some (some (n, u.file))
      | .fail => some none
      | .undef => none

/-! ## Options -/

/-- Characters before the next separator, base/src/Url.cxx:223-239, flags `q1`, `q2`, `special`.  The position of the equal
sign found there is not used. -/
def partLen : Bool → Bool → Bool → List Byte → Nat
  | _, _, _, [] => 0
  | q1, q2, sp, c :: r =>
    if (q1 || q2) && c = 92 then 1 + partLen q1 q2 (!sp) r
    else
      let sp := if q1 || q2 then false else sp
      if !q2 && c = 39 && !sp then 1 + partLen (!q1) q2 sp r
      else if !q1 && c = 34 && !sp then 1 + partLen q1 (!q2) sp r
      else if !q1 && !q2 && c = 38 then 0
      else 1 + partLen q1 q2 sp r

/-- Surrounding quotes are removed, base/src/Url.cxx:267-271. -/
def unquote (v : List Byte) : List Byte :=
  if v.length > 1 ∧ (v.head? = some 39 ∨ v.head? = some 34) ∧ v.head? = v.getLast? then v.tail.dropLast else v

/-- Loop of `GetOption`, base/src/Url.cxx:203-279; `s` is the text from position `p` on.  `none`: `false`. -/
def optLoop (name : List Byte) (number : Int) (cnt : Nat) (s : List Byte) : Option (List Byte) :=
  if hs : s = [] then none
  else
    let n := partLen false false false s
    let next := fun (c : Nat) => optLoop name number c (s.drop (n + 1))
    if number ≥ 0 then if (cnt : Int) = number then some (s.take n) else next (cnt + 1)
    else if n ≥ name.length ∧ s.take name.length = name then
      match (s.take n).drop name.length with
      | [] => some []
      | b :: v => if b = 61 then some (unquote v) else next cnt
    else next cnt
termination_by s.length
decreasing_by
  all_goals
    have : 0 < s.length := List.length_pos_iff.mpr hs
    simp only [List.length_drop]; omega

/-- `GetOption(optname, optionnumber, value)`, base/src/Url.cxx:203-286. -/
def getOption (u : Url) (name : List Byte) (number : Int) : Option (List Byte) :=
  if u.options = [] then none else if number < 0 ∧ name = [] then none else optLoop name number 0 u.options

/-- `GetOptionStr(optname, dflt)`, base/src/Url.cxx:281-288. -/
def getOptionStr (u : Url) (name dflt : List Byte) : List Byte := (getOption u name (-1)).getD dflt

/-- `GetOptionInt(optname, dflt)`, base/src/Url.cxx:290-300; `none`: undefined. -/
def getOptionInt (u : Url) (name : List Byte) (dflt : Int) : Option Int :=
  let r := getOptionStr u name []
  if r = [] then some dflt
  else match strToInt 32 r with
    | .val v => some v
    | .fail => some dflt
    | .undef => none

/-- `GetOptionBool(optname, dflt)`, base/src/Url.cxx:314-324. -/
def getOptionBool (u : Url) (name : List Byte) (dflt : Bool) : Bool :=
  let r := getOptionStr u name []
  if r = [] then dflt else if r = lit "true" then true else if r = lit "false" then false else dflt

/-! ## Addresses of the manager -/

/-- What the manager knows: `fLocalAddress`, `fNodeId`, `GetNodeAddress`. -/
structure Mgr where
  localAddr : List Byte
  nodeId : Int
  nodeAddr : Int → List Byte

/-- `ComposeAddress(server, itemname)`, base/src/Manager.cxx:1439-1452. -/
def composeAddr (m : Mgr) (server item : List Byte) : List Byte :=
  let res := if server = [] then m.localAddr else server
  let res := if res = [] then lit "localhost" else res
  let res := if find (lit "dabc://") res = some 0 then res else lit "dabc://" ++ res
  match item with
  | [] => res
  | c :: _ => res ++ (if c = 47 then [] else [47]) ++ item

/-- `DecomposeAddress(addr, islocal, server, itemname)`, base/src/Manager.cxx:1454-1490.  Outer `none`: undefined; inner `none`:
`false`; otherwise `islocal`, `server`, `itemname`. -/
def decomposeAddr (m : Mgr) (addr : List Byte) : Option (Option (Bool × List Byte × List Byte)) :=
  (setUrl addr).bind fun u =>
    if u.valid = false then some none
    else if u.protocol = [] then some (some (true, [], addr))
    else if u.protocol ≠ lit "dabc" then some none
    else
      let server := u.hostWithPort 0
      let node : Option Int :=
        if server.take 4 = lit "node" then
          match strToInt 32 (server.drop 4) with
          | .val n => some n
          | .fail => some (-1)
          | .undef => none
        else some (-1)
      node.bind fun n =>
        let server := if n ≥ 0 then m.nodeAddr n else server
        let isLocal : Bool := (n ≥ 0 ∧ m.nodeId = n) ∨ server = m.localAddr ∨ server = lit "localhost"
        some (some (isLocal, if isLocal then m.localAddr else server, u.file))

end Verif.Url
