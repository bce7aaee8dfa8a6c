/-!
# The XML engine

`base/src/XmlEngine.cxx`: saving of documents (lines 1057-1078, 1167-1182, 1332-1452) and parsing
(lines 233-392, 1099-1133, 1187-1205, 1296-1330, 1453-1631).

Bytes are numbers; a `char` is signed, so bytes from 128 on are negative.  The buffers of the streams are not
modelled: the input is the list of the bytes which are left.  Name spaces are not modelled: a document which
declares one (an attribute `xmlns:…`) gives the result `ns`.

At the very end of the input the code looks at the byte behind the input in two places (lines 1511 and 1558);
whatever it finds, the next `ShiftCurrent` or `SkipSpaces` fails and so does the parsing.
-/

namespace Verif.Xml

abbrev Str := List Nat

/-- `SXmlNode_t`, lines 40-51: a node with its first child and its next node.  `text` is the node with an empty
name which holds the content; `elem true` is a node of type `kXML_PI_NODE`. -/
inductive Forest where
  | nil
  | text (t : Str) (next : Forest)
  | comment (t : Str) (next : Forest)
  | elem (pi : Bool) (name : Str) (attrs : List (Str × Str)) (kids next : Forest)
deriving DecidableEq, Repr

/-! ## Saving -/

/-- One character of `OutputValue`, lines 1332-1356. -/
def esc (c : Nat) : Str :=
  if c = 60 then [38, 108, 116, 59]
  else if c = 62 then [38, 103, 116, 59]
  else if c = 38 then [38, 97, 109, 112, 59]
  else if c = 39 then [38, 97, 112, 111, 115, 59]
  else if c = 34 then [38, 113, 117, 111, 116, 59]
  else [c]

/-- `OutputValue`. -/
def outputValue (v : Str) : Str := v.flatMap esc

/-- Lines 1401-1411. -/
def saveAttrs (as : List (Str × Str)) : Str :=
  as.flatMap fun a => [32] ++ a.1 ++ [61, 34] ++ outputValue a.2 ++ [34]

/-- A node with an empty name is taken for content, whatever it is (lines 878-888, 891-899, 1367-1370); the content
is read behind the name, where the memory of a comment or an element ends: `g` is what is found there. -/
def norm (g : Str) : Forest → Forest
  | .nil => .nil
  | .text t n => .text t (norm g n)
  | .comment t n => if t = [] then .text g (norm g n) else .comment t (norm g n)
  | .elem pi name as k n => if name = [] then .text g (norm g n) else .elem pi name as (norm g k) (norm g n)

/-- `Put(' ', level)` and `Put('\n')` with `layout > 0`. -/
def put (layout : Bool) (c n : Nat) : Str := if layout then List.replicate n c else []

/-- `SaveNode`, lines 1359-1452, for a list of nodes. -/
def saveNodes (layout : Bool) : Nat → Forest → Str
  | _, .nil => []
  | lv, .text t n => t ++ saveNodes layout lv n
  | lv, .comment t n =>
    put layout 32 lv ++ [60, 33, 45, 45] ++ t ++ [45, 45, 62] ++ put layout 10 1 ++ saveNodes layout lv n
  | lv, .elem pi name as k n =>
    put layout 32 lv ++ [60] ++ (if pi then [63] else []) ++ name ++ saveAttrs as ++
    (match k with
     | .nil => if pi then [63, 62] else [47, 62]
     | .text t .nil => [62] ++ t ++ [60, 47] ++ name ++ [62]
     | .text t k' =>
       [62] ++ t ++ put layout 10 1 ++ saveNodes layout (lv + 2) k' ++ put layout 32 lv ++ [60, 47] ++ name ++ [62]
     | k =>
       [62] ++ put layout 10 1 ++ saveNodes layout (lv + 2) k ++ put layout 32 lv ++ [60, 47] ++ name ++ [62]) ++
    put layout 10 1 ++ saveNodes layout lv n

/-- `SaveDoc`, lines 1057-1078. -/
def save (layout : Bool) (g : Str) (f : Forest) : Str := saveNodes layout 0 (norm g f)

/-! ## Parts of the parser -/

/-- Which special character begins behind a `&`, and how many characters it has there. -/
def entity (r : Str) : Option (Nat × Nat) :=
  if [108, 116, 59].isPrefixOf r then some (60, 3)
  else if [103, 116, 59].isPrefixOf r then some (62, 3)
  else if [97, 109, 112, 59].isPrefixOf r then some (38, 4)
  else if [113, 117, 111, 116, 59].isPrefixOf r then some (34, 5)
  else if [97, 112, 111, 115, 59].isPrefixOf r then some (39, 5)
  else none

/-- `UnpackSpecialCharacters`, lines 1296-1330; the number tells how many characters belong to the last special
one. -/
def unpackFrom : Nat → Str → Str
  | _, [] => []
  | k + 1, _ :: r => unpackFrom k r
  | 0, c :: r =>
    if c = 38 then
      match entity r with
      | some (ch, len) => ch :: unpackFrom len r
      | none => c :: unpackFrom 0 r
    else c :: unpackFrom 0 r

def unpack (s : Str) : Str := unpackFrom 0 s

/-- What `SkipSpaces` skips, line 292; `char` is signed. -/
def blank (c : Nat) : Bool := !(decide (26 < c) && decide (c < 128) && decide (c ≠ 32))

/-- `SkipSpaces()`, lines 288-299; it returns false if nothing is left. -/
def skip (s : Str) : Str := s.dropWhile blank

/-- `SkipSpaces(true)`. -/
def skipLine : Str → Str
  | [] => []
  | c :: r => if blank c then if c = 10 then r else skipLine r else c :: r

def identFirst (c : Nat) : Bool :=
  (decide (97 ≤ c) && decide (c ≤ 122)) || (decide (65 ≤ c) && decide (c ≤ 90)) || decide (c = 95)

def identNext (c : Nat) : Bool :=
  identFirst c || (decide (48 ≤ c) && decide (c ≤ 57)) || decide (c = 58) || decide (c = 45) || decide (c = 46)

/-- `LocateIdentifier`, lines 336-358: the identifier and what follows it; an identifier at the end of the input is
none. -/
def ident : Str → Option (Str × Str)
  | [] => none
  | c :: r =>
    if identFirst c then
      match r.dropWhile identNext with
      | [] => none
      | d :: r' => some (c :: r.takeWhile identNext, d :: r')
    else none

/-- `SearchFor("-->")`, lines 313-334, and the shift behind it. -/
def search : Str → Option (Str × Str)
  | [] => none
  | c :: r =>
    if [45, 45, 62].isPrefixOf (c :: r) then some ([], r.drop 2)
    else (search r).map fun p => (c :: p.1, p.2)

/-- `LocateContent`, lines 360-371. -/
def content (s : Str) : Option (Str × Str) :=
  match s.dropWhile (· != 60) with
  | [] => none
  | d :: r => some (s.takeWhile (· != 60), d :: r)

/-- `LocateAttributeValue`, lines 373-391, and the shift behind it. -/
def attrValue : Str → Option (Str × Str)
  | 61 :: 34 :: r =>
    match r.dropWhile (· != 34) with
    | [] => none
    | _ :: r' => some (r.takeWhile (· != 34), r')
  | _ => none

/-- The check for a name space, line 1611. -/
def isNs (n : Str) : Bool := decide (6 < n.length) && [120, 109, 108, 110, 115, 58].isPrefixOf n

/-! ## `ReadNode`, lines 1453-1631 -/

/-- A node without childs. -/
inductive Item where
  | text (t : Str)
  | comment (t : Str)
  | short (pi : Bool) (name : Str) (attrs : List (Str × Str))
deriving DecidableEq, Repr

def Item.link : Item → Forest → Forest
  | .text t, n => .text t n
  | .comment t, n => .comment t n
  | .short pi name as, n => .elem pi name as .nil n

/-- How far `ReadNode` comes without calling itself: an error with its number; a declaration of a name space; the end
of the parent; a node without childs; a node whose childs follow.  `fuel` is never reached. -/
inductive Head where
  | err (code : Int)
  | ns
  | fuel
  | close (rest : Str)
  | leaf (i : Item) (rest : Str)
  | opened (name : Str) (attrs : List (Str × Str)) (rest : Str)
deriving DecidableEq, Repr

/-- `endsymbol`, lines 1542 and 1549. -/
def endSymbol (pi : Bool) : Nat := if pi then 63 else 47

/-- The loop over attributes, lines 1560-1628. -/
def readAttrs (pi : Bool) (name : Str) : Nat → Str → List (Str × Str) → Head
  | 0, _, _ => .fuel
  | n + 1, s, acc =>
    match skip s with
    | [] => .err 0
    | c :: r =>
      if c = endSymbol pi then
        match r with
        | 62 :: r' => .leaf (.short pi name acc) (skipLine r')
        | _ => .err 0
      else if c = 62 then
        if pi then .err (-11) else .opened name acc r
      else
        match ident (c :: r) with
        | none => .err (-6)
        | some (nm, r1) =>
          match attrValue r1 with
          | none => .err (-7)
          | some (v, r2) => if isNs nm then .ns else readAttrs pi name n r2 (acc ++ [(nm, unpack v)])

/-- The closing of the parent, lines 1511-1538. -/
def readClose (parent : Option Str) (s : Str) : Head :=
  if skip s = [] then .err 0
  else
    match ident (skip s) with
    | none => .err (-3)
    | some (w, r) =>
      match parent with
      | none => .err (-4)
      | some p =>
        if w.isPrefixOf p then
          match skip r with
          | 62 :: r' => .close (skipLine r')
          | _ => .err 0
        else .err (-5)

/-- The start of a node behind `<`, lines 1540-1558. -/
def readStart (pi : Bool) (s : Str) : Head :=
  match ident (skip s) with
  | none => .err 0
  | some (w, r) => readAttrs pi w (r.length + 1) r []

/-- `ReadNode` up to the loop over childs; `parent` is the name of the parent, if there is one, `hasChild` tells if it
has a child. -/
def head (parent : Option Str) (hasChild : Bool) (s : Str) : Head :=
  match skip s with
  | [] => .err (-1)
  | c :: r =>
    if [60, 33, 45, 45].isPrefixOf (c :: r) then
      match search (r.drop 3) with
      | none => .err (-10)
      | some (t, r') => .leaf (.comment t) (skip r')
    else if c ≠ 60 then
      if parent = none || hasChild then .err (-2)
      else
        match content (c :: r) with
        | none => .err 0
        | some (t, r') => .leaf (.text (unpack t)) r'
    else
      match r with
      | [] => .err 0
      | c1 :: r1 =>
        if c1 = 47 then readClose parent r1
        else if c1 = 63 then readStart true r1
        else readStart false (c1 :: r1)

/-- Result of the parsing: nodes, and what is left. -/
inductive Res where
  | ok (f : Forest) (rest : Str)
  | err (code : Int)
  | ns
  | fuel
deriving DecidableEq, Repr

/-- A node before the other ones. -/
def Res.map (g : Forest → Forest) : Res → Res
  | .ok f r => .ok (g f) r
  | .err c => .err c
  | .ns => .ns
  | .fuel => .fuel

/-- The loop over childs, lines 1581-1588, with the calls of `ReadNode` for each of them. -/
def readKids : Nat → Str → Bool → Str → Res
  | 0, _, _, _ => .fuel
  | n + 1, parent, hasChild, s =>
    match head (some parent) hasChild s with
    | .err c => .err c
    | .ns => .ns
    | .fuel => .fuel
    | .close r => .ok .nil r
    | .leaf i r => (readKids n parent true r).map i.link
    | .opened name as r =>
      match readKids n name false r with
      | .ok k r' => (readKids n parent true r').map (.elem false name as k)
      | .err c => .err c
      | .ns => .ns
      | .fuel => .fuel

/-- Name of the top node, line 998. -/
def dummy : Str := [63, 63, 68, 117, 109, 109, 121, 84, 111, 112, 78, 111, 100, 101, 63, 63]

/-- The loop of `ParseStream`, lines 1111-1124. -/
def readTop : Nat → Bool → Str → Res
  | 0, _, _ => .fuel
  | n + 1, hasChild, s =>
    match head (some dummy) hasChild s with
    | .err c => .err c
    | .ns => .ns
    | .fuel => .fuel
    | .close _ => .err 1
    | .leaf i r => if skip r = [] then .ok (i.link .nil) [] else (readTop n true (skip r)).map i.link
    | .opened name as r =>
      match readKids n name false r with
      | .ok k r' =>
        if skip r' = [] then .ok (.elem false name as k .nil) []
        else (readTop n true (skip r')).map (.elem false name as k)
      | .err c => .err c
      | .ns => .ns
      | .fuel => .fuel

/-- `ParseString`, lines 1088-1096, and `ParseFile`. -/
def parse (s : Str) : Res := readTop (s.length + 1) false s

/-! ## `DocGetRootElement`, lines 1045-1058 -/

/-- `ShiftToNext`, lines 926-936, from the node in front of the list. -/
def nextElem : Forest → Option Forest
  | .nil => none
  | .text _ n => nextElem n
  | .comment _ n => nextElem n
  | .elem pi name as k n => if pi then nextElem n else some (.elem pi name as k n)

/-- `GetChild` skips a content node; then `ShiftToNext` leaves the first node. -/
def root : Forest → Option Forest
  | .nil => none
  | .text _ .nil => none
  | .text _ (.text _ n) => nextElem n
  | .text _ (.comment _ n) => nextElem n
  | .text _ (.elem _ _ _ _ n) => nextElem n
  | .comment _ n => nextElem n
  | .elem _ _ _ _ n => nextElem n

end Verif.Xml
