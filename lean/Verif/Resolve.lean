/-!
# Variables in configuration values

Model of `dabc::ConfigBase::ResolveEnv` (base/src/ConfigBase.cxx:440-526) with `FindChild` (183-192),
`GetNodeValue` (284-290), `AddCmdVariable` (151-157) and `GetEnv` (528-532).

A text is a list of characters.  `fCmdVariables` and the `Variables` node are lists of names with the texts of
their values (attribute `value` or content); `getenv` is a function.  A call which does not return - the `while`
loop of `ResolveEnv` does not end, or `ResolveEnv` and `GetNodeValue` call each other for ever - is `none` for
every amount of fuel.
-/

namespace Verif.Resolve

abbrev Text := List Char

/-- Sources of the values: `cmd` - variables of the command line (`fCmdVariables`), `vars` - childs of the
`Variables` node, `own` - the members `envDABCSYS` ... `envContext` with their names, `sys` - `getenv`
(no such variable is an empty text, lines 528-532). -/
structure Env where
  cmd : List (Text × Text)
  vars : List (Text × Text)
  own : List (Text × Text)
  sys : Text → Text

/-- `AddCmdVariable` (151-157): a new child is the last one. -/
def addCmd (e : Env) (name value : Text) : Env := { e with cmd := e.cmd ++ [(name, value)] }

/-- `FindChild` (183-192): the first child with the name. -/
def findChild : List (Text × Text) → Text → Option Text
  | [], _ => none
  | (n, t) :: r, v => if n = v then some t else findChild r v

/-- Text of the node found for a variable, lines 463-465. -/
def raw (e : Env) (v : Text) : Option Text :=
  match findChild e.cmd v with
  | some t => some t
  | none => findChild e.vars v

/-- Lines 467-476: a value which is empty is taken from the members, then from the environment of the process. -/
def orElse (e : Env) (v : Text) (value : Text) : Text :=
  if value = [] then
    let o := (findChild e.own v).getD []
    if o = [] then e.sys v else o
  else value

/-- Lines 450-460: place of the next variable. -/
inductive Next where
  /-- no `${` any more -/
  | none
  /-- `${` without `}` -/
  | bad
  /-- text before, name of the variable, text behind -/
  | var (pre v rest : Text)
  deriving DecidableEq, Repr

/-- Text up to the next `}` and the text behind. -/
def close : Text → Option (Text × Text)
  | [] => none
  | c :: r =>
    if c = '}' then some ([], r)
    else match close r with
      | none => none
      | some (v, t) => some (c :: v, t)

/-- Lines 450-460. -/
def next : Text → Next
  | [] => .none
  | c :: r =>
    if c = '$' ∧ r.head? = some '{' then
      match close r.tail with
      | none => .bad
      | some (v, t) => .var [] v t
    else match next r with
      | .none => .none
      | .bad => .bad
      | .var p v t => .var (c :: p) v t

/-- First and last character are brackets, lines 481 and 492 (the value is not empty). -/
def isArray (value : Text) : Bool := value.head? == some '[' && value.getLast? == some ']'

/-- Lines 480-486: number of entries. -/
def count (value : Text) : Text :=
  if value = [] then ['0']
  else if !isArray value then ['1']
  else (Nat.toDigits 10 (1 + ((value.drop 1).dropLast.filter (· = ',')).length))

/-- Lines 495-510: loop over the characters behind the opening bracket; `cur` are the characters since `prev`,
the last character ends an entry like a comma does. -/
def pick : Nat → Text → Text → Text
  | _, _, [] => []
  | id, cur, c :: r =>
    if c = ',' ∨ r = [] then
      match id with
      | 0 => cur
      | id + 1 => pick id [] r
    else pick id (cur ++ [c]) r

/-- Lines 491-511: entry `id` of the value. -/
def elem (id : Nat) (value : Text) : Text :=
  if !isArray value then (if id = 0 then value else [])
  else pick id [] (value.drop 1)

/-- Lines 478-514: the value is put between the text before and the text behind the variable; `id` is negative
if no entry is wanted. -/
def put (id : Int) (pre value rest : Text) : Text :=
  if pre.getLast? = some '#' then pre.dropLast ++ count value ++ rest
  else if 0 ≤ id ∧ rest.head? = some '#' ∧ value ≠ [] then pre ++ elem id.toNat value ++ rest.tail
  else pre ++ value ++ rest

/-- `ResolveEnv(arg, id)` (440-526) from the text `name` on. -/
def loop (e : Env) : Nat → Int → Text → Text → Option Text
  | 0, _, _, _ => none
  | n + 1, id, arg, name =>
    match next name with
    | .none => some name
    | .bad => some arg
    | .var pre v rest =>
      if v = [] then loop e n id arg (pre ++ rest)
      else
        match raw e v with
        | none => loop e n id arg (put id pre (orElse e v []) rest)
        | some t =>
          match loop e n (-1) t t with
          | none => none
          | some value => loop e n id arg (put id pre (orElse e v value) rest)

/-- `ResolveEnv(arg, id)`; an empty text needs no special case (line 442). -/
def resolve (e : Env) (n : Nat) (id : Int) (arg : Text) : Option Text := loop e n id arg arg

end Verif.Resolve
