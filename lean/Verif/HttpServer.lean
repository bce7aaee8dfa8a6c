import Verif.PublTree

/-!
# Model of the requests handled by the web server, plugins/http/src/Server.cxx:156-443

`VerifyFilePath`, `IsFileRequested`, `ExtractPathAndFile`, `IsAuthRequired` and the decisions of `Process`, and the order in which
`Civetweb::begin_request_handler` (plugins/http/src/Civetweb.cxx:114-178) and `FastCgi` (plugins/http/src/FastCgi.cxx:211-222) use them.
Not modelled: content, headers and compression of the answers.
-/

namespace Verif.HttpServer
open Verif.Bytes Verif.Json Verif.Text Verif.Url Verif.FileName Verif.PublTree

def bslash : Byte := 92

/-- Characters of `strpbrk(fname, "/\\")`. -/
def isSep (c : Byte) : Bool := c = slash || c = bslash

/-- Loop of `VerifyFilePath`, plugins/http/src/Server.cxx:175-201, with a bound for the number of rounds. -/
def verifyLoop : Nat → Str → Int → Bool
  | 0, _, _ => false
  | n + 1, s, level =>
    if s = [] then true
    else
      let tok := s.takeWhile fun c => !isSep c
      match s.dropWhile fun c => !isSep c with
      | [] => true
      | _ :: r =>
        if tok = [dot, dot] then
          if level - 1 < 0 then false else verifyLoop n r (level - 1)
        else if tok = [dot] then verifyLoop n r level
        else if tok = [] then verifyLoop n r level
        else verifyLoop n r (level + 1)

/-- `VerifyFilePath(fname)`, plugins/http/src/Server.cxx:169-204. -/
def verify (s : Str) : Bool := s ≠ [] && verifyLoop (s.length + 1) s 0

/-- A location: `fFilePath`, `fAbsPrefix`, `fNamePrefix`, `fNamePrefixRepl`. -/
structure Loc where
  dir : Str
  abs : Str
  pfx : Str
  repl : Str

/-- `IsFileRequested(uri, res)`, plugins/http/src/Server.cxx:207-224; `none`: false. -/
def fileRequested : List Loc → Str → Option Str
  | [], _ => none
  | l :: ls, uri =>
    if uri = [] then none
    else
      match rfind l.abs uri with
      | some pos =>
        let fname := uri.drop (pos + l.abs.length - 1)
        if verify fname then some (l.dir ++ fname) else none
      | none => fileRequested ls uri

/-- `ExtractPathAndFile(uri, pathname, filename)`, plugins/http/src/Server.cxx:226-237. -/
def extract (uri : Str) : Str × Str :=
  match rfind [slash] uri with
  | none => ([], uri)
  | some pos => (if uri.take pos = [slash] then [] else uri.take pos, uri.drop (pos + 1))

/-- `fLocations`, `fJsRootSys`, `fDefaultAuth`. -/
structure Srv where
  locs : List Loc
  jsroot : Str
  defaultAuth : Int

/-- `IsAuthRequired(uri)`, plugins/http/src/Server.cxx:240-257. -/
def authRequired (s : Srv) (p : Publ) (uri : Str) : Bool :=
  if s.defaultAuth < 0 then false
  else if (fileRequested s.locs uri).isSome then s.defaultAuth > 0
  else
    let res := needAuth p (extract uri).1
    (if res < 0 then s.defaultAuth else res) > 0

/-- What the server does with a request: not found, a file, a command executed, a list of names (as XML or JSON), several items, one item
with the kind of data asked for. -/
inductive Act where
  | notFound
  | file (name : Str)
  | execute (path : Str)
  | names (path : Str) (xml : Bool)
  | multi (items : List Str)
  | binary (path kind : Str)
  deriving DecidableEq

/-- Locations selected by the beginning of the file name, plugins/http/src/Server.cxx:301-310.  `none`: no location. -/
def prefixed : List Loc → Str → Option Act
  | [], _ => none
  | l :: ls, fname =>
    if l.pfx ≠ [] ∧ find l.pfx fname = some 0 then
      if fname.length ≤ l.pfx.length ∨ fname[l.pfx.length]? = some dot then prefixed ls fname
      else
        let fname := fname.drop l.pfx.length
        if verify fname then some (.file (l.dir ++ l.repl ++ fname)) else some .notFound
    else prefixed ls fname

/-- `.gz` removed from the name, plugins/http/src/Server.cxx:331-334. -/
def unzipName (f : Str) : Str :=
  if f.length > 3 ∧ rfind (lit ".gz") f = some (f.length - 3) then f.take (f.length - 3) else f

/-- `Process(uri, query, …)`, plugins/http/src/Server.cxx:259-443: which data are delivered.  `items` are the names found in the query of a
request for several items. -/
def process (s : Srv) (p : Publ) (uri : Str) (items : List Str) : Act :=
  match uiKind p uri with
  | none => .notFound
  | some (true, path, fname) =>
    let content := path ++ (if fname = [] then lit "main.htm" else fname)
    .file ((fileRequested s.locs content).getD content)
  | some (false, path, fname) =>
    if fname = lit "draw.htm" then .file (s.jsroot ++ lit "/files/draw.htm")
    else if fname = [] ∨ fname = lit "main.htm" ∨ fname = lit "index.htm" then .file (s.jsroot ++ lit "/files/online.htm")
    else
      match prefixed s.locs fname with
      | some a => a
      | none =>
        if fname = lit "execute" then (if path = [] then .notFound else .execute path)
        else
          let fname := unzipName fname
          if fname = lit "h.xml" then .names path true
          else if fname = lit "h.json" then .names path false
          else if fname = lit "multiget.json" then .multi (items.map fun i => path ++ i)
          else .binary path fname

/-- First loop of `remove_double_dots_and_double_slashes`, plugins/http/civetweb/civetweb.c:7751-7753. -/
def cleanLead : Str → Str
  | c :: d :: r => if c = dot ∧ d = dot then cleanLead (d :: r) else c :: d :: r
  | s => s

/-- Second loop, plugins/http/civetweb/civetweb.c:7755-7769; the flag is set behind a separator. -/
def cleanLoop : Bool → Str → Str
  | _, [] => []
  | b, [c] => if b && isSep c then [] else [c]
  | b, c :: d :: r =>
    if b && isSep c then cleanLoop true (d :: r)
    else if b && c = dot && d = dot then cleanLoop true r
    else c :: cleanLoop (isSep c) (d :: r)

/-- What the web server which is part of the program does with the address before its handlers see it,
plugins/http/civetweb/civetweb.c:13670. -/
def clean (uri : Str) : Str := cleanLoop false (cleanLead uri)

/-- A request as the handlers treat it: files first, plugins/http/src/Civetweb.cxx:124-148, plugins/http/src/FastCgi.cxx:215-236.  Whether
the client has shown who it is (`known`) is not looked at. -/
def handle (s : Srv) (p : Publ) (_known : Bool) (uri : Str) (items : List Str) : Act :=
  match fileRequested s.locs uri with
  | some f => .file f
  | none => process s p uri items

end Verif.HttpServer
