/-!
# Model of the logger, base/src/logging.cxx

`Logger::Debug` (base/dabc/logging.h:115-119), `DoOutput` (base/src/logging.cxx:291-369), `_FillString` (219-289), `GetFile` (86-98),
`_ExtendLines` (187-209), levels (166-182).  Times are whole microseconds instead of floating-point seconds.  A line of output is the
list of its fields; how numbers and dates are written is not modelled.  Levels, masks and outputs are inputs of each call, since they can be
changed at any time by other threads (`SetDebugLevel`, `LogFile`, `Syslog`, `_DoCheckTimeout`).  The whole call is under a mutex, except
for the system log, whose text is made under the mutex.
-/

namespace Verif.Logging

/-- `EShowInfo`, base/dabc/logging.h:51-64, one field for each bit. -/
structure Mask where
  pfx : Bool := false
  date : Bool := false
  time : Bool := false
  file : Bool := false
  func : Bool := false
  line : Bool := false
  level : Bool := false
  message : Bool := false
  noDrop : Bool := false
  noPrefix : Bool := false
  tstamp : Bool := false
  sys : Bool := false
  deriving DecidableEq

/-- `a | b`. -/
def Mask.or (a b : Mask) : Mask :=
  ⟨a.pfx || b.pfx, a.date || b.date, a.time || b.time, a.file || b.file, a.func || b.func, a.line || b.line, a.level || b.level,
    a.message || b.message, a.noDrop || b.noDrop, a.noPrefix || b.noPrefix, a.tstamp || b.tstamp, a.sys || b.sys⟩

/-- Settings of the logger. -/
structure Cfg where
  debugLevel : Int := 1
  fileLevel : Int := 1
  syslogLevel : Int := 0
  debugMask : Mask := { pfx := true, tstamp := true, message := true }
  errorMask : Mask := { pfx := true, tstamp := true, file := true, func := true, line := true, message := true }
  fileMask : Mask := { noPrefix := true, time := true }
  limit : Nat := 100
  hasFile : Bool := false
  hasSyslog : Bool := false
  pfx : String := ""

/-- `fLevel`, base/src/logging.cxx:166-176. -/
def Cfg.level (c : Cfg) : Int := if c.debugLevel < c.fileLevel then c.fileLevel else c.debugLevel

/-- A call of `Debug`, with the times which are read in it. -/
structure Msg where
  level : Int
  file : String
  line : Nat
  func : String
  text : String
  now : Int
  clock : Int
  deriving DecidableEq

/-- `LoggerEntry`, base/src/logging.cxx:41-68. -/
structure Entry where
  file : String
  func : String
  line : Nat
  level : Int
  counter : Nat := 0
  msgTime : Int := 0
  lastMsg : String := ""
  lastTm : Int := 0
  dropCnt : Nat := 0
  deriving DecidableEq

/-- `fMaxLine` and all entries of `fLines`. -/
structure St where
  maxLine : Nat
  ents : List Entry
  deriving DecidableEq

/-- Constructor, base/src/logging.cxx:128-129. -/
def St.init : St := ⟨1024, []⟩

/-- Parts of a line. -/
inductive Fld where
  | pfx (s : String)
  | level (l : Option Int)
  | sys (err : Bool)
  | date (t : Int)
  | time (t : Int)
  | tstamp
  | file (s : String)
  | func (s : String)
  | line (n : Nat)
  | msg (s : String)
  deriving DecidableEq

/-- A line: its parts and the number in `[Drop %u]`. -/
structure Text where
  flds : List Fld
  drop : Option Nat
  deriving DecidableEq

/-- The part adds no character. -/
def Fld.isEmpty : Fld → Bool
  | .pfx s => s == ""
  | .file s => s == ""
  | .func s => s == ""
  | .msg s => s == ""
  | _ => false

/-- `str.length() == 0`. -/
def Text.isEmpty (t : Text) : Bool := t.drop.isNone && t.flds.all Fld.isEmpty

def opt {α} (b : Bool) (x : α) : List α := if b then [x] else []

/-- `_FillString(str, mask, entry)`, base/src/logging.cxx:219-289. -/
def fill (pfx : String) (m : Mask) (e : Entry) : Text :=
  if m = {} then ⟨[], none⟩
  else
    ⟨opt (m.pfx && !m.noPrefix) (.pfx pfx) ++ opt m.level (.level (if e.level < 0 then none else some e.level)) ++
      opt m.sys (.sys (e.level < 0)) ++ opt m.date (.date e.msgTime) ++ opt m.time (.time e.msgTime) ++
      opt (m.tstamp && !m.sys) .tstamp ++ opt m.file (.file e.file) ++ opt m.func (.func e.func) ++ opt m.line (.line e.line) ++
      opt m.message (.msg e.lastMsg),
      if m.noDrop = false ∧ e.dropCnt > 0 then some e.dropCnt else none⟩

/-- Outputs: `stdout`, `stderr`, system log (as error or information), log file. -/
inductive Chan where
  | out | err | sysErr | sysInfo | file
  deriving DecidableEq

/-- `_ExtendLines(max)`, base/src/logging.cxx:187-209: the new `fMaxLine`. -/
def extend (cur max : Nat) : Nat := if max > 0 ∧ max < cur then cur else max

/-- Search by line and file name. -/
def Entry.isAt (e : Entry) (line : Nat) (file : String) : Bool := e.line = line && e.file = file

/-- `GetFile(filename, funcname, level)` for the line, base/src/logging.cxx:86-98, 304-312. -/
def getEntry (s : St) (m : Msg) : Entry :=
  match s.ents.find? fun e => e.isAt m.line m.file with
  | some e => e
  | none => { file := m.file, func := m.func, line := m.line, level := m.level }

/-- The entry is changed in place. -/
def putEntry (s : St) (e : Entry) : St :=
  { s with ents := e :: s.ents.filter fun x => !x.isAt e.line e.file }

/-- `now - fLastTm < 0.5`. -/
def half : Int := 500000

/-- `DoOutput`, base/src/logging.cxx:291-369, with the texts written in the order of the code.  `none`: access behind the end of
`fLines`. -/
def doOutput (c : Cfg) (s : St) (m : Msg) : Option (St × List (Chan × Text)) :=
  let s : St := if m.line ≥ s.maxLine then { s with maxLine := extend s.maxLine (((m.line / 1024 + 1) * 1024) % 2 ^ 32) } else s
  if m.line ≥ s.maxLine then none
  else
    let e := getEntry s m
    let e := { e with counter := (e.counter + 1) % 2 ^ 32 }
    let mask := if m.level ≥ 0 then c.debugMask else c.errorMask
    let fmask := if c.hasFile then mask.or c.fileMask else mask
    let drop := decide (e.counter > c.limit) && decide (m.now - e.lastTm < half)
    let e := if drop then { e with dropCnt := (e.dropCnt + 1) % 2 ^ 32 } else e
    if drop && !mask.noDrop && !fmask.noDrop then some (putEntry s e, [])
    else
      let e := { e with msgTime := m.clock, lastMsg := m.text }
      let con := if (!drop || mask.noDrop) && m.level ≤ c.debugLevel then
          let t := fill c.pfx mask e
          if t.isEmpty then [] else [(if m.level < 0 then Chan.err else Chan.out, t)]
        else []
      let sys := if c.hasSyslog && (!drop || mask.noDrop) && m.level ≤ c.syslogLevel then
          let t := fill c.pfx (mask.or { sys := true }) e
          if t.isEmpty then [] else [(if m.level < 0 then Chan.sysErr else Chan.sysInfo, t)]
        else []
      let fil := if c.hasFile && (!drop || fmask.noDrop) && m.level ≤ c.fileLevel then
          let t := fill c.pfx fmask e
          if t.isEmpty then [] else [(Chan.file, t)]
        else []
      let e := if !drop then { e with dropCnt := 0, lastTm := m.now } else e
      some (putEntry s e, con ++ fil ++ sys)

/-- `Debug(level, filename, linenumber, funcname, message)`, base/dabc/logging.h:115-119. -/
def debug (c : Cfg) (s : St) (m : Msg) : Option (St × List (Chan × Text)) :=
  if m.level ≤ c.level then doOutput c s m else some (s, [])

/-- One after the other: what was written for each call. -/
def run : St → List (Cfg × Msg) → Option (St × List (Msg × List (Chan × Text)))
  | s, [] => some (s, [])
  | s, (c, m) :: cs =>
    match debug c s m with
    | none => none
    | some (s, o) => (run s cs).map fun r => (r.1, (m, o) :: r.2)

end Verif.Logging
