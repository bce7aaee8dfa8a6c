import Verif.Logging

/-!
# What a log should tell
-/

namespace Verif.Logging

/-- The message comes from this place of the program. -/
def Msg.isAt (m : Msg) (line : Nat) (file : String) : Bool := m.line = line && m.file = file

/-- The message in a line. -/
def Text.shows (t : Text) (s : String) : Prop := Fld.msg s ∈ t.flds

/-- A log of messages of one place, with at least half a second (in microseconds) between lines when more than `limit` messages came: every
message is shown, or is counted in the next line shown.  `n` is the number of messages not yet accounted for, `last` the time of the last
line. -/
inductive Log (limit : Nat) : List Msg → List Text → Nat → Int → Prop where
  | nil : Log limit [] [] 0 0
  | dropped {ms ts n last} (m : Msg) : Log limit ms ts n last → limit ≤ ms.length → m.now < last + 500000 →
      Log limit (ms ++ [m]) ts (n + 1) last
  | shown {ms ts n last} (m : Msg) (t : Text) : Log limit ms ts n last → ms.length < limit ∨ last + 500000 ≤ m.now → t.shows m.text →
      t.drop = (if n = 0 then none else some n) → Log limit (ms ++ [m]) (ts ++ [t]) 0 m.now

/-- Where messages can be seen. -/
inductive Out where
  | console | file | syslog
  deriving DecidableEq

def Out.has : Out → Chan → Bool
  | .console, .out => true
  | .console, .err => true
  | .file, .file => true
  | .syslog, .sysErr => true
  | .syslog, .sysInfo => true
  | _, _ => false

/-- Lines of one output. -/
def linesOf (k : Out) (o : List (Chan × Text)) : List Text := (o.filter fun x => k.has x.1).map (·.2)

/-- The output takes messages of this level. -/
def Takes (c : Cfg) (level : Int) : Out → Prop
  | .console => level ≤ c.debugLevel
  | .file => c.hasFile = true ∧ level ≤ c.fileLevel
  | .syslog => c.hasSyslog = true ∧ level ≤ c.syslogLevel ∧ level ≤ c.level

/-- Messages of one place and what was written for them on one output. -/
def ofPlace (line : Nat) (file : String) (r : List (Msg × List (Chan × Text))) : List (Msg × List (Chan × Text)) :=
  r.filter fun x => x.1.isAt line file

/-- Settings under which frequent messages may be dropped and every line has the message and the time in it, as those of the constructor. -/
structure Plain (c : Cfg) : Prop where
  debug : c.debugMask.message = true ∧ c.debugMask.tstamp = true ∧ c.debugMask.noDrop = false
  error : c.errorMask.message = true ∧ c.errorMask.tstamp = true ∧ c.errorMask.noDrop = false
  file : c.fileMask.noDrop = false

end Verif.Logging
