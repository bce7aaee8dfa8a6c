/-!
# Model of the text input of MBS

`mbs::TextInput`, plugins/mbs/src/TextInput.cxx:24-233, with the loop of the input transport around it (`Read_Size`, then `Read_Complete`
into a buffer of fixed size, base/src/DataTransport.cxx:338-540) and with the parts of `std::ifstream`, `std::istringstream` and
`mbs::WriteIterator` (plugins/mbs/src/Iterator.cxx:219-345, 378-447) which it uses.  Left out: the format `float`, files with bytes 0,
read errors of the disk, the option `loop`, buffers with several segments.
-/

namespace Verif.TextInput

/-- Number of values of `uint32_t`. -/
def W : Nat := 4294967296

/-! ## Streams -/

/-- State of `std::ifstream`: what is left to read, `eofbit`, `failbit`. -/
structure Stream where
  rest : List Char
  eof : Bool
  fail : Bool
  deriving DecidableEq, Repr

/-- `good()`. -/
def Stream.good (s : Stream) : Bool := !s.eof && !s.fail

def notNl (c : Char) : Bool := c != '\n'

/-- `getline(buf, n)`: text in the buffer and the stream afterwards. -/
def getline (n : Nat) (s : Stream) : List Char × Stream :=
  if s.good = false then ([], { s with fail := true })
  else
    if n ≤ (s.rest.takeWhile notNl).length then (s.rest.take (n - 1), { s with rest := s.rest.drop (n - 1), fail := true })
    else match s.rest.dropWhile notNl with
      | [] => (s.rest.takeWhile notNl, ⟨[], true, s.rest.isEmpty⟩)
      | _ :: t => (s.rest.takeWhile notNl, { s with rest := t })

/-! ## Numbers -/

def isSpace (c : Char) : Bool := c == ' ' || c == '\t' || c == '\n' || c == '\r' || c == '\x0b' || c == '\x0c'

/-- Value of digits. -/
def value (ds : List Char) : Nat := ds.foldl (fun a c => a * 10 + (c.toNat - 48)) 0

/-- The value as 32 bits, or nothing when it is out of range (`failbit`). -/
def toWord (signed neg : Bool) (v : Nat) : Option Nat :=
  if signed then
    if neg then (if v ≤ W / 2 then some ((W - v) % W) else none) else if v < W / 2 then some v else none
  else if v < W then some (if neg then (W - v) % W else v) else none

/-- `src >> x` for `int32_t` and `uint32_t`: the 32 bits and the rest of the text. -/
def getNum (signed : Bool) (l : List Char) : Option (Nat × List Char) :=
  let l := l.dropWhile isSpace
  let neg := l.head? == some '-'
  let l := if neg || l.head? == some '+' then l.drop 1 else l
  let ds := l.takeWhile Char.isDigit
  if ds.isEmpty then none
  else (toWord signed neg (value ds)).map fun w => (w, l.dropWhile Char.isDigit)

/-- `FillRawData`, plugins/mbs/src/TextInput.cxx:178-233, for the formats 1 and 2. -/
def fill (signed : Bool) : Nat → List Char → Option (List Nat)
  | 0, _ => some []
  | n + 1, l => match getNum signed l with
    | none => none
    | some (w, l) => (fill signed n l).map fun ws => w :: ws

/-! ## Input -/

/-- Options of the input, plugins/mbs/src/TextInput.cxx:36-39, and the size of the buffers. -/
structure Cfg where
  signed : Bool
  num : Nat
  header : Nat
  buflen : Nat
  size : Nat

/-- `RawDataSize`, plugins/mbs/src/TextInput.cxx:171-176. -/
def Cfg.raw (c : Cfg) : Nat := 4 * c.num

/-- Size of one event with its subevent. -/
def Cfg.evsize (c : Cfg) : Nat := 28 + c.raw

/-- Event in a buffer: number and raw data of its subevent, if it has one. -/
structure Ev where
  num : Nat
  sub : Option (List Nat)
  deriving DecidableEq, Repr

/-- Where the input is: before `Read_Size`, before `NewEvent`, in the loop for the next line (`null`: `sbuf` is a null pointer), at the
end: `di_EndOfStream`, `di_Error`, `strlen` of a null pointer. -/
inductive Pc
  | size
  | event
  | line (null : Bool)
  | ended
  | error
  | crash
  deriving DecidableEq, Repr

structure St where
  files : List (Option (List Char))
  str : Stream
  cnt : Nat
  cur : List Ev
  out : List (List Ev)
  pc : Pc
  deriving DecidableEq, Repr

/-- Header lines, plugins/mbs/src/TextInput.cxx:81-82. -/
def skip (buflen : Nat) : Nat → Stream → Stream
  | 0, s => s
  | n + 1, s => skip buflen n (getline buflen s).2

/-- Content of a file after `open`; without file `failbit` is set. -/
def opened (f : Option (List Char)) : Stream :=
  match f with
  | none => ⟨[], false, true⟩
  | some c => ⟨c, false, false⟩

/-- `OpenNextFile`, plugins/mbs/src/TextInput.cxx:73-91, then `pc`; when there is no file the input ends. -/
def next (c : Cfg) (s : St) (pc : Pc) : St :=
  match s.files with
  | [] => { s with pc := .ended }
  | f :: fs =>
    let str := skip c.buflen c.header (opened f)
    if str.good then { s with files := fs, str := str, pc := pc } else { s with files := fs, str := str, pc := .ended }

/-- `Read_Init`, plugins/mbs/src/TextInput.cxx:49-71. -/
def init (c : Cfg) (files : List (Option (List Char))) : St := next c ⟨files, ⟨[], false, false⟩, 0, [], [], .size⟩ .size

def isBlank (c : Char) : Bool := c == ' ' || c == '\t'

/-- Free place behind the events of the current buffer. -/
def room (c : Cfg) (s : St) : Nat := c.size - c.evsize * s.cur.length

/-- One step: `Read_Size` (100-108), begin of an event (115-120, 166-168), one cycle of the loop over lines (124-148) with the rest of the
loop over events (150-163). -/
def step (c : Cfg) (s : St) : St :=
  match s.pc with
  | .size => if s.str.good then { s with cur := [], pc := .event } else next c { s with cur := [] } .event
  | .event =>
    if room c s < 16 then { s with out := s.out ++ [s.cur], cur := [], pc := .size }
    else if room c s < c.evsize then
      -- `Close` finishes the event which has no subevent
      { s with out := s.out ++ [if room c s = 16 then s.cur else s.cur ++ [⟨s.cnt, none⟩]], cur := [], pc := .size }
    else { s with pc := .line true }
  | .line null =>
    if s.str.eof then next c s (.line null)
    else
      let r := getline c.buflen s.str
      if r.1 = [] ∧ r.2.eof then (if null then { s with str := r.2, pc := .crash } else { s with str := r.2 })
      else if r.1.all isBlank then { s with str := r.2, pc := .line false }
      else match fill c.signed c.num r.1 with
        | none => { s with str := r.2, pc := .error }
        | some ws =>
          if c.raw = 0 then { s with str := r.2, pc := .error }
          else
            let s' : St := { s with str := r.2, cur := s.cur ++ [⟨s.cnt, some ws⟩], cnt := (s.cnt + 1) % W, pc := .event }
            if r.2.eof then next c s' .event else s'
  | .ended => s
  | .error => s
  | .crash => s

/-- `n` steps. -/
def steps (c : Cfg) : Nat → St → St
  | 0, s => s
  | n + 1, s => steps c n (step c s)

/-- The state after `n` steps for a list of files. -/
def run (c : Cfg) (files : List (Option (List Char))) (n : Nat) : St := steps c n (init c files)

/-- What was delivered: all events of the buffers in `out`. -/
def St.delivered (s : St) : List Ev := s.out.flatten

end Verif.TextInput
