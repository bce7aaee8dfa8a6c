import Verif.Text

/-!
# Affinity of threads

`dabc::PosixThread::SetDfltAffinity`, base/src/threads.cxx:183-269, `SetAffinity`, 286-355, `GetDfltAffinity`, 424-449,
`GetAffinity`, 451-503, without the question to the operating system.

A `cpu_set_t` is a function, `n` is `CPU_SETSIZE` (1024 in glibc).  A text is a list of bytes without zero (the end of the
list is the end of the string).  What the operating system answers is an input: `proc` is the set which
`sched_getaffinity` gives (`none`: it fails), `sys` tells whether `sched_setaffinity` succeeds.  A function returns true
(`ok`), false (`fail`), or its behaviour is not defined (`undef`, numbers out of range in `sscanf`).
-/

namespace Verif.Affinity
open Verif.Bytes Verif.Text

abbrev CpuSet := Nat → Bool

/-- `CPU_ZERO`. -/
def zero : CpuSet := fun _ => false

/-- `CPU_SET` and `CPU_CLR`. -/
def upd (s : CpuSet) (k : Nat) (v : Bool) : CpuSet := fun i => if i = k then v else s i

/-- `fDfltSet` and `fSpecialSet`. -/
structure Sets where
  dflt : CpuSet
  spec : CpuSet

inductive Ret where
  | ok | fail | undef
  deriving DecidableEq, Repr

/-- Number of members below `k`: the loop base/src/threads.cxx:206-208. -/
def numSet (s : CpuSet) : Nat → Nat
  | 0 => 0
  | k + 1 => if s k then numSet s k + 1 else numSet s k

/-- The loop base/src/threads.cxx:215-222 for processors below `k`. -/
def splitLoop (lim : Nat) (s : CpuSet) : Nat → Nat × Sets
  | 0 => (0, ⟨s, zero⟩)
  | k + 1 =>
    let r := splitLoop lim s k
    if r.2.dflt k then
      if r.1 + 1 > lim then (r.1 + 1, ⟨upd r.2.dflt k false, upd r.2.spec k true⟩) else (r.1 + 1, r.2)
    else r

/-- The loop base/src/threads.cxx:233-241; result: sets, `isany`, whether all letters are known. -/
def lettersD (n : Nat) : List Byte → Nat → Sets → Bool → Sets × Bool × Bool
  | [], _, s, any => (s, any, true)
  | c :: cs, cpu, s, any =>
    if n ≤ cpu then (s, any, true)
    else if c = 120 then lettersD n cs (cpu + 1) { s with dflt := upd s.dflt cpu true } true
    else if c = 111 then lettersD n cs (cpu + 1) { s with dflt := upd s.dflt cpu false } any
    else if c = 115 then lettersD n cs (cpu + 1) { s with spec := upd s.spec cpu true } any
    else (s, any, false)

/-- The loop base/src/threads.cxx:325-332. -/
def letters (n : Nat) : List Byte → Nat → CpuSet → Bool → CpuSet × Bool × Bool
  | [], _, s, any => (s, any, true)
  | c :: cs, cpu, s, any =>
    if n ≤ cpu then (s, any, true)
    else if c = 120 then letters n cs (cpu + 1) (upd s cpu true) true
    else if c = 111 then letters n cs (cpu + 1) (upd s cpu false) any
    else (s, any, false)

/-- The loop base/src/threads.cxx:350-352 with `sizeof(mask)*8 = 32`. -/
def maskSet (n : Nat) (mask : Nat) : CpuSet := fun cpu => decide (cpu < 32 ∧ cpu < n) && mask.testBit cpu

/-- `-N`: the last N processors become special, base/src/threads.cxx:190-226. -/
def dfltMinus (n : Nat) (proc : Option CpuSet) (sys : Bool) (num : Scan) : Sets × Ret :=
  match num with
  | .undef => (⟨zero, zero⟩, .undef)
  | .fail => (⟨zero, zero⟩, .fail)
  | .val v =>
    if v = 0 then (⟨zero, zero⟩, .fail)
    else
      match proc with
      | none => (⟨zero, zero⟩, .fail)
      | some d =>
        if numSet d n ≤ v.toNat then (⟨d, zero⟩, .fail)
        else ((splitLoop (numSet d n - v.toNat) d n).2, if sys then .ok else .fail)

/-- A number is a mask, base/src/threads.cxx:250-268. -/
def dfltMask (n : Nat) (sys : Bool) (num : Scan) : Sets × Ret :=
  match num with
  | .undef => (⟨zero, zero⟩, .undef)
  | .fail => (⟨zero, zero⟩, .fail)
  | .val v =>
    if v = 0 then (⟨zero, zero⟩, .ok) else (⟨maskSet n v.toNat, zero⟩, if sys then .ok else .fail)

/-- `SetDfltAffinity`. -/
def setDflt (n : Nat) (proc : Option CpuSet) (sys : Bool) (aff : List Byte) : Sets × Ret :=
  match aff with
  | [] => (⟨zero, zero⟩, .ok)
  | c :: cs =>
    if c = 45 ∧ cs ≠ [] then dfltMinus n proc sys (strToUint 32 cs)
    else if c = 111 ∨ c = 120 ∨ c = 115 then
      let r := lettersD n (c :: cs) 0 ⟨zero, zero⟩ false
      (r.1, if r.2.2 = false then .fail else if r.2.1 = false ∨ sys then .ok else .fail)
    else dfltMask n sys (strToUint 32 (c :: cs))

/-- The loop base/src/threads.cxx:304-308 for processors below `k`: the set and `numspecial`. -/
def pickLoop (spec : CpuSet) (id : Nat) : Nat → CpuSet × Nat
  | 0 => (zero, 0)
  | k + 1 =>
    let r := pickLoop spec id k
    if spec k then (if id = r.2 then upd r.1 k true else r.1, r.2 + 1) else r

/-- `+K`: the special processor number K, base/src/threads.cxx:297-316. -/
def setPlus (n : Nat) (spec : CpuSet) (num : Scan) : CpuSet × Ret :=
  match num with
  | .undef => (zero, .undef)
  | .fail => (zero, .fail)
  | .val v =>
    let r := pickLoop spec v.toNat n
    (r.1, if r.2 ≤ v.toNat then .fail else .ok)

/-- base/src/threads.cxx:339-354. -/
def setMask (n : Nat) (num : Scan) : CpuSet × Ret :=
  match num with
  | .undef => (zero, .undef)
  | .fail => (zero, .fail)
  | .val v => if v = 0 then (zero, .fail) else (maskSet n v.toNat, .ok)

/-- `SetAffinity`: the new `fCpuSet` and the result. -/
def set (n : Nat) (s : Sets) (aff : List Byte) : CpuSet × Ret :=
  match aff with
  | [] => (fun i => decide (i < n) && s.dflt i, .ok)
  | c :: cs =>
    if c = 43 ∧ cs ≠ [] then setPlus n s.spec (strToUint 32 cs)
    else if c = 111 ∨ c = 120 then
      let r := letters n (c :: cs) 0 zero false
      (r.1, if r.2.2 = false then .fail else if r.2.1 = false then .fail else .ok)
    else setMask n (strToUint 32 (c :: cs))

/-- `buf[i] = v`; `none`: outside of the buffer. -/
def wr (buf : List Byte) (i : Nat) (v : Byte) : Option (List Byte) :=
  if i < buf.length then some (buf.set i v) else none

/-- The loop base/src/threads.cxx:430-437, 486-491 for processors below `k`: the buffer and `last`. -/
def fill (symb : Nat → Byte) (maxbuf : Nat) : Nat → List Byte → Option (List Byte × Nat)
  | 0, buf => some (buf, 0)
  | k + 1, buf =>
    (fill symb maxbuf k buf).bind fun r =>
      (if k < maxbuf then wr r.1 k (symb k) else some r.1).bind fun b =>
        some (b, if symb k ≠ 111 then k else r.2)

/-- The end of the text, base/src/threads.cxx:439-448, 493-502. -/
def term (maxbuf : Nat) (r : List Byte × Nat) : Option (List Byte × Bool) :=
  if r.2 + 1 < maxbuf then
    let wrap := (r.2 / 8 + 1) * 8
    (wr r.1 (if wrap < maxbuf then wrap else r.2 + 1) 0).map fun b => (b, true)
  else (wr r.1 (maxbuf - 1) 0).map fun b => (b, false)

/-- Both functions, with the letter of a processor. -/
def get (n : Nat) (symb : Nat → Byte) (maxbuf : Nat) (buf : List Byte) : Option (List Byte × Bool) :=
  if maxbuf = 0 then some (buf, false) else (fill symb maxbuf n buf).bind (term maxbuf)

def symbD (s : Sets) (i : Nat) : Byte := if s.dflt i then 120 else if s.spec i then 115 else 111

def symb (s : CpuSet) (i : Nat) : Byte := if s i then 120 else 111

/-- `GetDfltAffinity`. -/
def getDflt (n : Nat) (s : Sets) : Nat → List Byte → Option (List Byte × Bool) := get n (symbD s)

/-- `GetAffinity(false, …)`. -/
def getSet (n : Nat) (s : CpuSet) : Nat → List Byte → Option (List Byte × Bool) := get n (symb s)

end Verif.Affinity
