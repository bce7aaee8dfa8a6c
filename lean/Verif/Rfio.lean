import Verif.Bytes
/-!
# Files of a data mover (RFIO)

Code: `plugins/rfio/src/FileInterface.cxx:11-206` (`rfio::FileInterface`).

Simplifications.
* The functions of the RFIO library are seen from outside: their calls are recorded in the order in
  which they are made, their results are inputs.
* Of the options only is kept whether one of the six RFIO options is there (`any`); without options
  the code goes the same way as with other options.
* A handle is a number, 0 is the null pointer.
* Not modelled: `fseek`, `fmatch`, messages, name and index of the data mover.
-/

namespace Verif.Rfio
open Verif.Bytes

abbrev Text := List Byte

/-- A call of the RFIO library. -/
inductive Ext
  /-- `rfio_fopen_gsidaq_dm(base)`, `ok`: there is a connection -/
  | connect (base : Text) (h : Nat)
  /-- `rfio_fopen`, result `h` -/
  | fopen (name : Text) (h : Nat)
  /-- `rfio_fnewfile`, result `rev` -/
  | newfile (remote : Nat) (name : Text) (rev : Int)
  /-- `rfio_fendfile` -/
  | endfile (h : Nat)
  | fclose (h : Nat)
  /-- `rfio_fwrite` of these bytes, of which the first `n` are taken -/
  | fwrite (h : Nat) (data : List Byte) (n : Nat)
  deriving DecidableEq

/-- `fRemote`, `fOpenedCounter` and the calls made so far. -/
structure St where
  remote : Nat
  opened : Int
  calls : List Ext

/-- Constructor, `FileInterface.cxx:11-18`. -/
def init : St := ⟨0, 0, []⟩

/-- Destructor, `FileInterface.cxx:20-27`. -/
def destroy (s : St) : St :=
  if s.remote ≠ 0 then { s with remote := 0, calls := s.calls ++ [.fclose s.remote] } else s

/-- `rfioBase`, `FileInterface.cxx:81-90`: up to the last colon. `none`: the copy has no
terminating zero. -/
def base (name : Text) : Option Text :=
  if 1023 ≤ name.length then none
  else if (58 : Byte) ∈ name then some ((name.reverse.dropWhile (· ≠ 58)).reverse)
  else some name

/-- Results of the library in `fopen`. -/
structure Res where
  connect : Nat
  fopen : Nat
  newfile : Int

/-- `rfio_fnewfile` and counting, `FileInterface.cxx:116-131`. -/
def newFile (s : St) (name : Text) (r : Res) : St × Nat :=
  if r.newfile ≠ 0 then ({ s with calls := s.calls ++ [.newfile s.remote name r.newfile] }, 0)
  else (⟨s.remote, s.opened + 1, s.calls ++ [.newfile s.remote name 0]⟩, s.remote)

/-- `fopen`, `FileInterface.cxx:30-132`; result and handle, `none`: undefined behaviour. -/
def fopen (s : St) (name : Text) (any : Bool) (r : Res) : Option (St × Nat) :=
  if s.remote ≠ 0 then some (newFile s name r)
  else if any then
    (base name).bind fun b =>
      let s1 : St := ⟨r.connect, s.opened, s.calls ++ [.connect b r.connect]⟩
      if r.connect = 0 then some (s1, 0) else some (newFile s1 name r)
  else some ({ s with calls := s.calls ++ [.fopen name r.fopen] }, r.fopen)

/-- `fclose`, `FileInterface.cxx:154-166`. -/
def fclose (s : St) (f : Nat) : St :=
  if s.remote ≠ 0 ∧ f = s.remote then
    { s with opened := s.opened - 1, calls := s.calls ++ [.endfile s.remote] }
  else if f ≠ 0 then { s with calls := s.calls ++ [.fclose f] }
  else s

/-- `fwrite` of `nmemb` elements with `sz` bytes, `FileInterface.cxx:168-172`; `n`: number of bytes
which the library takes. -/
def fwrite (s : St) (data : List Byte) (sz : Nat) (f : Nat) (n : Nat) : St × Nat :=
  if f = 0 ∨ sz = 0 then (s, 0)
  else ({ s with calls := s.calls ++ [.fwrite f data n] }, n / sz)

/-- `feof`, `FileInterface.cxx:196-199`; `r`: result of the library. -/
def feof (s : St) (f : Nat) (r : Int) : St × Bool :=
  if f = 0 then (s, false) else ({ s with calls := s.calls ++ [.endfile f] }, decide (r > 0))

/-- One file as an output writes it: open, write blocks, close. A file which is not opened is not
written. -/
structure File where
  name : Text
  any : Bool
  res : Res
  blocks : List (List Byte)

/-- All blocks are written as bytes and taken completely. -/
def writeAll (s : St) (f : Nat) : List (List Byte) → St
  | [] => s
  | b :: l => writeAll (fwrite s b 1 f b.length).1 f l

/-- Open, write, close. -/
def writeFile (s : St) (x : File) : Option St :=
  (fopen s x.name x.any x.res).map fun r =>
    if r.2 = 0 then r.1 else fclose (writeAll r.1 r.2 x.blocks) r.2

/-- Files one after the other. -/
def writeFiles (s : St) : List File → Option St
  | [] => some s
  | x :: l => (writeFile s x).bind fun s' => writeFiles s' l

end Verif.Rfio
