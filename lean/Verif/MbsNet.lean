import Verif.Bytes

/-!
# Connection between an MBS server and an MBS client

`plugins/mbs/src/ServerTransport.cxx:23-293` (`ServerOutputAddon`), `plugins/mbs/src/ClientTransport.cxx:22-400`,
`plugins/mbs/src/MbsTypeDefs.cxx:122-200`, `plugins/mbs/mbs/MbsTypeDefs.h:42-202`, `plugins/mbs/mbs/LmdTypeDefs.h:38-66`, and the
parts of `InputTransport` and `OutputTransport` which call them (`base/src/DataTransport.cxx:220-257, 345-573, 704-805,
812-895`).

Simplified: memory of a buffer is one segment; a receive operation of the socket is complete as soon as all its bytes came,
a send operation gives its bytes to the socket in pieces of any size (see `SocketNet`); the requests of the client (12
bytes, sent while nothing else is being sent) are single tokens; the server runs on a little-endian machine (`Cli.recv` has
the byte swapping for other servers); the pool always has a buffer; events of an iterator are given as lists of bytes;
`StopTransport`, `mbt_EOL` buffers and `retry` of the output transport are left out.
-/

namespace Verif.MbsNet

open Verif.Bytes

abbrev Data := List Byte

/-- Conversion to `uint32_t`. -/
def u32 (n : Nat) : Nat := n % 4294967296

/-- Difference in `uint32_t`. -/
def sub32 (a b : Nat) : Nat := u32 (a + 4294967296 - b)

/-- Word `i` of memory. -/
def word (l : Data) (i : Nat) : Nat := dec ((l.drop (4 * i)).take 4)

/-- `SwapData` (`MbsTypeDefs.cxx:190-200`). -/
def swap : Data → Data
  | a :: b :: c :: d :: l => d :: c :: b :: a :: swap l
  | l => l

/-! ## Buffer header -/

/-- `BufferHeader` (`MbsTypeDefs.h:150-185`). -/
structure Hdr where
  words : Nat
  typ : Nat
  /-- `i_used`, `h_begin`, `h_end` -/
  used : Nat
  id : Nat
  num : Nat
  temp : Nat
  sec : Nat
  nano : Nat
  endian : Nat
  last : Nat
  usedWords : Nat
  free : Nat
deriving DecidableEq, Repr

def Hdr.bytes (h : Hdr) : Data :=
  enc 4 h.words ++ (enc 4 h.typ ++ (enc 4 h.used ++ (enc 4 h.id ++ (enc 4 h.num ++ (enc 4 h.temp ++ (enc 4 h.sec ++
    (enc 4 h.nano ++ (enc 4 h.endian ++ (enc 4 h.last ++ (enc 4 h.usedWords ++ enc 4 h.free))))))))))

def Hdr.ofBytes (l : Data) : Hdr :=
  ⟨word l 0, word l 1, word l 2, word l 3, word l 4, word l 5, word l 6, word l 7, word l 8, word l 9, word l 10, word l 11⟩

/-- `MBS_TYPE(100,1)` -/
def typeNew : Nat := 65636
/-- `MBS_TYPE(10,1)` -/
def typeOld : Nat := 65546

/-- `BufferLength` (`MbsTypeDefs.cxx:138-150`). -/
def Hdr.length (h : Hdr) : Nat :=
  if h.typ = typeNew then u32 (48 + h.usedWords * 2) else if h.typ = typeOld then u32 (48 + h.words * 2) else 0

/-- `int16_t` as part of an `uint32_t` expression. -/
def ext16 (n : Nat) : Nat := if n % 65536 < 32768 then n % 65536 else n % 65536 + 4294901760

/-- `UsedBufferSize` (`MbsTypeDefs.cxx:152-166`). -/
def Hdr.usedSize (h : Hdr) : Nat :=
  if h.typ = typeNew then u32 (h.usedWords * 2) else if h.typ = typeOld then u32 (ext16 h.used * 2) else 0

def Hdr.hBegin (h : Hdr) : Nat := h.used / 65536 % 256
def Hdr.hEnd (h : Hdr) : Nat := h.used / 16777216 % 256

/-- `SetFullSize` (`LmdTypeDefs.h:55`): the words. -/
def fullWords (sz : Nat) : Nat := sub32 sz 8 / 2

/-- Lines `ServerTransport.cxx:259-263`: `Init(true)`, `SetUsedBufferSize`, `SetFullSize`; `Init` leaves `i_used`, `h_begin`
and `h_end` as they were. -/
def mkHdr (junk len : Nat) : Hdr :=
  { words := fullWords (sub32 len 48), typ := typeNew, used := junk, id := 0, num := 0, temp := 0, sec := 0, nano := 0,
    endian := 1, last := 0, usedWords := len / 2, free := 0 }

/-! ## Server side -/

inductive OState
  | init | initReq | waitReq | waitReqBack | waitBuffer | sendEvents | sendLast | sendBuffer | closing | error
deriving DecidableEq, Repr

/-- An event as the iterator shows it, with the byte behind it in memory. -/
structure Ev where
  data : Data
  next : Byte
deriving DecidableEq

/-- A buffer: its memory and what the iterator shows of it. -/
structure Buf where
  raw : Data
  evs : List Ev
deriving DecidableEq

/-- What comes to the output transport: a buffer or `mbt_EOF`. -/
inductive Item
  | buf (b : Buf)
  | eof
deriving DecidableEq

/-- Bytes of an event which are sent (`evsize++` for odd sizes). -/
def Ev.padded (e : Ev) : Data := if e.data.length % 2 = 1 then e.data ++ [e.next] else e.data

/-- Header of an event and of its only subevent (`ServerTransport.cxx:93-99`). -/
def evHead (cnt sub size : Nat) : Data :=
  enc 4 (fullWords (u32 (size + 28))) ++ enc 4 typeOld ++ enc 4 65536 ++ enc 4 cnt ++
    (enc 4 (fullWords (u32 (size + 12))) ++ enc 4 typeOld ++ enc 4 sub)

def Ev.wrapped (cnt sub : Nat) (e : Ev) : Data := evHead cnt sub e.padded.length ++ e.padded

/-- Events for the output transport: call-backs and the command `CloseTransport`. -/
inductive Sig
  | ok | close | cmdClose
deriving DecidableEq, Repr

/-- States of the output transport which matter here. -/
inductive ODrv
  | ready | timeout | waitCb | waitFinish | closed
deriving DecidableEq, Repr

structure Srv where
  /-- `fKind == StreamServer` -/
  stream : Bool
  /-- `fIter` is set. -/
  iter : Bool
  sub : Nat
  junk : Nat
  st : OState := .init
  /-- Bytes of the running send operation which the socket has not taken yet. -/
  pend : Option Data
  /-- Current event of the iterator and those behind it. -/
  left : List Ev := []
  /-- `fEvCounter`, reduced to 32 bits when it is written -/
  cnt : Nat := 0
  extra : Bool := false
  drv : ODrv := .ready
  sigs : List Sig := []
  queue : List Item := []
  /-- An event is taken from an iterator which has none. -/
  bad : Bool := false

/-- `FillServInfo(0x400000, true)` (`ServerTransport.cxx:43-51, 396`). -/
def infoBytes : Data := enc 4 1 ++ (enc 4 4194304 ++ (enc 4 1 ++ enc 4 0))

/-- After `OnThreadAssigned` (`ServerTransport.cxx:53-64`). -/
def Srv.start (stream iter : Bool) (sub junk : Nat) : Srv := { stream, iter, sub, junk, pend := some infoBytes }

/-- `OnSendCompleted` (`ServerTransport.cxx:73-129`). -/
def Srv.sent (s : Srv) : Srv :=
  match s.st with
  | .init => { s with st := if s.stream then .waitReq else .waitBuffer }
  | .initReq => { s with st := .waitBuffer }
  | .sendEvents =>
    match s.left with
    | [] => { s with bad := true }
    | e :: rest =>
      { s with
        pend := some (e.wrapped s.cnt s.sub), cnt := s.cnt + 1, left := rest,
        st := if rest = [] then .sendLast else .sendEvents }
  | .sendLast | .sendBuffer =>
    { s with
      st := if s.stream then (if s.extra then .waitBuffer else .waitReq) else .waitBuffer,
      extra := false, sigs := s.sigs ++ [.ok] }
  | _ => s

/-- `OnSocketError` (`ServerTransport.cxx:276-293`). -/
def Srv.fail (s : Srv) (err : Bool) : Srv :=
  match s.st with
  | .sendEvents | .sendBuffer | .waitReqBack =>
    { s with st := if err then .error else .closing, sigs := s.sigs ++ [.close] }
  | .closing | .error => s
  | _ => { s with st := if err then .error else .closing, sigs := s.sigs ++ [.cmdClose] }

inductive Req
  | getevt | close
deriving DecidableEq, Repr

/-- `OnRecvCompleted` (`ServerTransport.cxx:131-174`). -/
def Srv.req (s : Srv) (r : Req) : Srv :=
  if r = .close then s.fail false
  else
    match s.st with
    | .init => { s with extra := false, st := .initReq }
    | .waitBuffer => { s with extra := false }
    | .waitReq => { s with extra := false, st := .waitBuffer }
    | .waitReqBack => { s with extra := false, st := .waitBuffer, sigs := s.sigs ++ [.ok] }
    | .sendEvents | .sendLast | .sendBuffer => { s with extra := true }
    | _ => { s with extra := false, st := .error, sigs := s.sigs ++ [.cmdClose] }

inductive ORes
  | ok | repeatTmo | callBack | skip | error
deriving DecidableEq, Repr

/-- `Write_Check` (`ServerTransport.cxx:190-216`). -/
def Srv.check (s : Srv) : Srv × ORes :=
  match s.st with
  | .init | .initReq => (s, .repeatTmo)
  | .waitReq => ({ s with st := .waitReqBack }, .callBack)
  | .waitBuffer => (s, .ok)
  | .error => (s, .error)
  | _ => ({ s with st := .error }, .error)

/-- `sendsize` of lines `ServerTransport.cxx:224-250`; `none`: `do_Skip`. -/
def Srv.sendSize (s : Srv) (b : Buf) : Option Nat :=
  if b.raw = [] then none
  else if s.iter then
    if u32 (b.evs.map (fun e => e.padded.length)).sum = 0 then none
    else some (u32 (b.evs.map (fun e => 28 + e.padded.length)).sum)
  else some (u32 b.raw.length)

/-- `Write_Buffer` (`ServerTransport.cxx:218-273`). -/
def Srv.write (s : Srv) (b : Buf) : Srv × ORes :=
  if s.st ≠ .waitBuffer then (s, .error)
  else
    match s.sendSize b with
    | none => (s, .skip)
    | some n =>
      if s.iter then ({ s with st := .sendEvents, left := b.evs, pend := some (mkHdr s.junk n).bytes }, .callBack)
      else ({ s with st := .sendBuffer, pend := some ((mkHdr s.junk n).bytes ++ b.raw) }, .callBack)

/-- The connection is closed. -/
def Srv.shut (s : Srv) : Srv := { s with drv := .closed, pend := none }

/-- `OutputTransport::ProcessRecv` in the state `outReady` with something in the queue (`DataTransport.cxx:738-850`). -/
def Srv.work (s : Srv) : Srv :=
  match s.queue with
  | [] => s
  | .eof :: rest => { s with queue := rest }.shut
  | .buf b :: rest =>
    match s.check with
    | (s, .repeatTmo) => { s with drv := .timeout }
    | (s, .callBack) => { s with drv := .waitCb }
    | (s, .ok) =>
      match { s with queue := rest }.write b with
      | (s, .callBack) => { s with drv := .waitFinish }
      | (s, .skip) => s
      | (s, _) => s.shut
    | (s, _) => s.shut

/-- `OutputTransport::ProcessEvent` (`DataTransport.cxx:704-736`), `Write_Complete` of the addon is that of `DataOutput`. -/
def Srv.signal (s : Srv) : Srv :=
  match s.sigs with
  | [] => s
  | .ok :: rest => { s with sigs := rest, drv := if s.drv = .waitCb ∨ s.drv = .waitFinish then .ready else s.drv }
  | _ :: rest => { s with sigs := rest }.shut

/-! ## Client side -/

inductive IState
  | recvInfo | ready | recvHeader | waitBuffer | recvBuffer | complBuffer | closing | error | closed
deriving DecidableEq, Repr

/-- States of the input transport which matter here. -/
inductive IDrv
  /-- `inpInit` -/
  | idle
  /-- `inpSizeCallBack` -/
  | size
  /-- `inpNeedBuffer`; zero for the default size -/
  | buf (n : Nat)
  /-- `inpCallBack` -/
  | data
  /-- `inpCompleting` -/
  | compl
  /-- The end of the stream was told to the receiver (`mbt_EOF`) and the transport is closed. -/
  | ended
  /-- An exception left the transport. -/
  | thrown
  /-- The loop over the events does not end. -/
  | hangs
deriving DecidableEq, Repr

structure Cli where
  /-- `fKind == StreamServer` -/
  stream : Bool
  st : IState := .recvInfo
  maxBytes : Nat := 0
  streams : Nat := 0
  swapping : Bool := false
  spanning : Bool := false
  pending : Bool := false
  hdr : Hdr := Hdr.ofBytes []
  /-- `fSpanBuffer`, empty when null -/
  span : Data := []
  /-- Length of the running receive operation. -/
  want : Option Nat := some 16
  /-- Memory of the buffer which is being filled. -/
  mem : Data := []
  drv : IDrv := .idle
  out : List Data := []
  /-- `ObjectCleanup` was called. -/
  gone : Bool := false

/-- `ReadBufferSize` (`ClientTransport.cxx:62-71`). -/
def Hdr.readSize (h : Hdr) : Nat := if h.length < 48 then 0 else h.length - 48

def diEnd : Nat := 4294967284
def diOk : Nat := 4294967285
def diCallBack : Nat := 4294967286
def diError : Nat := 4294967287
def diSkip : Nat := 4294967288
def diDflt : Nat := 4294967289
def diValid : Nat := 4294967280

/-- The size for the next buffer (`DataTransport.cxx:378-404`). -/
def takeSize (n : Nat) : IDrv :=
  if n = diCallBack then .ended else if n = diEnd then .ended else if n = diDflt then .buf 0
  else if n ≤ diValid then .buf n else .ended

/-- `MakeCallback` and `InputTransport::Read_CallBack` (`ClientTransport.cxx:225-238`, `DataTransport.cxx:220-257`). -/
def Cli.callBack (c : Cli) (arg : Nat) : Cli :=
  match c.drv with
  | .size => { c with drv := takeSize arg }
  | .data => { c with drv := .compl }
  | .ended => c
  | _ => { c with drv := .ended }

/-- `SubmitRequest` (`ClientTransport.cxx:214-223`), with the requests which go to the server. -/
def Cli.submit (c : Cli) : Cli × List Req :=
  ({ c with want := some 48, st := .recvHeader }, if c.stream then [.getevt] else [])

/-- Position where the data of a buffer are placed: `fSpanBuffer.GetTotalSize() - sizeof(mbs::Header)`. -/
def Cli.shift (c : Cli) : Nat := if c.span = [] then 0 else sub32 c.span.length 8

/-- The info record was received (`ClientTransport.cxx:88-121`). -/
def Cli.onInfo (c : Cli) (l : Data) : Cli × List Req :=
  let sw := decide (word l 0 ≠ 1)
  let l := if sw then swap l else l
  let c := { c with
    st := if word l 0 = 1 then .ready else .error, swapping := sw || c.swapping, maxBytes := word l 1, streams := word l 3,
    spanning := if word l 0 = 1 ∧ word l 3 ≠ 0 ∧ word l 2 ≠ 1 then true else c.spanning }
  if c.pending then { c with pending := false }.submit else (c, [])

/-- The header of a buffer was received (`ClientTransport.cxx:123-145`). -/
def Cli.onHeader (c : Cli) (l : Data) : Cli :=
  let h := Hdr.ofBytes (if c.swapping then swap l else l)
  let c := { c with hdr := h }
  if h.readSize > c.maxBytes then { c with st := .error }.callBack diError
  else if h.readSize = 0 then { c with st := .ready }.callBack diSkip
  else { c with st := .waitBuffer }.callBack (if c.spanning then diDflt else h.readSize)

/-- The data of a buffer were received (`ClientTransport.cxx:147-168`). -/
def Cli.onData (c : Cli) (l : Data) : Cli :=
  let c := { c with mem := c.mem.take c.shift ++ l ++ c.mem.drop (c.shift + l.length) }
  if c.hdr.usedSize > 0 then { c with st := .complBuffer }.callBack diOk
  else if c.streams = 0 then { c with st := .error }.callBack diError
  else { c with st := .ready }.callBack diSkip

/-- `OnRecvCompleted` (`ClientTransport.cxx:82-173`). -/
def Cli.recv (c : Cli) (l : Data) : Cli × List Req :=
  let c := { c with want := none }
  match c.st with
  | .recvInfo => c.onInfo l
  | .recvHeader => (c.onHeader l, [])
  | .recvBuffer => (c.onData l, [])
  | _ => (c, [])

/-- `Read_Size` called by `ProcessSend` (`ClientTransport.cxx:241-257`, `DataTransport.cxx:345-376`). -/
def Cli.readSize (c : Cli) : Cli × List Req :=
  match c.st with
  | .recvInfo => ({ c with pending := true, drv := .size }, [])
  | .ready => { c with drv := .size }.submit
  | _ => ({ c with drv := .ended }, [])

/-- `Read_Start` (`ClientTransport.cxx:259-306`). -/
def Cli.start (c : Cli) (mem : Data) : Cli × Bool :=
  if c.st ≠ .waitBuffer then (c, false)
  else if mem.length < c.hdr.readSize then (c, false)
  else if c.span ≠ [] then
    if c.hdr.hBegin = 0 then (c, false)
    else if mem.length < c.hdr.readSize + c.span.length then (c, false)
    else if mem.length ≤ c.shift then (c, false)
    else if c.want.isSome then (c, false)
    else ({ c with st := .recvBuffer, want := some c.hdr.readSize, mem := mem }, true)
  else if c.want.isSome then (c, false)
  else ({ c with st := .recvBuffer, want := some c.hdr.readSize, mem := mem }, true)

/-- A buffer is taken from the pool and `Read_Start` is called (`DataTransport.cxx:408-479`). -/
def Cli.readStart (c : Cli) (n : Nat) (mem : Data) : Cli :=
  if mem.length < n then { c with drv := .ended }
  else
    match { c with drv := .data }.start (if n > 0 then mem.take n else mem) with
    | (c, true) => c
    | (c, false) => { c with drv := .ended }

/-- The loop over the events (`ClientTransport.cxx:361-366`, `Iterator.cxx:88-120`): position of the current event, sizes
counted so far; `none` when it does not end. -/
def walk : Nat → Data → Bool → Nat → Nat → Option Nat
  | 0, _, _, _, _ => none
  | fuel + 1, l, first, useful, last =>
    let l := if first then l else l.drop last
    if l.length < 16 then some useful
    else if l.length < u32 (8 + word l 0 * 2) then some useful
    else walk fuel l false (useful + last) (u32 (8 + word l 0 * 2))

inductive IRes
  | ok | skip | error | thrown | hangs
deriving DecidableEq, Repr

/-- Swapping of received data and joining with the block which was kept (`ClientTransport.cxx:318-352`): memory of the
buffer. -/
def Cli.joined (c : Cli) : Data :=
  let m := if c.swapping then
      c.mem.take c.shift ++ swap ((c.mem.drop c.shift).take c.hdr.usedSize) ++ (c.mem.drop c.shift).drop c.hdr.usedSize
    else c.mem
  if c.span = [] then m
  else
    let new := u32 (8 + word (m.drop c.shift) 0 * 2)
    let m := c.span ++ m.drop c.span.length
    enc 4 (fullWords (u32 (c.shift + new))) ++ m.drop 4

/-- `Read_Complete` (`ClientTransport.cxx:308-389`) with the contents of the buffer. -/
def Cli.complete (c : Cli) : Cli × IRes × Data :=
  if c.st ≠ .complBuffer then (c, .error, [])
  else
    let m := c.joined
    let n := u32 (c.shift + c.hdr.usedSize)
    let c := { c with span := [] }
    if n > m.length then (c, .thrown, [])
    else
      let m := m.take n
      if c.spanning ∧ c.hdr.hEnd ≠ 0 then
        match walk (m.length + 1) m true 0 0 with
        | none => (c, .hangs, [])
        | some k =>
          ({ c with span := m.drop k, st := .ready }, if m.take k = [] then .skip else .ok, m.take k)
      else ({ c with st := .ready }, if m = [] then .skip else .ok, m)

/-- `Read_Complete` called by `ProcessSend` (`DataTransport.cxx:489-573`). -/
def Cli.readComplete (c : Cli) : Cli :=
  match c.complete with
  | (c, .ok, l) => { c with out := c.out ++ [l], drv := .idle }
  | (c, .skip, _) => { c with drv := .idle }
  | (c, .error, _) => { c with drv := .ended }
  | (c, .thrown, _) => { c with drv := .thrown }
  | (c, .hangs, _) => { c with drv := .hangs }

/-- `OnSocketError` (`ClientTransport.cxx:175-192`); the command for the transport is `Op.cliEnd`. -/
def Cli.fail (c : Cli) (err : Bool) : Cli := { c with st := if err then .error else .closed, want := none }

/-- `ObjectCleanup` (`ClientTransport.cxx:43-54`). -/
def Cli.cleanup (c : Cli) : Cli × List Req :=
  if c.st ≠ .error ∧ c.st ≠ .closed then ({ c with st := .closing, want := none, drv := .ended, gone := true }, [.close])
  else ({ c with want := none, drv := .ended, gone := true }, [])

/-! ## Both together -/

structure Net where
  srv : Srv
  cli : Cli
  /-- Bytes on their way to the client. -/
  down : Data := []
  /-- Requests on their way to the server. -/
  up : List Req := []

def Net.start (stream iter : Bool) (sub junk : Nat) (asks : Bool) : Net :=
  { srv := Srv.start stream iter sub junk, cli := { stream := asks } }

inductive Op
  /-- A buffer comes to the queue of the output transport. -/
  | post (i : Item)
  /-- The output transport looks at its queue. -/
  | work
  /-- The timer of the output transport. -/
  | timer
  /-- The output transport gets its next event. -/
  | signal
  /-- The socket of the server takes bytes. -/
  | push (n : Nat)
  /-- The socket tells that everything was taken. -/
  | sent
  /-- A request comes to the server. -/
  | req
  /-- The input transport asks for the next size. -/
  | readSize
  /-- A receive operation of the client is complete. -/
  | recv
  /-- The input transport got a buffer. -/
  | readStart (mem : Data)
  | readComplete
  /-- Errors of the sockets, and the command to the input transport. -/
  | srvFail (err : Bool)
  | cliFail (err : Bool)
  | cliEnd
  /-- The client is destroyed. -/
  | cliCleanup

def Net.step (s : Net) : Op → Net
  | .post i => { s with srv := { s.srv with queue := s.srv.queue ++ [i] } }
  | .work => if s.srv.drv = .ready then { s with srv := s.srv.work } else s
  | .timer => if s.srv.drv = .timeout then { s with srv := { s.srv with drv := .ready } } else s
  | .signal => if s.srv.drv = .closed then s else { s with srv := s.srv.signal }
  | .push n =>
    match s.srv.pend with
    | some l => { s with down := s.down ++ l.take n, srv := { s.srv with pend := some (l.drop n) } }
    | none => s
  | .sent => if s.srv.pend = some [] ∧ s.srv.drv ≠ .closed then { s with srv := { s.srv with pend := none }.sent } else s
  | .req =>
    if s.srv.drv = .closed then s
    else match s.up with
      | [] => s
      | r :: rest => { s with up := rest, srv := s.srv.req r }
  | .readSize =>
    if s.cli.drv = .idle then { s with cli := s.cli.readSize.1, up := s.up ++ s.cli.readSize.2 } else s
  | .recv =>
    match s.cli.want with
    | some n =>
      if n ≤ s.down.length then
        { s with
          down := s.down.drop n, cli := (s.cli.recv (s.down.take n)).1, up := s.up ++ (s.cli.recv (s.down.take n)).2 }
      else s
    | none => s
  | .readStart mem =>
    match s.cli.drv with
    | .buf n => { s with cli := s.cli.readStart n mem }
    | _ => s
  | .readComplete => if s.cli.drv = .compl then { s with cli := s.cli.readComplete } else s
  | .srvFail err => if s.srv.drv = .closed then s else { s with srv := { s.srv with pend := none }.fail err }
  | .cliFail err => if s.cli.gone then s else { s with cli := s.cli.fail err }
  | .cliEnd => if s.cli.st = .error ∨ s.cli.st = .closed then { s with cli := { s.cli with drv := .ended } } else s
  | .cliCleanup => if s.cli.gone then s else { s with cli := s.cli.cleanup.1, up := s.up ++ s.cli.cleanup.2 }

def Net.run (s : Net) (ops : List Op) : Net := ops.foldl Net.step s

end Verif.MbsNet
