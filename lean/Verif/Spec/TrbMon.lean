import Verif.TrbMon
/-! # What the monitor should send -/

namespace Verif.TrbMon
open Verif.Bytes Verif.Pointer Verif.HadTu Verif.HadIter

/-- Four bytes, most significant first. -/
def be (w : Word) : List Byte := (enc 4 w.toNat).reverse

/-- Records of the registers: address and value, with first addresses configured also the first
address. Each register has its own first address if there are enough of them, otherwise all
have the first one. -/
inductive Records (read : Word → Word → Word) : List Word → List Word → List Byte → Prop
  | short {addrs} : Records read [] addrs (addrs.flatMap fun a => be a ++ be (read 0 a))
  | each {addrs0 addrs} : addrs0 ≠ [] → addrs.length ≤ addrs0.length →
      Records read addrs0 addrs
        ((addrs0.zip addrs).flatMap fun x => be x.1 ++ be x.2 ++ be (read x.1 x.2))
  | common {b l addrs} : (b :: l).length < addrs.length →
      Records read (b :: l) addrs (addrs.flatMap fun a => be b ++ be a ++ be (read b a))

/-- Size of the records in bytes. -/
def recordSize (c : Conf) : Nat := (if c.addrs0 = [] then 8 else 12) * c.addrs.length

/-- Bytes of the buffer needed for the event. -/
def needed (c : Conf) : Nat := 32 + up8 (16 + recordSize c)

/-- A reader sees one event with this number which has one subevent with this number, the
configured id and these data, stored with the most significant byte first. -/
def Shows (c : Conf) (id date time : Word) (data : List Byte) (mem : Mem) : Prop :=
  ∃ e : EvSeen, (∀ fuel subfuel, 1 < fuel → 1 < subfuel →
      readEvents mem subfuel fuel (reset mem .events).1 = some [e]) ∧
    e.seq = some id ∧ e.run = some 0 ∧ e.date = some date ∧ e.time = some time ∧
    ∃ s : SubSeen, e.subs = [s] ∧ s.id = some c.subId ∧ s.trig = some id ∧ s.data = some data ∧
      s.decoding = some (0x20001 + 16 * BitVec.ofNat 32 (min c.trigType 15))

/-- What is sent for a list of timer events, with consecutive numbers from `id` on. -/
inductive SentFor (c : Conf) : Word → List In → List Mem → Word → Prop
  | nil {id} : SentFor c id [] [] id
  | skip {id i l ms id'} : (∀ s, i.buf = some [s] → s.length < 48 + recordSize c) →
      SentFor c id l ms id' → SentFor c id (i :: l) ms id'
  | send {id i l ms id' m data} : Records i.read c.addrs0 c.addrs data →
      Shows c id i.date i.time data m → SentFor c (id + 1) l ms id' →
      SentFor c id (i :: l) (m :: ms) id'

end Verif.TrbMon
