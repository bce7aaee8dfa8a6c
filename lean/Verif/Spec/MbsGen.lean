import Verif.MbsGen
/-!
# Events which the user of the generator expects
-/

namespace Verif.MbsGen

/-- Number of processor and of crate in the id of a subevent, without the option `fullid`. -/
def Sub.proc (x : Sub) : Nat := x.id % 65536
def Sub.crate (x : Sub) : Nat := x.id / 65536

/-- Event with all its subevents. -/
def Ev.whole (c : Cfg) (e : Ev) : Prop := e.subs.length = c.numsub

instance (c : Cfg) (e : Ev) : Decidable (e.whole c) := inferInstanceAs (Decidable (e.subs.length = c.numsub))

/-- Bytes of an event with all its subevents, when the size of the raw data is a multiple of four. -/
def evSize (c : Cfg) : Nat := 16 + c.numsub * (12 + c.size)

end Verif.MbsGen
