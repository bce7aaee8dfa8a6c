import Verif.TdcRetr
/-! # What the calibration should send -/

namespace Verif.TdcRetr
open Verif.Bytes

/-- The subevents of a block up to the first with a wrong size. -/
inductive Usable : List Sub → List Sub → Prop
  | nil : Usable [] []
  | bad {s l} : s.fits = false → Usable (s :: l) []
  | cons {s l u} : s.fits = true → Usable l u → Usable (s :: l) (s :: u)

inductive UsableAll : List (List Sub) → List Sub → Prop
  | nil : UsableAll [] []
  | cons {b u l us} : Usable b u → UsableAll l us → UsableAll (b :: l) (u ++ us)

/-- Results of subevents, one behind the other, each made with the room left by those before. -/
inductive Results (t : Sub → Nat → List Byte) : Nat → List Sub → List Byte → Prop
  | nil {room} : Results t room [] []
  | cons {room s l d} : s.padded ≤ room → (t s room).length ≤ room →
      Results t (room - (t s room).length) l d → Results t room (s :: l) (t s room ++ d)

/-- In place: usable subevents are changed, others are left. -/
inductive Placed (f : Sub → Sub) : List Sub → List Sub → Prop
  | nil : Placed f [] []
  | bad {s l} : s.fits = false → Placed f (s :: l) (s :: l)
  | cons {s l u} : s.fits = true → Placed f l u → Placed f (s :: l) (f s :: u)

inductive PlacedAll (f : Sub → Sub) : List (List Sub) → List (List Sub) → Prop
  | nil : PlacedAll f [] []
  | cons {b b' l l'} : Placed f b b' → PlacedAll f l l' → PlacedAll f (b :: l) (b' :: l')

/-- What may be sent for a buffer (without emulation). -/
inductive Sends (c : Conf) : Buf → Option Buf → Prop
  | other {t d} : Sends c (.other t d) (some (.other t d))
  | subs {d} : Sends c (.subs d) (some (.subs d))
  | noProc {t l} : c.proc = false → Sends c (.data t l) (some (.data t l))
  | placed {t l l'} : c.proc = true → c.replace = true → PlacedAll c.inPlace l l' →
      Sends c (.data t l) (some (.data t l'))
  | copied {t l u d} : c.proc = true → c.replace = false → UsableAll l u →
      Results c.transform c.cap u d → d ≠ [] → Sends c (.data t l) (some (.subs d))
  | nothing {t l u} : c.proc = true → c.replace = false → UsableAll l u →
      Results c.transform c.cap u [] → Sends c (.data t l) none

/-- What may be sent for a list of buffers, in order. -/
inductive SendsAll (c : Conf) : List Buf → List Buf → Prop
  | nil : SendsAll c [] []
  | some {b b' l l'} : Sends c b (some b') → SendsAll c l l' → SendsAll c (b :: l) (b' :: l')
  | none {b l l'} : Sends c b none → SendsAll c l l' → SendsAll c (b :: l) l'

/-- The buffers which arrived. -/
def arrived : List Op → List Buf
  | [] => []
  | .arrive b :: l => b :: arrived l
  | .call _ _ :: l => arrived l

/-- A buffer which can be processed: usable subevents are aligned and swapped, and they are not
larger than a buffer of the pool in sum. -/
inductive Fine (cap : Nat) : Buf → Prop
  | other {t d} : Fine cap (.other t d)
  | subs {d} : Fine cap (.subs d)
  | data {t l u} : UsableAll l u → (∀ s ∈ u, s.good = true) → (u.map Sub.padded).sum ≤ cap →
      Fine cap (.data t l)

/-- The transformation does not make subevents longer. -/
def Shrinks (c : Conf) : Prop := ∀ s room, (c.transform s room).length ≤ s.padded

end Verif.TdcRetr
