import Verif.Recalib
/-! # What recalibration should send -/

namespace Verif.Recalib
open Verif.Bytes

/-- Results for the events from the first one on: each is transformed with the room which the
results before have left. -/
inductive Results (t : Event → Nat → List Byte) : Nat → List Event → List Event → Prop
  | nil {room} : Results t room [] []
  | cons {room e l r rs} : t e room = r → r ≠ [] → r.length ≤ room →
      Results t (room - r.length) l rs → Results t room (e :: l) (r :: rs)

/-- What may be sent for a buffer; `none`: nothing. Events are lost only from the first one on
whose transformation fails (`lost`). -/
inductive Sends (c : Conf) : Buf → Option Buf → List Event → Prop
  | other {t d} : Sends c (.other t d) (some (.other t d)) []
  | inPlace {l} : c.replace = true → Sends c (.events l) (some (.events (l.map c.inPlace))) []
  | copied {done rs lost} : c.replace = false → Results c.transform c.cap done rs →
      (∀ e l, lost = e :: l → c.transform e (c.cap - rs.flatten.length) = []) → rs ≠ [] →
      Sends c (.events (done ++ lost)) (some (.events rs)) lost
  | nothing {lost} : c.replace = false → (∀ e l, lost = e :: l → c.transform e c.cap = []) →
      Sends c (.events lost) none lost

/-- What may be sent for a list of buffers, in order. -/
inductive SendsAll (c : Conf) : List Buf → List Buf → Prop
  | nil : SendsAll c [] []
  | some {b b' lost l l'} : Sends c b (some b') lost → SendsAll c l l' →
      SendsAll c (b :: l) (b' :: l')
  | none {b lost l l'} : Sends c b none lost → SendsAll c l l' → SendsAll c (b :: l) l'

/-- The buffers which arrived. -/
def arrived : List Op → List Buf
  | [] => []
  | .arrive b :: l => b :: arrived l
  | .call _ _ :: l => arrived l

/-- The transformation never writes more than there is room. -/
def Fits (c : Conf) : Prop := ∀ e room, (c.transform e room).length ≤ room

end Verif.Recalib
