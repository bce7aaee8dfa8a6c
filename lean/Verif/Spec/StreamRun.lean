import Verif.StreamRun
/-!
# What the user of the parallel analysis sees
-/

namespace Verif.StreamRun

/-- Everything delivered by the transport of the input. -/
def arrived : List Act → List Item
  | [] => []
  | .arrive i :: l => i :: arrived l
  | _ :: l => arrived l

/-- The data within a list of buffers. -/
def dataOf : List Item → List Buf
  | [] => []
  | .data b :: l => b :: dataOf l
  | .eof :: l => dataOf l

/-- Data, and nothing after the end mark. -/
def EndsWithEof (l : List Item) : Prop := ∃ d : List Buf, l = d.map Item.data ∨ l = d.map Item.data ++ [Item.eof]

/-- What was given to output `n`, in order. -/
def share (n : Nat) (l : List (Nat × Buf)) : List Buf := (l.filter (fun p => p.1 = n)).map (·.2)

/-- `parts` are `n` lists into which `l` is divided: every element goes to one of them, the order is kept. -/
def Divided (n : Nat) (l : List Buf) (parts : List (List Buf)) : Prop :=
  ∃ asg : List (Nat × Buf), asg.map (·.2) = l ∧ (∀ p ∈ asg, p.1 < n) ∧ parts = (List.range n).map (fun k => share k asg)

/-- Free places in the queue of module `n`. -/
def free (s : St) (n : Nat) : Nat := match s.slaves[n]? with
  | none => 0
  | some x => x.cap - x.queue.length

/-- The input is disconnected only after the main module has taken everything, with the end mark, out of it. -/
def EndTakenFirst (caps : List Nat) (acts : List Act) : Prop :=
  ∀ p q, acts = p ++ .disconnect :: q → ∃ t, run (init caps) p = some t ∧ t.inp = [] ∧ Item.eof ∈ arrived p

/-- Steps of the modules themselves. -/
def Act.own : Act → Bool
  | .recv | .iter | .check _ | .work _ | .finished => true
  | _ => false

end Verif.StreamRun
