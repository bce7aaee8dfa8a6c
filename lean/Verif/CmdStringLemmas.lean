import Verif.CmdString
import Verif.Spec.CmdString

namespace Verif.CmdString

/-- No blank outside quotes and quotes balanced: scanning passes over the text. -/
theorem beforeSymbol_append {symb : Char} (_hs : symb ≠ '"') (a b : List Char) (ha : ∀ c ∈ a, c ≠ symb ∧ c ≠ '"') :
    beforeSymbol symb false (a ++ b) = a ++ beforeSymbol symb false b := by
  induction a with
  | nil => rfl
  | cons c a ih =>
    have hc := ha c (by simp)
    simp only [List.cons_append, beforeSymbol, hc.2, if_false, hc.1, and_false]
    rw [ih (fun x hx => ha x (by simp [hx]))]

theorem beforeSymbol_quoted {symb : Char} (hs : symb ≠ '"') (v b : List Char) (hv : ∀ c ∈ v, c ≠ '"') :
    beforeSymbol symb true (v ++ '"' :: b) = v ++ '"' :: beforeSymbol symb false b := by
  induction v with
  | nil => simp [beforeSymbol, Ne.symm hs]
  | cons c v ih =>
    have hc := hv c (by simp)
    simp only [List.cons_append, beforeSymbol, hc, if_false]
    simp [ih (fun x hx => hv x (by simp [hx]))]

/-- What follows an argument on the line: nothing or a blank. -/
def Tail (s : List Char) : Prop := s = [] ∨ ∃ r, s = ' ' :: r

theorem beforeSymbol_tail {s : List Char} (h : Tail s) : beforeSymbol ' ' false s = [] := by
  rcases h with rfl | ⟨r, rfl⟩
  · rfl
  · simp [beforeSymbol]

theorem word_part {v s : List Char} (hv : Word v) (h : Tail s) : beforeSymbol ' ' false (v ++ s) = v := by
  rw [beforeSymbol_append (by decide) v s (fun c hc => ⟨(hv.2 c hc).1, (hv.2 c hc).2.1⟩), beforeSymbol_tail h, List.append_nil]

theorem arg_part {a : Arg} (ha : a.Ok) {s : List Char} (h : Tail s) : beforeSymbol ' ' false (a.text ++ s) = a.text := by
  cases a with
  | positional v => exact word_part ha h
  | named n v =>
    obtain ⟨hn, hv⟩ := ha
    have : ∀ c ∈ n ++ '=' :: v, c ≠ ' ' ∧ c ≠ '"' := by
      intro c hc
      simp only [List.mem_append, List.mem_cons] at hc
      rcases hc with hc | rfl | hc
      · exact ⟨(hn.2 c hc).1, (hn.2 c hc).2.1⟩
      · decide
      · exact ⟨(hv.2 c hc).1, (hv.2 c hc).2.1⟩
    simp only [Arg.text]
    rw [beforeSymbol_append (by decide) _ s this, beforeSymbol_tail h, List.append_nil]
  | quoted n v =>
    obtain ⟨hn, hv⟩ := ha
    simp only [Arg.text]
    have e : n ++ '=' :: '"' :: v ++ ['"'] ++ s = (n ++ ['=']) ++ '"' :: (v ++ '"' :: s) := by simp
    have e2 : n ++ '=' :: '"' :: v ++ ['"'] = (n ++ ['=']) ++ '"' :: (v ++ ['"']) := by simp
    rw [e, beforeSymbol_append (by decide), e2]
    · congr 1
      simp only [beforeSymbol, if_true, Bool.not_false]
      rw [beforeSymbol_quoted (by decide) v s hv, beforeSymbol_tail h]; simp
    · intro c hc
      simp only [List.mem_append, List.mem_singleton] at hc
      rcases hc with hc | rfl
      · exact ⟨(hn.2 c hc).1, (hn.2 c hc).2.1⟩
      · decide

theorem readLoop_part {cmd : Option Parsed} {p s : List Char} {q : Parsed} (hne : p ≠ []) (h0 : ∀ r, p ≠ ' ' :: r)
    (hp : beforeSymbol ' ' false (p ++ s) = p) (hq : handlePart cmd p = some q) :
    readLoop cmd (p ++ s) = readLoop (some q) s := by
  cases p with
  | nil => exact absurd rfl hne
  | cons c p =>
    have hc : c ≠ ' ' := by intro e; exact h0 p (by rw [e])
    rw [List.cons_append] at hp ⊢
    rw [readLoop, dif_neg hc]
    simp only [hp]
    rw [hq]
    simp only [← List.cons_append, List.drop_left]

theorem key_part {n r : List Char} (hn : Word n) : beforeSymbol '=' false (n ++ '=' :: r) = n := by
  rw [beforeSymbol_append (by decide) n _ (fun c hc => ⟨(hn.2 c hc).2.2, (hn.2 c hc).2.1⟩)]
  simp [beforeSymbol]

theorem removeQuotes_word {v : List Char} (hv : Word v) : removeQuotes v = v := by
  unfold removeQuotes
  split
  · rfl
  · split
    · rfl
    · cases v with
      | nil => simp at *
      | cons c v =>
        have := (hv.2 c (by simp)).2.1
        simp [this]

theorem removeQuotes_quoted (v : List Char) : removeQuotes ('"' :: v ++ ['"']) = v := by
  have h1 : ('"' :: v ++ ['"']).getLast? = some '"' := List.getLast?_concat
  have h2 : ('"' :: v ++ ['"']).dropLast = '"' :: v := List.dropLast_concat
  unfold removeQuotes
  rw [h1, h2]
  simp
  intro h
  omega

/-- The command after one argument. -/
def addArg (p : Parsed) (a : Arg) : Parsed :=
  match a with
  | .positional v => { p with fields := p.fields ++ [(argName p.numArg, v)], numArg := p.numArg + 1 }
  | .named n v => { p with fields := p.fields ++ [(n.dropLast, v)] }
  | .quoted n v => { p with fields := p.fields ++ [(n.dropLast, v)] }

theorem handlePart_named {p : Parsed} {n r : List Char} (hn : Word n) :
    handlePart (some p) (n ++ '=' :: r) = some { p with fields := p.fields ++ [(n.dropLast, removeQuotes r)] } := by
  simp only [handlePart, key_part hn]
  have h1 : n.length ≠ (n ++ '=' :: r).length := by simp
  have h2 : n.length ≠ 0 := by have := hn.1; simpa using this
  rw [if_neg h1, if_neg h2]
  have e1 : (n ++ '=' :: r).take (n.length - 1) = n.dropLast := by
    rw [List.take_append_of_le_length (by omega), List.dropLast_eq_take]
  have e2 : (n ++ '=' :: r).drop (n.length + 1) = r := by
    rw [List.drop_append]; simp
  rw [e1, e2]

theorem handlePart_arg {p : Parsed} {a : Arg} (ha : a.Ok) : handlePart (some p) a.text = some (addArg p a) := by
  cases a with
  | positional v =>
    have : beforeSymbol '=' false v = v := by
      have := beforeSymbol_append (symb := '=') (by decide) v [] (fun c hc => ⟨(ha.2 c hc).2.2, (ha.2 c hc).2.1⟩)
      simpa [beforeSymbol] using this
    simp [Arg.text, handlePart, this, addArg]
  | named n v =>
    obtain ⟨hn, hv⟩ := ha
    simp only [Arg.text, handlePart_named hn, removeQuotes_word hv, addArg]
  | quoted n v =>
    obtain ⟨hn, hv⟩ := ha
    have e2 : n ++ '=' :: '"' :: v ++ ['"'] = n ++ '=' :: ('"' :: v ++ ['"']) := by simp
    simp only [Arg.text, e2, handlePart_named hn, removeQuotes_quoted, addArg]

theorem word_head {v : List Char} (hv : Word v) (s r : List Char) : v ++ s ≠ ' ' :: r := by
  cases v with
  | nil => exact absurd rfl hv.1
  | cons c v =>
    intro e
    simp only [List.cons_append, List.cons.injEq] at e
    exact (hv.2 c (by simp)).1 e.1

theorem arg_head {a : Arg} (ha : a.Ok) : a.text ≠ [] ∧ ∀ r, a.text ≠ ' ' :: r := by
  cases a with
  | positional v => exact ⟨ha.1, fun r => by have := word_head ha [] r; simpa [Arg.text] using this⟩
  | named n v => exact ⟨by simp [Arg.text], fun r => word_head ha.1 _ r⟩
  | quoted n v => exact ⟨by simp [Arg.text], fun r => by have := word_head ha.1 ('=' :: '"' :: v ++ ['"']) r; simpa [Arg.text] using this⟩

theorem tail_args (args : List Arg) : Tail (args.flatMap (fun a => ' ' :: a.text)) := by
  cases args with
  | nil => left; rfl
  | cons a args => right; exact ⟨a.text ++ args.flatMap (fun a => ' ' :: a.text), by simp⟩

theorem readLoop_args (args : List Arg) (h : ∀ a ∈ args, a.Ok) : ∀ p : Parsed,
    readLoop (some p) (args.flatMap (fun a => ' ' :: a.text)) = some (some (args.foldl addArg p)) := by
  induction args with
  | nil => intro p; simp [readLoop]
  | cons a args ih =>
    intro p
    have ha := h a (by simp)
    rw [List.flatMap_cons, List.cons_append, readLoop, dif_pos rfl,
      readLoop_part (arg_head ha).1 (arg_head ha).2 (arg_part ha (tail_args args)) (handlePart_arg ha),
      ih (fun x hx => h x (by simp [hx]))]
    rfl

theorem foldl_addArg (args : List Arg) : ∀ p : Parsed,
    args.foldl addArg p = { name := p.name, fields := p.fields ++ expected List.dropLast p.numArg args, numArg := p.numArg + positionals args } := by
  induction args with
  | nil => intro p; simp [expected, positionals]
  | cons a args ih =>
    intro p
    rw [List.foldl_cons, ih]
    cases a with
    | positional v =>
      simp only [addArg, expected, positionals, List.countP_cons, argName, String.toList_append]
      simp; omega
    | named n v => simp [addArg, expected, positionals]
    | quoted n v => simp [addArg, expected, positionals]

end Verif.CmdString
