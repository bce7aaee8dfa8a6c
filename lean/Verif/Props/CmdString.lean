import Verif.CmdStringLemmas

/-! # Property C46: parsing of command lines -/

namespace Verif.CmdString

/-- **C46 (partial).** A command line with any mix of positional, named and quoted arguments is accepted
and gives a command with this name, the positional arguments `Arg0`, `Arg1`, ... and the values of the
named arguments, all in order, with quotes removed.  Missing: named arguments are not stored under their
name but under the name without its last character (`List.dropLast` instead of `id`). -/
theorem C46_parse_partial (name : List Char) (args : List Arg) (hn : Word name) (ha : ∀ a ∈ args, a.Ok) :
    readFromCmdString (line name args) =
      some (some { name := name, fields := expected List.dropLast 0 args, numArg := positionals args }) := by
  rw [readFromCmdString, line, readLoop_part hn.1 (fun r => by have := word_head hn [] r; simpa using this)
    (word_part hn (tail_args args)) (q := { name := name, fields := [], numArg := 0 }) rfl, readLoop_args args ha, foldl_addArg]
  simp

/-- **C46**, positional arguments: here nothing is missing. -/
theorem C46_parse_positional (name : List Char) (vs : List (List Char)) (hn : Word name) (hv : ∀ v ∈ vs, Word v) :
    readFromCmdString (line name (vs.map .positional)) =
      some (some { name := name, fields := expected id 0 (vs.map .positional), numArg := vs.length }) := by
  rw [C46_parse_partial name _ hn (by simpa [Arg.Ok] using hv)]
  have h1 : ∀ (vs : List (List Char)) k, expected List.dropLast k (vs.map .positional) = expected id k (vs.map .positional) := by
    intro vs; induction vs with
    | nil => intro k; rfl
    | cons v vs ih => intro k; simp [expected, ih]
  have h2 : positionals (vs.map .positional) = vs.length := by
    induction vs with
    | nil => rfl
    | cons v vs ih => simp [positionals, List.countP_cons] at ih ⊢
  rw [h1, h2]

/-- The line `ping a x="b =c"` meets the hypotheses. -/
example : Word "ping".toList ∧ ∀ a ∈ [Arg.positional "a".toList, .quoted "x".toList "b =c".toList], a.Ok := by
  simp [Arg.Ok, Word]

/-- **C46 counterexample.** The documented line `ping addr=lxg0534 port=2233` stores the values under
`add` and `por`. -/
theorem C46_named_counterexample :
    readFromCmdString "ping addr=lxg0534 port=2233".toList = some (some
      ⟨"ping".toList, [("add".toList, "lxg0534".toList), ("por".toList, "2233".toList)], 0⟩) := by
  have := C46_parse_partial "ping".toList [.named "addr".toList "lxg0534".toList, .named "port".toList "2233".toList]
    (by simp [Word]) (by simp [Arg.Ok, Word])
  simpa [line, Arg.text, expected, positionals] using this

end Verif.CmdString
