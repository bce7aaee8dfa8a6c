import Verif.Spec.TransCmd
import Verif.Props.Url
/-!
# C122: transports are created as the url and the configuration ask

`Parts`, `joined`, `OptText`, `Named` and `Says` are the specification of urls used for C17.
-/

namespace Verif.TransCmd
open Verif.Bytes Verif.Url Verif.Json

/-! ## Options -/

theorem joined_append {a b : List Text} (ha : a ≠ []) (hb : b ≠ []) :
    joined (a ++ b) = joined a ++ [38] ++ joined b := by
  induction a with
  | nil => exact absurd rfl ha
  | cons x a ih =>
    cases a with
    | nil =>
      cases b with
      | nil => exact absurd rfl hb
      | cons y b => simp [joined]
    | cons z a =>
      have := ih (by simp)
      simp only [List.cons_append] at this
      simp only [List.cons_append, joined, this, List.append_assoc]

theorem joined_nil {a : List Text} (h : ∀ x ∈ a, x ≠ []) : joined a = [] ↔ a = [] := by
  cases a with
  | nil => simp [joined]
  | cons x a =>
    have hx := h x (List.mem_cons_self ..)
    cases a with
    | nil => simp [joined, hx]
    | cons y a => simp [joined, hx]

theorem append_true (k : Text) (os : List (List Text)) : ∀ ps : List Text, ps ≠ [] →
    (∀ l ∈ os, ∀ x ∈ l, x ≠ []) →
    appendOpts true (k ++ joined ps) (os.map joined) = k ++ joined (ps ++ os.flatten) := by
  induction os with
  | nil => intro ps _ _; simp [appendOpts]
  | cons o os ih =>
    intro ps hp ho
    have h1 := ho o (List.mem_cons_self ..)
    have h2 : ∀ l ∈ os, ∀ x ∈ l, x ≠ [] := fun l hl => ho l (List.mem_cons_of_mem _ hl)
    simp only [List.map_cons, appendOpts]
    by_cases h0 : o = []
    · subst h0
      rw [if_pos (by rfl), ih ps hp h2]
      simp
    · rw [if_neg (fun e => h0 ((joined_nil h1).mp e))]
      simp only [if_true]
      have e : k ++ joined ps ++ [38] ++ joined o = k ++ joined (ps ++ o) := by
        rw [joined_append hp h0]; simp
      rw [e, ih (ps ++ o) (by simp [hp]) h2]
      simp

theorem append_false (k : Text) (os : List (List Text)) (ho : ∀ l ∈ os, ∀ x ∈ l, x ≠ []) :
    appendOpts false k (os.map joined)
      = k ++ opt (lit "?") (if os.flatten = [] then none else some (joined os.flatten)) := by
  induction os with
  | nil => simp [appendOpts, opt]
  | cons o os ih =>
    have h1 := ho o (List.mem_cons_self ..)
    have h2 : ∀ l ∈ os, ∀ x ∈ l, x ≠ [] := fun l hl => ho l (List.mem_cons_of_mem _ hl)
    simp only [List.map_cons, appendOpts]
    by_cases h0 : o = []
    · subst h0
      rw [if_pos (by rfl), ih h2]
      simp
    · rw [if_neg (fun e => h0 ((joined_nil h1).mp e)), if_neg (by simp),
        append_true (k ++ [63]) os o h0 h2]
      have hf : (o :: os).flatten = o ++ os.flatten := rfl
      rw [hf, if_neg (by simp [h0])]
      show _ = k ++ ([63] ++ joined (o ++ os.flatten))
      simp

theorem decode_ne {f : Byte → Byte → Option Byte} {s : List Byte} (h : s ≠ []) :
    decode f s ≠ [] := by
  unfold decode
  split
  · exact absurd rfl h
  · split <;> simp
  · simp


theorem text_opts (p : Parts) (ps : List Text) :
    (withOpts p ps).text = (withOpts p []).text
      ++ opt (lit "?") (if ps = [] then none else some (joined ps)) := by
  simp [withOpts, Parts.text, opt]

/-- The configured options are appended to the url of the port, behind its own options: the
transport is asked for by a url with the same protocol, host, port and file and with all these
options. `os`: options in `urlopt`, `urlopt1` and `urlopt2`. -/
theorem C122_options {p : Parts} {own : List Text} {os : List (List Text)}
    (h1 : (withOpts p own).Ok) (h2 : (withOpts p (own ++ os.flatten)).Ok)
    (hown : ∀ x ∈ own, x ≠ []) (hos : ∀ l ∈ os, ∀ x ∈ l, x ≠ []) :
    transportKind [] (withOpts p own).text (os.map joined)
        = some (withOpts p (own ++ os.flatten)).text ∧
      setUrl (withOpts p (own ++ os.flatten)).text
        = some (withOpts p (own ++ os.flatten)).expected := by
  refine ⟨?_, C17_parts h2⟩
  unfold transportKind
  rw [if_neg (by simp), C17_parts h1]
  simp only [Option.bind_some]
  rw [if_pos (by rfl)]
  by_cases h0 : own = []
  · subst h0
    have e : (withOpts p []).expected.options = [] := rfl
    rw [e]
    simp only [List.length_nil, Nat.lt_irrefl, decide_false, List.nil_append]
    rw [append_false _ _ hos, ← text_opts]
  · have e : 0 < (withOpts p own).expected.options.length := by
      apply List.length_pos_iff.mpr
      have : (withOpts p own).options = some (joined own) := by simp [withOpts, h0]
      show decode code ((withOpts p own).options.getD []) ≠ []
      rw [this]
      exact decode_ne (fun e => h0 ((joined_nil hown).mp e))
    rw [decide_eq_true e, text_opts p own, if_neg h0, text_opts p (own ++ os.flatten),
      if_neg (by simp [h0])]
    have := append_true ((withOpts p []).text ++ lit "?") os own h0 hos
    simp only [opt, ← List.append_assoc] at this ⊢
    rw [this]

theorem decode_id {f : Byte → Byte → Option Byte} : ∀ {s : List Byte}, 37 ∉ s → decode f s = s
  | [], _ => by simp [decode]
  | b :: r, h => by
    simp only [List.mem_cons, not_or] at h
    have ih := decode_id (f := f) h.2
    unfold decode
    split
    · rename_i e; cases e
    · rename_i e; cases e; exact absurd rfl h.1
    · rename_i e; cases e; rw [ih]

theorem mem_joined {c : Byte} : ∀ {l : List Text}, c ∈ joined l → c = 38 ∨ ∃ x ∈ l, c ∈ x
  | [], h => by simp [joined] at h
  | [x], h => .inr ⟨x, by simp, h⟩
  | x :: y :: l, h => by
    simp only [joined, List.mem_append, List.mem_singleton] at h
    rcases h with (h | h) | h
    · exact .inr ⟨x, by simp, h⟩
    · exact .inl h
    · rcases mem_joined h with h | ⟨z, hz, hc⟩
      · exact .inl h
      · exact .inr ⟨z, List.mem_cons_of_mem _ hz, hc⟩

/-- The transport finds every configured option; an option of the url itself goes before
`urlopt`, this before `urlopt1` and so on. -/
theorem C122_option_value {p : Parts} {own : List Text} {os : List (List Text)}
    (h1 : (withOpts p own).Ok) (h2 : (withOpts p (own ++ os.flatten)).Ok)
    (hown : ∀ x ∈ own, x ≠ []) (hos : ∀ l ∈ os, ∀ x ∈ l, x ≠ [])
    {a b : List Text} {o name v : Text} (hs : own ++ os.flatten = a ++ o :: b)
    (ht : ∀ x ∈ a ++ o :: b, OptText x ∧ 37 ∉ x) (hn : name ≠ [])
    (ha : ∀ x ∈ a, ¬ Named name x) (hv : Says name o v) :
    ∃ k u, transportKind [] (withOpts p own).text (os.map joined) = some k ∧
      setUrl k = some u ∧ getOption u name (-1) = some v := by
  obtain ⟨e1, e2⟩ := C122_options h1 h2 hown hos
  refine ⟨_, _, e1, e2, ?_⟩
  refine (C17_option (a := a) (b := b) (p := o) ?_ (fun x hx => (ht x hx).1) hn ha hv []).1
  show decode code ((withOpts p (own ++ os.flatten)).options.getD []) = _
  rw [hs]
  have : (withOpts p (a ++ o :: b)).options = some (joined (a ++ o :: b)) := by simp [withOpts]
  rw [this, Option.getD_some]
  apply decode_id
  intro hc
  rcases mem_joined hc with h | ⟨x, hx, hc⟩
  · revert h; decide
  · exact (ht x hx).2 hc

theorem qm_ok {o : Text} (h : 58 ∉ o) :
    (⟨none, lit "h", none, some (lit "f"), some o⟩ : Parts).Ok := by
  refine ⟨by simp [Parts.text, lit, opt], (fun t ht => by cases ht), fun _ => ?_,
    (show ∀ b ∈ lit "h", b ≠ 47 ∧ b ≠ 63 ∧ b ≠ 58 by decide),
    (fun t ht => by cases ht), fun t ht => by cases ht; decide⟩
  apply without_colon
  simp only [Parts.text, opt, List.mem_append, not_or]
  exact ⟨⟨⟨⟨by simp, by decide⟩, by simp⟩, by decide, by decide⟩, by decide, h⟩

/-- A url which ends with a question mark gets a second one: the option is then not found under
its name. -/
theorem C122_question_mark_counterexample :
    transportKind [] (lit "h/f?") [lit "x=1"] = some (lit "h/f??x=1") ∧
    ∃ u, setUrl (lit "h/f??x=1") = some u ∧ getOption u (lit "x") (-1) = none := by
  constructor
  · have e : setUrl (lit "h/f?") = some _ := C17_parts (qm_ok (o := []) (by decide))
    unfold transportKind
    rw [if_neg (by simp), e]
    rfl
  · have e : setUrl (lit "h/f??x=1") = some _ := C17_parts (qm_ok (o := lit "?x=1") (by decide))
    refine ⟨_, e, ?_⟩
    refine (C17_missing (ps := [lit "?x=1"]) (by decide) ?_ (by decide) ?_ []).1
    · intro x hx
      simp only [List.mem_singleton] at hx
      subst hx
      exact .plain (by decide) (by decide) (by decide) (.plain (by decide) (by decide) (by decide)
        (.plain (by decide) (by decide) (by decide) (.plain (by decide) (by decide) (by decide) .nil)))
    · intro x hx
      simp only [List.mem_singleton] at hx
      subst hx
      rintro (h | ⟨t, h⟩)
      · revert h; decide
      · have := congrArg List.head? h
        revert this
        simp [lit]

/-- A kind in the command is taken as it is: configured url and options are not used. -/
theorem C122_explicit {kind : Text} (h : kind ≠ []) (url : Text) (os : List Text) :
    transportKind kind url os = some kind := by
  unfold transportKind
  rw [if_pos h]

/-! ## What is done -/

/-- Without the port the command fails; no device and no factory is asked. -/
theorem C122_no_port (w : World) (lay : Layout) (mgr kind : Text) :
    create w lay mgr kind none = some .refused ∧ answer .refused = some false := ⟨rfl, rfl⟩

/-- The port is disconnected when neither command nor configuration name a transport. -/
theorem C122_disconnect (w : World) (lay : Layout) (mgr : Text) {p : Port} (h : p.cfgUrl = []) :
    create w lay mgr [] (some p) = some .disconnected ∧ answer .disconnected = some true := by
  refine ⟨?_, rfl⟩
  have : transportKind [] [] p.cfgOpts = some [] := by
    unfold transportKind
    rw [if_neg (by simp)]
    rfl
  simp [create, h, this]

theorem names_full {u : Parts} {n : Text} (h : NamesDevice u n) :
    u.expected.fullName = n ∧
      (u.expected.protocol == lit "dev" || u.expected.protocol == lit "device") = true := by
  cases h with
  | host hp hf =>
    refine ⟨?_, ?_⟩
    · simp [Url.fullName, Parts.expected, fileOf, hf]
    · rcases hp with hp | hp <;> simp [Parts.expected, hp]
  | path hp hh hf ht h0 h1 =>
    refine ⟨?_, ?_⟩
    · simp only [Url.fullName, Parts.expected, fileOf, hf, hh, false_and, if_false, ht]
      rw [Verif.Text.cstr_id h0, Verif.Text.cstr_id h1]
      rfl
    · rcases hp with hp | hp <;> simp [Parts.expected, hp]

theorem find_none {w : World} {u : Parts} (hu : u.Ok) (h : NoDevice w u) :
    findDevice w u.text = some none := by
  unfold findDevice
  rw [C17_parts hu]
  simp only [Option.map_some, h.1]
  rcases h.2 with ⟨h1, h2⟩ | ⟨n, hn, hd⟩
  · rw [if_neg]
    cases hp : u.protocol with
    | none => simp [Parts.expected, hp, lit]
    | some t =>
      rw [hp] at h1 h2
      simp only [ne_eq, Option.some.injEq] at h1 h2
      simp [Parts.expected, hp, h1, h2]
  · obtain ⟨e1, e2⟩ := names_full hn
    rw [e2, e1, hd]
    simp

section
variable {w : World} {lay : Layout} {mgr kind : Text} {p : Port} {u : Parts}

theorem asked_kind (h : Asked kind p u) : transportKind kind p.cfgUrl p.cfgOpts = some u.text := by
  obtain ⟨hu, ⟨h1, h2⟩ | ⟨h1, b, own, os, hb, ho, hos, hc, hco, e⟩⟩ := h
  · rw [C122_explicit h1, h2]
  · subst e
    rw [h1, hc, hco]
    exact (C122_options hb hu ho hos).1

/-- A device found by the complete text gets the command; it will answer. -/
theorem C122_device {d : Nat} (h : Asked kind p u) (hd : w.device u.text = some d) :
    create w lay mgr kind (some p) = some (.toDevice d u.text) ∧
      answer (.toDevice d u.text) = none := by
  refine ⟨?_, rfl⟩
  unfold create
  simp only [asked_kind h, Option.bind_some]
  rw [if_neg h.1.nonempty]
  unfold findDevice
  rw [C17_parts h.1]
  simp [hd]

/-- A device named by a `dev://` or `device://` url gets the command, with the complete url. -/
theorem C122_device_url {d : Nat} {n : Text} (h : Asked kind p u) (h0 : w.device u.text = none)
    (hn : NamesDevice u n) (hd : w.device n = some d) :
    create w lay mgr kind (some p) = some (.toDevice d u.text) ∧
      answer (.toDevice d u.text) = none := by
  refine ⟨?_, rfl⟩
  unfold create
  simp only [asked_kind h, Option.bind_some]
  rw [if_neg h.1.nonempty]
  obtain ⟨e1, e2⟩ := names_full hn
  unfold findDevice
  rw [C17_parts h.1]
  simp only [Option.map_some, h0]
  rw [e2, e1, hd]
  simp [Parts.expected]

/-- If no device is meant but a port has this name, the ports are connected directly. The answer
is true only if both the ports and their bind ports could be connected. -/
theorem C122_local {q : Nat} (h : Asked kind p u) (hn : NoDevice w u) (hq : w.port u.text = some q) :
    ∃ r, create w lay mgr kind (some p) = some (.locally q r) ∧
      answer (.locally q r) = some r ∧
      (r = true ↔ w.connects = true ∧ w.bindConnects = true) := by
  refine ⟨w.connects && w.bindConnects, ?_, rfl, by simp⟩
  unfold create
  simp only [asked_kind h, Option.bind_some]
  rw [if_neg h.1.nonempty, find_none h.1 hn]
  simp [hq]

theorem ask_first {k : Text} {t : Nat} : ∀ {a : List (Text → Option Nat)}
    {f : Text → Option Nat} {b : List (Text → Option Nat)}, (∀ g ∈ a, g k = none) →
    f k = some t → askFactories k (a ++ f :: b) = some t
  | [], f, b, _, hf => by simp [askFactories, hf]
  | g :: a, f, b, ha, hf => by
    have := ask_first (b := b) (fun x hx => ha x (List.mem_cons_of_mem _ hx)) hf
    simp [askFactories, ha g (List.mem_cons_self ..), this]

theorem ask_none {k : Text} : ∀ {a : List (Text → Option Nat)}, (∀ g ∈ a, g k = none) →
    askFactories k a = none
  | [], _ => rfl
  | g :: a, ha => by
    simp [askFactories, ha g (List.mem_cons_self ..),
      ask_none (fun x hx => ha x (List.mem_cons_of_mem _ hx))]

theorem thread_for : ThreadFor lay mgr p (threadName lay mgr p) := by
  unfold threadName
  by_cases h : p.cfgThrd = []
  · rw [if_neg (by simp [h])]
    cases lay with
    | minimal => exact .minimal h rfl
    | permodule => exact .permodule h rfl
    | balanced =>
      cases hi : p.isInput with
      | true => exact .inp h rfl hi
      | false => exact .out h rfl hi
    | maximal => exact .maximal h rfl
  · rw [if_pos h]
    exact .configured h

/-- Otherwise the first factory which knows the url makes the transport. It gets the thread of the
configuration or of the layout; without a thread it is destroyed and the command fails. -/
theorem C122_factory {a b : List (Text → Option Nat)} {f : Text → Option Nat} {t : Nat}
    (h : Asked kind p u) (hn : NoDevice w u) (hq : w.port u.text = none)
    (hf : w.factories = a ++ f :: b) (ha : ∀ g ∈ a, g u.text = none) (ht : f u.text = some t) :
    (w.makesThread = false → create w lay mgr kind (some p) = some (.noThread t) ∧
      answer (.noThread t) = some false) ∧
    (w.makesThread = true → ∃ thrd i o, ThreadFor lay mgr p thrd ∧
      create w lay mgr kind (some p) = some (.made t thrd i o) ∧
      answer (.made t thrd i o) = some true ∧
      (i = true ↔ p.isInput = true ∧ w.inpConnects = true) ∧
      (o = true ↔ p.isOutput = true ∧ w.outConnects = true)) := by
  have e : create w lay mgr kind (some p) = some
      (if w.makesThread then .made t (threadName lay mgr p)
        (p.isInput && w.inpConnects) (p.isOutput && w.outConnects) else .noThread t) := by
    unfold create
    simp only [asked_kind h, Option.bind_some]
    rw [if_neg h.1.nonempty, find_none h.1 hn]
    simp only [Option.map_some, hq]
    rw [hf, ask_first ha ht]
  refine ⟨fun hm => ⟨?_, rfl⟩, fun hm => ⟨threadName lay mgr p, p.isInput && w.inpConnects,
    p.isOutput && w.outConnects, thread_for, ?_, rfl, by simp, by simp⟩⟩
  · rw [e, hm]; rfl
  · rw [e, hm]; rfl

/-- If no factory knows the url the command fails. -/
theorem C122_unknown (h : Asked kind p u) (hn : NoDevice w u) (hq : w.port u.text = none)
    (ha : ∀ g ∈ w.factories, g u.text = none) :
    create w lay mgr kind (some p) = some .refused ∧ answer .refused = some false := by
  refine ⟨?_, rfl⟩
  unfold create
  simp only [asked_kind h, Option.bind_some]
  rw [if_neg h.1.nonempty, find_none h.1 hn]
  simp only [Option.map_some, hq]
  rw [ask_none ha]

end

/-! ## Examples -/

/-- Url `mbs://h` of a port. -/
def exParts (o : Option Text) : Parts := ⟨some (lit "mbs"), lit "h", none, none, o⟩

theorem ex_ok (o : Option Text) : (exParts o).Ok := by
  refine ⟨by simp [exParts, Parts.text, lit], fun t ht => ?_, (fun h => by cases h), ?_,
    (fun t ht => by cases ht), (fun t ht => by cases ht)⟩
  · cases ht
    exact without_colon (by decide)
  · show ∀ b ∈ lit "h", _
    decide

def exPort : Port := ⟨true, false, lit "I", lit "M", (exParts none).text, [lit "a=1", lit ""], []⟩

def exWorld : World :=
  ⟨fun _ => none, fun _ => none, [fun _ => none, fun _ => some 3], true, true, true, false, false⟩

/-- Hypotheses of the theorems: the configured url gets the configured option. -/
theorem ex_asked : Asked [] exPort (exParts (some (lit "a=1"))) :=
  ⟨ex_ok _, .inr ⟨rfl, exParts none, [], [[lit "a=1"], []], ex_ok _, by simp, by simp [lit],
    rfl, rfl, rfl⟩⟩

theorem ex_nodevice : NoDevice exWorld (exParts (some (lit "a=1"))) :=
  ⟨rfl, .inl ⟨by decide, by decide⟩⟩

/-- The answer is true even if the port could not be connected with the transport. -/
theorem C122_unconnected_counterexample :
    create exWorld .balanced [] [] (some exPort) = some (.made 3 (lit "MInp") false false) ∧
      answer (.made 3 (lit "MInp") false false) = some true := by
  refine ⟨?_, rfl⟩
  unfold create
  simp only [asked_kind ex_asked, Option.bind_some]
  rw [if_neg (ex_ok _).nonempty, find_none (ex_ok _) ex_nodevice]
  rfl

example : NamesDevice ⟨some (lit "dev"), lit "D", none, some (lit "x"), none⟩ (lit "D/x") :=
  .path (.inl rfl) (by decide) rfl (by decide) (by decide) (by decide)

example : ∃ k u, transportKind [] (withOpts (exParts none) []).text ([[lit "a=1"], []].map joined)
    = some k ∧ setUrl k = some u ∧ getOption u (lit "a") (-1) = some (lit "1") :=
  C122_option_value (p := exParts none) (own := []) (os := [[lit "a=1"], []]) (ex_ok none)
    (ex_ok (some (lit "a=1"))) (by simp) (by simp [lit]) (a := []) (o := lit "a=1")
    (b := []) rfl
    (by
      intro x hx
      simp only [List.nil_append, List.mem_singleton] at hx
      subst hx
      exact ⟨.plain (by decide) (by decide) (by decide) (.plain (by decide) (by decide) (by decide)
        (.plain (by decide) (by decide) (by decide) .nil)), by decide⟩)
    (by decide) (by simp)
    (.inr ⟨lit "1", rfl, .inr ⟨rfl, by
      intro q c _ h
      have := congrArg List.length h
      simp [lit] at this⟩⟩)

end Verif.TransCmd
