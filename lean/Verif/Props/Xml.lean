import Verif.XmlLemmas

/-!
# C68: XML documents survive saving and parsing
-/

namespace Verif.Xml

open Spec

/-- Bytes of a text. -/
def str (s : String) : Str := s.toList.map Char.toNat

/-- Every text of a document, with any blanks between its parts, is parsed to that document. -/
theorem C68_parse_partial (f : Forest) (s : Str) (h : Doc f s) : parse s = .ok f [] := by
  obtain ⟨hne, w, b, hw, hb, rfl⟩ := h
  exact top_nodes f b hb false w _ hne hw (Nat.lt_succ_self _)

/-- `<?xml version="1"?>`, then `<a b="<">x<c/></a>` -/
def sample : Forest :=
  .elem true (str "xml") [(str "version", str "1")] .nil
    (.elem false (str "a") [(str "b", str "<")] (.text (str "x") (.elem false (str "c") [] .nil .nil)) .nil)

instance (c : Nat) : Decidable (Letter c) := by unfold Letter; infer_instance
instance (c : Nat) : Decidable (NameChar c) := by unfold NameChar; infer_instance
instance : (n : Str) → Decidable (Name n)
  | [] => isFalse id
  | c :: r => inferInstanceAs (Decidable (Letter c ∧ ∀ x ∈ r, NameChar x))

theorem name_xml : Name (str "xml") ∧ Name (str "version") ∧ Name (str "a") ∧ Name (str "b") ∧ Name (str "c") := by
  decide

theorem sample_savable : Savable false true sample := by
  obtain ⟨h1, h2, h3, h4, h5⟩ := name_xml
  refine ⟨h1, ?_, fun _ => rfl, trivial, h3, ?_, fun h => absurd h Bool.false_ne_true, ⟨rfl, ?_, ?_, ?_⟩, trivial⟩
  · intro a ha
    simp only [List.mem_singleton] at ha
    subst ha
    exact ⟨h2, (isNs_iff _).1 (by decide), by decide⟩
  · intro a ha
    simp only [List.mem_singleton] at ha
    subst ha
    exact ⟨h4, (isNs_iff _).1 (by decide), by decide⟩
  · exact ⟨⟨_, _, rfl, by decide, by decide⟩, by decide, by decide, by decide⟩
  · intro h; cases h
  · exact ⟨h5, (by intro a ha; cases ha), fun _ => rfl, trivial, trivial⟩

/-- What is saved is a text of the document, with or without layout, and independent of the memory behind names. -/
theorem C68_save_partial (layout : Bool) (g : Str) (f : Forest) (hne : f ≠ .nil) (h : Savable layout false f) :
    Doc f (save layout g f) := by
  unfold save
  rw [norm_savable layout g f false h]
  obtain ⟨w, b, hw, _, hb, he⟩ := (save_nodes layout f).1 0 h
  exact ⟨hne, w, b, hw, hb, he⟩

example : Savable false false sample ∧ sample ≠ .nil := ⟨sample_savable, by simp [sample]⟩

example : save false [] sample = str "<?xml version=\"1\"?><a b=\"&lt;\">x<c/></a>" := by decide

/-- So it is read back. -/
theorem C68_roundtrip_partial (layout : Bool) (g : Str) (f : Forest) (hne : f ≠ .nil) (h : Savable layout false f) :
    parse (save layout g f) = .ok f [] :=
  C68_parse_partial f _ (C68_save_partial layout g f hne h)

/-- Every value of an attribute, and only the value, comes back. -/
theorem C68_value (v : Str) (h : 0 ∉ v) : unpack (outputValue v) = v ∧ 34 ∉ outputValue v ∧ 60 ∉ outputValue v :=
  have hc := outputValue_coded v h
  ⟨coded_unpack true v _ hc, coded_quot v _ hc, coded_lt true v _ hc⟩

example : 0 ∉ str "a<b>&'\"&lt;" := by decide

/-- The parser comes to an end for every text. -/
theorem C68_end (s : Str) : parse s ≠ .fuel := by
  intro h
  have := readTop_done (s.length + 1) false s (Nat.lt_succ_self _)
  rw [show readTop (s.length + 1) false s = .fuel from h] at this
  exact this

/-- A parsed document is not empty and has proper names; content comes before the other childs, processing
instructions have no childs, comments do not contain their end. -/
theorem C68_shape (s : Str) (f : Forest) (r : Str) (h : parse s = .ok f r) : f ≠ .nil ∧ Shape true f :=
  have := readTop_shape _ _ _ _ _ h
  ⟨this.2, this.1⟩

example : parse (str "<a><b x=\"1\"/></a>") = .ok (.elem false (str "a") [] (.elem false (str "b") [(str "x", str "1")] .nil .nil) .nil) [] := by
  decide

/-- A parsed document whose content needs no coding, saved and parsed again, is the same. -/
theorem C68_again_partial (s : Str) (f : Forest) (r g : Str) (h : parse s = .ok f r) (hs : Shape false f)
    (hc : Clean f) : parse (save false g f) = .ok f [] :=
  C68_roundtrip_partial false g f (C68_shape s f r h).1 (savable_clean f false hs hc)

example : ∃ f r, parse (str "<a>x</a>") = .ok f r ∧ f = .elem false (str "a") [] (.text (str "x") .nil) .nil ∧ Clean f :=
  ⟨_, [], by decide, rfl, by
    refine ⟨(by intro a ha; cases ha), ⟨⟨⟨_, _, rfl, by decide, by decide⟩, by decide, by decide, by decide⟩, trivial⟩, trivial⟩⟩

/-- Content is saved as it is: a document with coded content changes when it is saved and parsed again, and a
document with `<` in its content cannot be parsed any more. -/
theorem C68_content_counterexample :
    (∃ f f', parse (str "<a>&amp;lt;</a>") = .ok f [] ∧ parse (save false [] f) = .ok f' [] ∧ f ≠ f') ∧
    (∃ f, parse (str "<a>1&lt;2</a>") = .ok f [] ∧ parse (save false [] f) = .err 0) :=
  ⟨⟨.elem false (str "a") [] (.text (str "&lt;") .nil) .nil, .elem false (str "a") [] (.text (str "<") .nil) .nil,
    by decide, by decide, by decide⟩,
   ⟨.elem false (str "a") [] (.text (str "1<2") .nil) .nil, by decide, by decide⟩⟩

/-- With a layout, content followed by other childs grows by blanks. -/
theorem C68_layout_counterexample : ∃ f f', parse (str "<a>x<b/></a>") = .ok f [] ∧ parse (save true [] f) = .ok f' [] ∧
    f' ≠ f ∧ f' = .elem false (str "a") [] (.text (str "x\n  ") (.elem false (str "b") [] .nil .nil)) .nil :=
  ⟨.elem false (str "a") [] (.text (str "x") (.elem false (str "b") [] .nil .nil)) .nil,
   .elem false (str "a") [] (.text (str "x\n  ") (.elem false (str "b") [] .nil .nil)) .nil,
   by decide, by decide, by decide, rfl⟩

/-- The closing tag is compared only up to its own length: a beginning of the name closes the element. -/
theorem C68_close_counterexample :
    parse (str "<abc></a>") = .ok (.elem false (str "abc") [] .nil .nil) [] := by decide

/-- More general: any beginning of the name which is itself a name closes it. -/
theorem C68_close_prefix_counterexample (n m : Str) (hn : Name n) (hm : Name (n ++ m)) :
    parse ([60] ++ (n ++ m) ++ [62] ++ ([60, 47] ++ n ++ [62])) = .ok (.elem false (n ++ m) [] .nil .nil) [] := by
  have hh := head_long (some dummy) false [] (n ++ m) [] [] [] ([60, 47] ++ n ++ [62]) white_nil hm .nil white_nil
  simp only [List.nil_append, List.append_nil] at hh
  generalize hs : [60] ++ (n ++ m) ++ [62] ++ ([60, 47] ++ n ++ [62]) = s at *
  have hlen : s.length = (s.length - 1) + 1 := by rw [← hs]; simp
  unfold parse
  rw [hlen]
  unfold readTop
  rw [hh]
  dsimp only
  have hk : readKids (s.length - 1 + 1) (n ++ m) false ([60, 47] ++ n ++ [62]) = .ok .nil [] := by
    have he : [60, 47] ++ n ++ [62] = [] ++ 60 :: 47 :: (n ++ [62]) := by simp
    unfold readKids
    rw [he, head_lt _ _ [] 47 _ white_nil (by omega), if_pos rfl]
    unfold readClose
    rw [name_solid n _ hn, ident_name n 62 [] hn (by decide), if_neg (by simp)]
    dsimp only
    rw [if_pos (List.isPrefixOf_iff_prefix.2 (List.prefix_append n m))]
    rfl
  rw [hk]
  rfl

/-- An empty comment is a node with an empty name, so it is taken for content: what is saved is memory behind the
node. -/
theorem C68_empty_counterexample : ∃ f, parse (str "<a><!----></a>") = .ok f [] ∧
    ∀ g, save false g f = str "<a>" ++ g ++ str "</a>" := by
  refine ⟨.elem false (str "a") [] (.comment [] .nil) .nil, by decide, ?_⟩
  intro g
  show [60] ++ [] ++ str "a" ++ [] ++ ([62] ++ g ++ [60, 47] ++ str "a" ++ [62]) ++ [] ++ [] = _
  simp [str]

/-- Leading bytes from 128 on (letters outside of ASCII) are taken for blanks: `<a>äb</a>`. -/
theorem C68_signed_counterexample :
    parse (str "<a>" ++ [195, 164, 98] ++ str "</a>") = .ok (.elem false (str "a") [] (.text [98] .nil) .nil) [] := by
  decide

/-- Text after a child or a comment, single quotes and blanks around `=` are refused, although XML allows them. -/
theorem C68_refused_counterexample :
    parse (str "<a><b/>x</a>") = .err (-2) ∧ parse (str "<a><!--c-->x</a>") = .err (-2) ∧
    parse (str "<a b='1'/>") = .err (-7) ∧ parse (str "<a b = \"1\"/>") = .err (-7) := by decide

/-! ## The root element -/

/-- When the document begins with its declaration or a comment, the root is its first element. -/
theorem C68_root_partial (f e : Forest) (h : FirstElem f e)
    (hf : (∃ t n, f = .comment t n) ∨ ∃ n as k x, f = .elem true n as k x) : root f = some e := by
  have key : ∀ f e, FirstElem f e → nextElem f = some e := by
    intro f e h
    induction h with
    | here => rfl
    | text _ ih => exact ih
    | comment _ ih => exact ih
    | pi _ ih => exact ih
  rcases hf with ⟨t, n, rfl⟩ | ⟨n, as, k, x, rfl⟩
  · cases h with
    | comment h => exact key _ _ h
  · cases h with
    | pi h => exact key _ _ h

example : root sample = some (.elem false (str "a") [(str "b", str "<")]
    (.text (str "x") (.elem false (str "c") [] .nil .nil)) .nil) := by decide

/-- Without a declaration the first node is passed over, so that a document which is just an element has no root. -/
theorem C68_root_counterexample (n : Str) (as : List (Str × Str)) (k : Forest) :
    root (.elem false n as k .nil) = none := rfl

end Verif.Xml
