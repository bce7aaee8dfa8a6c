import Verif.HttpServerLemmas
import Verif.Props.PublTree

/-!
# Theorems about the files which the web server opens (C89) and the items for which it asks who the client is (C90)
-/

namespace Verif.HttpServer
open Verif.Bytes Verif.Json Verif.Text Verif.Url Verif.FileName Verif.PublTree

/-- A name is accepted exactly when it is not empty and no directory on its way, with `/` and `\` separating, is outside. -/
theorem C89_verify (s : Str) : verify s = true ↔ s ≠ [] ∧ WayInside (bothNames s) := verify_iff s

/-- A name without backslash which is accepted, and does not end with the name `..`, stays inside.

Full statement: every accepted name stays inside.  Missing: names with a backslash (`C89_backslash_counterexample`) and a last name `..`
(`C89_last_counterexample`). -/
theorem C89_inside_partial {s : Str} (h : verify s = true) (hb : bslash ∉ s) (hl : (unixNames s).getLast? ≠ some [dot, dot]) :
    Inside (unixNames s) := by
  have := ((verify_iff s).1 h).2
  rw [both_unix hb] at this
  exact wayInside_last this hl

/-- No name which stays inside is refused. -/
theorem C89_complete {s : Str} (h : Inside (unixNames s)) (hb : bslash ∉ s) (h0 : s ≠ []) : verify s = true :=
  (verify_iff s).2 ⟨h0, by rw [both_unix hb]; exact fun k _ => h k⟩

/-- A file requested by its address lies under the directory of a location, when the prefixes of all locations end with a slash.

Full statement: for all locations and addresses.  Missing: backslashes, a last name `..`, and prefixes without slash at the end
(`C89_prefix_counterexample`). -/
theorem C89_file_partial {locs : List Loc} {uri f : Str} (ha : ∀ l ∈ locs, l.abs.getLast? = some slash) (hb : bslash ∉ uri)
    (hl : (unixNames uri).getLast? ≠ some [dot, dot]) (h : fileRequested locs uri = some f) :
    ∃ l ∈ locs, Under l.dir f := by
  obtain ⟨l, hm, a, w, e1, e2, e3, e4⟩ := fileRequested_some h
  have hl' := ha l hm
  obtain ⟨x, hx, hw⟩ := e4 (by intro h0; rw [h0] at hl'; cases hl')
  cases w with
  | nil => exact absurd rfl hw
  | cons c w =>
    rw [hx] at hl'
    simp at hl'
    subst hl'
    refine ⟨l, hm, w, e2, ?_⟩
    have hbw : bslash ∉ slash :: w := fun hc => hb (by rw [e1]; simp [hc])
    have h1 := ((verify_iff _).1 e3).2
    rw [both_unix hbw, wayInside_cons] at h1
    refine wayInside_last h1 ?_
    rw [e1, last_piece] at hl
    exact hl

/-- Files which are found from the item of an address: the two pages of the server, or the directory of a location followed by the
replacement and a way of which every directory passed is inside. -/
theorem C89_pages {s : Srv} {p : Publ} {uri f : Str} {items : List Str} (h : process s p uri items = .file f)
    (hu : ∀ path fname, uiKind p uri ≠ some (true, path, fname)) :
    f = s.jsroot ++ lit "/files/draw.htm" ∨ f = s.jsroot ++ lit "/files/online.htm" ∨
      ∃ l ∈ s.locs, ∃ w, f = l.dir ++ l.repl ++ w ∧ w ≠ [] ∧ WayInside (bothNames w) := by
  unfold process at h
  split at h
  · cases h
  · rename_i e; exact absurd e (hu _ _)
  split at h
  · cases h; exact .inl rfl
  split at h
  · cases h; exact .inr (.inl rfl)
  split at h
  · rename_i a ha
    subst h
    rcases prefixed_some ha with h1 | ⟨l, hl, w, _, _, h2, h3⟩
    · cases h1
    · cases h2
      exact .inr (.inr ⟨l, hl, w, rfl, (verify_iff w).1 h3⟩)
  · exfalso
    split at h
    · split at h <;> cases h
    · dsimp only at h
      split at h
      · cases h
      split at h
      · cases h
      split at h
      · cases h
      · cases h

/-- The handlers ask for a file first; what is delivered as a file is one of the above. -/
theorem C89_handle {s : Srv} {p : Publ} {known : Bool} {uri f : Str} {items : List Str} (h : handle s p known uri items = .file f) :
    (∃ l ∈ s.locs, ∃ w, f = l.dir ++ w ∧ w ≠ [] ∧ WayInside (bothNames w)) ∨ process s p uri items = .file f := by
  unfold handle at h
  split at h
  · rename_i g hg
    cases h
    obtain ⟨l, hm, _, w, _, e2, e3, _⟩ := fileRequested_some hg
    exact .inl ⟨l, hm, w, e2, (verify_iff w).1 e3⟩
  · exact .inr h

/-- With the web server which is part of the program, every file requested by its address lies under the directory of a location, when the
prefixes of all locations end with a slash. -/
theorem C89_civetweb {locs : List Loc} {uri f : Str} (ha : ∀ l ∈ locs, l.abs.getLast? = some slash)
    (h : fileRequested locs (clean uri) = some f) : ∃ l ∈ locs, Under l.dir f := by
  obtain ⟨l, hm, a, w, e1, e2, _, e4⟩ := fileRequested_some h
  have hl' := ha l hm
  obtain ⟨x, hx, hw⟩ := e4 (by intro h0; rw [h0] at hl'; cases hl')
  cases w with
  | nil => exact absurd rfl hw
  | cons c w =>
    rw [hx] at hl'
    simp at hl'
    subst hl'
    exact ⟨l, hm, w, e2, inside_of_noUp (e1 ▸ clean_ok uri).after⟩

/-- With it, a file of a page of a user is the one of the configuration, or stays inside of the directory of the page. -/
theorem C89_civetweb_user {p : Publ} {uri path fname : Str} (h : uiKind p (clean uri) = some (true, path, fname)) :
    Inside (unixNames fname) ∨ ∃ item r, workItem p item = some r ∧ fname = r.cur.info.fileMain := by
  rcases uiKind_true h with ⟨x, hx⟩ | h
  · exact .inl (inside_of_noUp (hx ▸ clean_ok uri).after)
  · exact .inr h

/-- An address without double dots, double slashes and
backslashes is left as it is. -/
theorem C89_clean_same {uri : Str} (h1 : ∀ a b, uri ≠ a ++ dot :: dot :: b) (h2 : ∀ a b, uri ≠ a ++ slash :: slash :: b) (h3 : bslash ∉ uri) :
    clean uri = uri := by
  unfold clean
  rw [cleanLead_same h1, cleanLoop_same uri h1 h2 h3 false (by simp)]

/-- Two locations as the server adds them, plugins/http/src/Server.cxx:60-100. -/
def exLocs : List Loc := [⟨lit "/dabc/plugins/http", lit "httpsys/", lit "dabc_", lit "/files/"⟩, ⟨lit "/data/pub", lit "docs/", [], []⟩]

example : fileRequested exLocs (lit "/x/docs/a/../b.txt") = some (lit "/data/pub/a/../b.txt") ∧
    (unixNames (lit "/x/docs/a/../b.txt")).getLast? ≠ some [dot, dot] ∧ bslash ∉ lit "/x/docs/a/../b.txt" ∧
    (∀ l ∈ exLocs, l.abs.getLast? = some slash) ∧ fileRequested exLocs (lit "/docs/../b.txt") = none := by decide +kernel
example : process ⟨exLocs, lit "/js", -1⟩ exPubl (lit "/A/dabc_x.js") [] = .file (lit "/dabc/plugins/http/files/x.js") := by decide +kernel
example : handle ⟨exLocs, lit "/js", -1⟩ exPubl false (lit "/A/B/draw.htm") [] = .file (lit "/js/files/draw.htm") := by decide +kernel
example : fileRequested exLocs (clean (lit "/x//docs/../../a.txt")) = some (lit "/data/pub/a.txt") := by decide +kernel
example : Inside (unixNames (lit "/a/../b.txt")) := C89_inside_partial (by decide +kernel) (by decide) (by decide)

/-- A last name `..` is not looked at: the directory above that of the location is asked for. -/
theorem C89_last_counterexample : ∃ (locs : List Loc) (uri f : Str), (∀ l ∈ locs, l.abs.getLast? = some slash) ∧ bslash ∉ uri ∧
    fileRequested locs uri = some f ∧ ∀ l ∈ locs, f = l.dir ++ lit "/.." ∧ ¬ Inside (unixNames (lit "..")) := by
  refine ⟨[⟨lit "/data/pub", lit "docs/", [], []⟩], lit "/docs/..", lit "/data/pub/..", by decide, by decide, by decide +kernel, ?_⟩
  intro l hl
  simp at hl
  subst hl
  exact ⟨by decide, fun h => absurd (h 1) (by decide)⟩

/-- A backslash is taken as a separator, which the operating system does not do: with it one gets out of the directory, as far as one
likes. -/
theorem C89_backslash_counterexample (n : Nat) : ∃ uri w : Str,
    fileRequested [⟨lit "/data/pub", lit "docs/", [], []⟩] uri = some (lit "/data/pub/" ++ w) ∧ depth (unixNames w) = - (n : Int) ∧
      (unixNames w).getLast? = some (lit "passwd") := by
  refine ⟨lit "/docs/" ++ evil (n + 2), evil (n + 2), ?_, ?_, ?_⟩
  · exact evil_file (n + 2)
  · rw [evil_unix]
    rw [depth_cons, depth_append, depth_ups]
    have h1 : (evilHead (n + 2)) ≠ [] ∧ evilHead (n + 2) ≠ [dot] ∧ evilHead (n + 2) ≠ [dot, dot] := evilHead_ne (n + 2)
    rw [if_neg (by simp [h1]), if_neg h1.2.2]
    have : depth [lit "passwd"] = 1 := by decide
    rw [this]
    push_cast
    omega
  · rw [evil_unix]
    rw [List.getLast?_cons, List.getLast?_append]
    rfl

/-- A location whose prefix does not end with a slash: a file next to its directory is delivered. -/
theorem C89_prefix_counterexample : ∃ (l : Loc) (uri f : Str), bslash ∉ uri ∧ (unixNames uri).getLast? ≠ some [dot, dot] ∧
    fileRequested [l] uri = some f ∧ ¬ Under l.dir f := by
  refine ⟨⟨lit "/data/pub", lit "docs", [], []⟩, lit "/docs/x", lit "/data/pubs/x", by decide, by decide, by decide +kernel, ?_⟩
  rintro ⟨w, h, _⟩
  have h' := congrArg (fun x => x[9]?) h
  have : (lit "/data/pub" ++ slash :: w)[9]? = some slash := by
    rw [List.getElem?_append_right (by decide)]; rfl
  dsimp only at h'
  rw [this] at h'
  exact absurd h' (by decide)

/-- Pages of users: the result of the check is not looked at, every file of the computer is delivered. -/
theorem C89_user_counterexample : ∃ (s : Srv) (p : Publ) (uri f w : Str), bslash ∉ uri ∧ (∀ l ∈ s.locs, l.abs.getLast? = some slash) ∧
    handle s p false uri [] = .file f ∧ uiKind p uri = some (true, lit "/data/ui/", w) ∧ f = lit "/data/ui/" ++ w ∧ verify w = false ∧ ¬ Inside (unixNames w) := by
  refine ⟨⟨exLocs, lit "/js", -1⟩, ⟨.node { name := lit "T" } [.node { name := lit "U", kind := lit "DABC.HTML", filePath := lit "/data/ui/" } []], none, []⟩,
    lit "/U/img/../../../etc/passwd", lit "/data/ui/img/../../../etc/passwd", lit "img/../../../etc/passwd", by decide, by decide +kernel, by decide +kernel, by decide +kernel, by decide +kernel, by decide +kernel, ?_⟩
  exact fun h => absurd (h 3) (by decide)

/-! ## Who asks -/

/-- For files only the default counts; with a negative default nobody is asked at all. -/
theorem C90_file {s : Srv} {p : Publ} {uri : Str} (h : s.defaultAuth < 0 ∨ fileRequested s.locs uri ≠ none) :
    authRequired s p uri = true ↔ 0 < s.defaultAuth := by
  unfold authRequired
  by_cases hd : s.defaultAuth < 0
  · rw [if_pos hd]
    simp
    omega
  · rw [if_neg hd, if_pos (by rcases h with h | h; exact absurd h hd; exact Option.isSome_iff_ne_none.2 h)]
    simp

/-- Whether the client has to tell who it is depends on the item asked for: on the deepest item on the way to it which says something, and
on the default when none does. -/
theorem C90_auth {s : Srv} {p : Publ} {ns : List Str} {r : Ref} {f uri : Str} (hd : 0 ≤ s.defaultAuth) (hn : ∀ n ∈ ns, Plain n)
    (hf : slash ∉ f) (hu : uri = slash :: join ns ++ slash :: f) (hi : item p.top ns = some r) (hq : fileRequested s.locs uri = none) :
    authRequired s p uri = true ↔
      (∃ j, NearestAuth p.top ns j true) ∨
      (0 < s.defaultAuth ∧ ∀ k, k ≤ ns.length → ∃ x, item p.top (ns.take k) = some x ∧ x.cur.info.auth = none) := by
  have hc : comps (extract uri).1 = ns := by
    rw [hu, extract_comps _ _ hf, comps_slash, comps_join fun n hn' => ⟨(hn n hn').1, (hn n hn').2.1⟩]
  have hw : workItem p (extract uri).1 = some r := by rw [workItem_eq, hc, walk_plain hn]; exact hi
  have huniq : ∀ {j k : Nat} {a b : Bool}, NearestAuth p.top ns j a → NearestAuth p.top ns k b → a = b := by
    rintro j k a b ⟨h1, ⟨x, h2, h2'⟩, h3⟩ ⟨g1, ⟨y, g2, g2'⟩, g3⟩
    rcases Nat.lt_trichotomy j k with hlt | he | hlt
    · obtain ⟨z, hz, hz'⟩ := h3 k hlt g1
      rw [g2] at hz; cases hz; rw [g2'] at hz'; cases hz'
    · subst he; rw [h2] at g2; cases g2; rw [h2'] at g2'; cases g2'; rfl
    · obtain ⟨z, hz, hz'⟩ := g3 j hlt h1
      rw [h2] at hz; cases hz; rw [h2'] at hz'; cases hz'
  unfold authRequired
  rw [if_neg (by omega), hq]
  simp only [Option.isSome_none, Bool.false_eq_true, if_false]
  rcases auth_nearest p.top ns r hi with ⟨h1, h2⟩ | ⟨j, a, h1, h2⟩
  · have hv : needAuth p (extract uri).1 = -1 := by unfold needAuth; rw [hw]; dsimp only; rw [h1]
    rw [hv]
    rw [if_pos (by omega)]
    simp only [decide_eq_true_eq]
    refine ⟨fun h => .inr ⟨h, h2⟩, fun h => ?_⟩
    rcases h with ⟨j, g1, ⟨x, g2, g3⟩, _⟩ | h
    · obtain ⟨y, hy, hy'⟩ := h2 j g1
      rw [hy] at g2; cases g2; rw [hy'] at g3; cases g3
    · exact h.1
  · have hno : ¬ ∀ k, k ≤ ns.length → ∃ x, item p.top (ns.take k) = some x ∧ x.cur.info.auth = none := by
      intro hall
      obtain ⟨g1, ⟨x, g2, g3⟩, _⟩ := h1
      obtain ⟨y, hy, hy'⟩ := hall j g1
      rw [hy] at g2; cases g2; rw [hy'] at g3; cases g3
    cases a with
    | true =>
      have hv : needAuth p (extract uri).1 = 1 := by unfold needAuth; rw [hw]; dsimp only; rw [h2]
      rw [hv]
      rw [if_neg (by omega)]
      exact ⟨fun _ => .inl ⟨j, h1⟩, fun _ => (by decide)⟩
    | false =>
      have hv : needAuth p (extract uri).1 = 0 := by unfold needAuth; rw [hw]; dsimp only; rw [h2]
      rw [hv]
      rw [if_neg (by omega)]
      refine ⟨fun h => (by simp at h), fun h => ?_⟩
      rcases h with ⟨k, hk⟩ | h
      · exact absurd (huniq h1 hk) (by decide)
      · exact absurd h.2 hno

/-- The item for which this is decided is the one which is executed, listed or read.

Full statement: for every request.  Missing: requests for several items, whose items are not looked at (`C90_multi_counterexample`), and
names of data which end with a slash. -/
theorem C90_same_item_partial {s : Srv} {p : Publ} {uri path : Str} {items : List Str} {xml : Bool} {kind : Str} (hs : uri.getLast? ≠ some slash)
    (h : process s p uri items = .execute path ∨ process s p uri items = .names path xml ∨ process s p uri items = .binary path kind) :
    needAuth p (extract uri).1 = needAuth p path ∧ workItem p (extract uri).1 = workItem p path := by
  have hk : ∃ fname, uiKind p uri = some (false, path, fname) ∧ fname ≠ [] := by
    have hb : ∃ b path fname, uiKind p uri = some (b, path, fname) := by
      unfold process at h
      split at h
      · simp at h
      · rename_i e; exact ⟨_, _, _, e⟩
      · rename_i e; exact ⟨_, _, _, e⟩
    obtain ⟨b, q, fname, hb⟩ := hb
    unfold process at h
    rw [hb] at h
    cases b with
    | true => simp at h
    | false =>
      refine ⟨fname, ?_⟩
      dsimp only at h
      by_cases h1 : fname = lit "draw.htm"
      · rw [if_pos h1] at h; simp at h
      rw [if_neg h1] at h
      by_cases h2 : fname = [] ∨ fname = lit "main.htm" ∨ fname = lit "index.htm"
      · rw [if_pos h2] at h; simp at h
      rw [if_neg h2] at h
      refine ⟨?_, fun hc => h2 (.inl hc)⟩
      have hq : q = path := by
        cases hp : prefixed s.locs fname with
        | some a =>
          rw [hp] at h
          rcases prefixed_some hp with rfl | ⟨l, _, w, _, _, rfl, _⟩ <;> simp at h
        | none =>
          rw [hp] at h
          dsimp only at h
          by_cases h3 : fname = lit "execute"
          · rw [if_pos h3] at h
            by_cases h4 : q = []
            · rw [if_pos h4] at h; simp at h
            · rw [if_neg h4] at h; simpa using h
          rw [if_neg h3] at h
          generalize unzipName fname = g at h
          by_cases h4 : g = lit "h.xml"
          · rw [if_pos h4] at h; simp at h; exact h.1
          rw [if_neg h4] at h
          by_cases h5 : g = lit "h.json"
          · rw [if_pos h5] at h; simp at h; exact h.1
          rw [if_neg h5] at h
          by_cases h6 : g = lit "multiget.json"
          · rw [if_pos h6] at h; simp at h
          rw [if_neg h6] at h; simp at h; exact h.1
      rw [hb, hq]
  have hc : comps (extract uri).1 = comps path := by
    obtain ⟨fname, hk, h0⟩ := hk
    exact same_item hk h0 (uiKind_slash hk h0 hs)
  have hw : workItem p (extract uri).1 = workItem p path := by rw [workItem_eq, workItem_eq, hc]
  exact ⟨by unfold needAuth; rw [hw], hw⟩

/-- Server with authentication where items ask for it. -/
def exSrv : Srv := ⟨exLocs, lit "/js", 0⟩

example : authRequired exSrv exPubl (lit "/A/B/Cmd/execute") = true ∧ authRequired exSrv exPubl (lit "/A/B/execute") = false ∧
    fileRequested exLocs (lit "/A/B/Cmd/execute") = none ∧ (item exPubl.top [lit "A", lit "B", lit "Cmd"]).isSome := by decide +kernel
example : authRequired { exSrv with defaultAuth := 1 } exPubl (lit "/x/docs/a/../b.txt") = true ∧ authRequired exSrv exPubl (lit "/x/docs/a/../b.txt") = false :=
  ⟨(C90_file (.inr (by decide +kernel))).2 (by decide), by
    have : ¬ authRequired exSrv exPubl (lit "/x/docs/a/../b.txt") = true := fun h => absurd ((C90_file (.inr (by decide +kernel))).1 h) (by decide)
    simpa using this⟩
example : process exSrv exPubl (lit "/A/B/Cmd/execute") [] = .execute (lit "/A/B/Cmd/") := by decide +kernel
example : process exSrv exPubl (lit "/A/B/Cmd/get.json.gz") [] = .binary (lit "/A/B/Cmd/") (lit "get.json") := by decide +kernel
example : needAuth exPubl (extract (lit "/A/B/Cmd/execute")).1 = needAuth exPubl (lit "/A/B/Cmd/") :=
  (C90_same_item_partial (s := exSrv) (items := []) (xml := true) (kind := []) (by decide) (.inl (by decide +kernel))).1

/-- The handlers of both web servers never ask: a command is executed for everybody, although its item asks for authentication. -/
theorem C90_ignored_counterexample : ∃ (s : Srv) (p : Publ) (uri path : Str), authRequired s p uri = true ∧
    handle s p false uri [] = .execute path ∧ needAuth p path = 1 :=
  ⟨exSrv, exPubl, lit "/A/B/Cmd/execute", lit "/A/B/Cmd/", by decide +kernel, by decide +kernel, by decide +kernel⟩

/-- An item which is not in the tree, but belongs to a worker and lies below an item which asks for authentication, is delivered without. -/
theorem C90_below_counterexample : ∃ (m : Mgr) (s : Srv) (p : Publ) (uri path w item : Str) (h : Nat) (up : Str) (kind : Str),
    authRequired s p uri = false ∧ process s p uri [] = .binary path kind ∧ redirect m p false path = some (.worker w h item) ∧
      up <+: path ∧ needAuth p up = 1 :=
  ⟨exMgr, exSrv, exPubl, lit "/A/B/Cmd/Sub/get.json", lit "/A/B/Cmd/Sub", lit "/Mod2", lit "Cmd/Sub", 11, lit "/A/B/Cmd", lit "get.json",
    by decide +kernel, by decide +kernel, by decide +kernel, by decide +kernel, by decide +kernel⟩

/-- A request for several items is judged by the item in its address, not by the items which it asks for. -/
theorem C90_multi_counterexample : ∃ (s : Srv) (p : Publ) (uri : Str) (items : List Str) (i : Str),
    authRequired s p uri = false ∧ process s p uri items = .multi [i] ∧ needAuth p i = 1 :=
  ⟨exSrv, exPubl, lit "/multiget.json", [lit "A/B/Cmd"], lit "/A/B/Cmd", by decide +kernel, by decide +kernel, by decide +kernel⟩

end Verif.HttpServer
