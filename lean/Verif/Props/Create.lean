import Verif.CreateLemmas
import Verif.Props.CmdDef
/-!
# C120: the manager creates modules, devices and threads as asked

`Reached fs lay ops s` says that a process with the factories `fs` and the thread layout `lay`
is in state `s` after any sequence of commands, with objects and threads disappearing at any
time in between.
-/

namespace Verif.Create

/-- Factories used in examples: the ones of the library and one for modules and devices. -/
def exStd : Factory :=
  ⟨0, fun _ => none, fun _ => none,
    fun c => if c = [] ∨ c = typeThread then some typeThread else none⟩

def exSock : Factory :=
  ⟨1, fun _ => none, fun _ => none,
    fun c => if c = typeSocketThread then some typeSocketThread else none⟩

def exUser : Factory :=
  ⟨2, fun c => if c = ['M'] then some (['M'], []) else none,
    fun c => if c = ['D'] then some (['D'], typeSocketThread) else none, fun _ => none⟩

def exFs : List Factory := [exStd, exSock, exUser]

theorem exFs_honest : ThreadsHonest exFs := by
  intro f hf cl c h hne
  simp only [exFs, List.mem_cons, List.not_mem_nil, or_false] at hf
  rcases hf with rfl | rfl | rfl
  · simp only [exStd] at h
    split at h
    · rename_i h1
      rcases h1 with h1 | h1
      · exact absurd h1 hne
      · cases h; exact h1.symm
    · cases h
  · simp only [exSock] at h
    split at h
    · rename_i h1; cases h; exact h1.symm
    · cases h
  · simp only [exUser] at h; cases h

/-! ## Factories -/

/-- Up to ten factories made before the manager are asked after the two of the library and
before all later ones, each in the order of creation.  With more than ten this does not hold
(`C120_factories_lost_counterexample`). -/
theorem C120_factories_asked_partial (early late : List Nat) (std sock : Nat)
    (h : early.length ≤ 10) :
    (register early late std sock).folder = [std, sock] ++ early ++ late := by
  rw [folder_eq, List.take_of_length_le h]

example : (register [5, 6] [7] 0 1).folder = [0, 1, 5, 6, 7] :=
  C120_factories_asked_partial [5, 6] [7] 0 1 (by decide)

/-- Every further factory made before the manager is never asked. -/
theorem C120_factories_lost_counterexample (early more late : List Nat) (std sock x : Nat)
    (h : early.length = 10) (hx : x ∈ more)
    (hn : x ∉ early ∧ x ∉ late ∧ x ≠ std ∧ x ≠ sock) :
    x ∉ (register (early ++ more) late std sock).folder := by
  have _ := hx
  rw [folder_eq, List.take_append_of_le_length (by omega), List.take_of_length_le (by omega)]
  simp only [List.mem_append, List.mem_cons, List.not_mem_nil, or_false, not_or]
  exact ⟨⟨⟨hn.2.2.1, hn.2.2.2⟩, hn.1⟩, hn.2.1⟩

example : 12 ∉ (register ([2, 3, 4, 5, 6, 7, 8, 9, 10, 11] ++ [12]) [13] 0 1).folder :=
  C120_factories_lost_counterexample _ _ _ 0 1 12 rfl (by decide) (by decide)

/-! ## Modules -/

theorem first_unique {α : Type} {f : Factory → Option α} {fs : List Factory} {a b : α}
    (ha : MadeByFirst f fs a) (hb : MadeByFirst f fs b) : a = b := by
  rw [← ask_some] at ha hb
  rw [ha] at hb
  exact Option.some.inj hb

theorem first_known {α : Type} {f : Factory → Option α} {fs : List Factory} {a : α}
    (ha : MadeByFirst f fs a) : ¬ Unknown f fs := by
  intro h
  rw [← ask_some] at ha
  rw [← ask_none] at h
  rw [h] at ha
  cases ha

theorem findKind_absent {s : St} {k : Kind} {n : Name} (h : ∀ o ∈ s.objs, o.name ≠ n) :
    findKind s k n = none := by
  unfold findKind findItem
  split
  · rename_i o ho
    split at ho
    · cases ho
    · have h1 := List.mem_of_find?_eq_some ho
      have h2 : o.name = n := by simpa using List.find?_some ho
      exact absurd h2 (h o h1)
  · rfl

/-- A module with a new name is made by the first factory which knows the class; the command
fails exactly if none knows it, and then nothing changes. -/
theorem C120_module_by_first_factory (fs : List Factory) (lay : Layout) (s s1 : St)
    (cls n cfg : Name) (b r : Bool) (hn : ∀ o ∈ s.objs, o.name ≠ n)
    (h : createModule fs lay s cls n cfg b = .ret s1 r) :
    (r = true → ∃ c req t, MadeByFirst (fun f => f.module cls) fs (c, req)
        ∧ s1.objs = s.objs ++ [⟨.module, n, c, req, t⟩])
    ∧ (r = false → Unknown (fun f => f.module cls) fs ∧ s1 = s) := by
  rcases createModule_ret h with ⟨h1, -⟩ | ⟨-, h1, h2, h3⟩ | ⟨-, h3, c, req, h1, h2⟩
  · rw [findKind_absent hn] at h1; cases h1
  · exact ⟨(fun e => by rw [h3] at e; cases e), fun _ => ⟨h1, h2⟩⟩
  · obtain ⟨t, h4, -⟩ := addObj_ret h2
    exact ⟨fun _ => ⟨c, req, t, h1, h4⟩, (fun e => by rw [h3] at e; cases e)⟩

/-- Every name being used for one kind of objects only, `CreateModule` gives the only object
with this name, and gives nothing only if there is none and no factory knows the class. -/
theorem C120_module_found_partial (fs : List Factory) (lay : Layout) (ops : List Op)
    (k : Name → Kind) (s s1 : St) (cls n cfg : Name) (b : Bool) (r : Option Obj)
    (hs : Reached fs lay ops s) (hk : OneKind k ops) (hn : n ≠ []) (hm : k n = .module)
    (h : refCreateModule fs lay s cls n cfg b = .ret s1 r) :
    (∀ o, r = some o → o ∈ s1.objs ∧ o.kind = .module ∧ o.name = n ∧ numNamed s1 n = 1)
    ∧ (r = none → Unknown (fun f => f.module cls) fs ∧ s1 = s ∧ ∀ o ∈ s.objs, o.name ≠ n) := by
  have hi := reached_kinv hs hk
  unfold refCreateModule at h
  cases e : createModule fs lay s cls n cfg b with
  | exit => rw [e] at h; cases h
  | ret s2 q =>
    rw [e] at h
    have found : ∀ s2 : St, KInv k s2 → (∃ o ∈ s2.objs, o.name = n) →
        ∃ o, findKind s2 .module n = some o ∧ o ∈ s2.objs ∧ o.kind = .module ∧ o.name = n
          ∧ numNamed s2 n = 1 := by
      intro s2 hi2 ⟨o, ho, hon⟩
      cases ef : findKind s2 .module n with
      | none => exact absurd hon (findKind_none hi2 hn (by rw [hm]; exact ef) o ho)
      | some x =>
        refine ⟨x, rfl, ?_⟩
        unfold findKind findItem at ef
        rw [if_neg hn] at ef
        split at ef
        · rename_i y hy
          split at ef
          · rename_i hyk
            cases ef
            have hy2 : x.name = n := by simpa using List.find?_some hy
            refine ⟨List.mem_of_find?_eq_some hy, hyk, hy2, ?_⟩
            have h1 := hi2.once n (by rw [hm]; decide)
            have h2 : 0 < numNamed s2 n :=
              List.countP_pos_iff.mpr ⟨x, List.mem_of_find?_eq_some hy, by simp [hy2]⟩
            omega
          · cases ef
        · cases ef
    rcases createModule_ret e with ⟨h1, h2, h3⟩ | ⟨h0, h1, h2, h3⟩ | ⟨h0, h3, c, req, h1, h2⟩
    · subst h3 h2
      simp only [Res.ret.injEq] at h
      obtain ⟨rfl, rfl⟩ := h
      obtain ⟨o, ho⟩ := Option.isSome_iff_exists.mp h1
      have : ∃ o ∈ s2.objs, o.name = n := by
        by_contra hc
        rw [findKind_absent (fun o ho hon => hc ⟨o, ho, hon⟩)] at h1
        cases h1
      obtain ⟨x, hx, h4⟩ := found s2 hi this
      rw [hx]
      exact ⟨(fun o ho => by cases ho; exact h4), (fun e => by cases e)⟩
    · subst h3 h2
      simp only [Res.ret.injEq] at h
      obtain ⟨rfl, rfl⟩ := h
      exact ⟨(fun o ho => by cases ho), fun _ => ⟨h1, rfl,
        findKind_none hi hn (by rw [hm]; exact h0)⟩⟩
    · subst h3
      simp only [Res.ret.injEq] at h
      obtain ⟨rfl, rfl⟩ := h
      obtain ⟨t, h4, -⟩ := addObj_ret h2
      have hi2 : KInv k s2 := kinv_add hi _ s2 h4 hm.symm hn (.inr h0)
      obtain ⟨x, hx, h5⟩ := found s2 hi2 ⟨⟨.module, n, c, req, t⟩, by rw [h4]; simp, rfl⟩
      rw [hx]
      exact ⟨(fun o ho => by cases ho; exact h5), (fun e => by cases e)⟩

/-- When the name belongs to an object which is not a module, the module is created with the
same name but can neither be got nor deleted under this name. -/
theorem C120_same_name_counterexample (fs : List Factory) (lay : Layout) (s s1 : St)
    (cls n cfg : Name) (b : Bool) (p : Name × Name) (x : Obj) (rest pre : List Obj)
    (r : Option Obj) (hn : n ≠ []) (hpre : ∀ o ∈ pre, o.name ≠ n)
    (hs : s.objs = pre ++ x :: rest) (hx : x.name = n) (hk : x.kind ≠ .module)
    (hf : MadeByFirst (fun f => f.module cls) fs p)
    (h : refCreateModule fs lay s cls n cfg b = .ret s1 r) :
    r = none ∧ numNamed s1 n = numNamed s n + 1 ∧ deleteItem s1 .module n = false := by
  have key : ∀ (s : St) rest, s.objs = pre ++ x :: rest → findKind s .module n = none := by
    intro s rest hs
    unfold findKind findItem
    rw [if_neg hn, hs, List.find?_append]
    have h1 : pre.find? (fun o => o.name == n) = none := by
      rw [List.find?_eq_none]
      intro o ho
      simpa using hpre o ho
    rw [h1]
    simp [hx, hk]
  unfold refCreateModule at h
  cases e : createModule fs lay s cls n cfg b with
  | exit => rw [e] at h; cases h
  | ret s2 q =>
    rw [e] at h
    rcases createModule_ret e with ⟨h1, -⟩ | ⟨-, h1, -⟩ | ⟨-, h3, c, req, -, h2⟩
    · rw [key s rest hs] at h1; cases h1
    · exact absurd h1 (first_known hf)
    · subst h3
      simp only [Res.ret.injEq] at h
      obtain ⟨rfl, rfl⟩ := h
      obtain ⟨t, h4, -⟩ := addObj_ret h2
      have h5 := key s2 (rest ++ [⟨.module, n, c, req, t⟩]) (by rw [h4, hs]; simp)
      refine ⟨h5, ?_, by unfold deleteItem; rw [h5]; rfl⟩
      have := numNamed_append s _ s2.objs n h4
      simpa [numNamed] using this

/-- A module with this name which exists already is taken for the one asked for, whatever its
class is. -/
theorem C120_other_class_counterexample (fs : List Factory) (lay : Layout) (s : St)
    (cls n cfg : Name) (b : Bool) (x : Obj) (rest pre : List Obj)
    (hn : n ≠ []) (hpre : ∀ o ∈ pre, o.name ≠ n)
    (hs : s.objs = pre ++ x :: rest) (hx : x.name = n) (hk : x.kind = .module) :
    createModule fs lay s cls n cfg b = .ret s true
    ∧ refCreateModule fs lay s cls n cfg b = .ret s (some x) := by
  have key : findKind s .module n = some x := by
    unfold findKind findItem
    rw [if_neg hn, hs, List.find?_append]
    have h1 : pre.find? (fun o => o.name == n) = none := by
      rw [List.find?_eq_none]
      intro o ho
      simpa using hpre o ho
    rw [h1]
    simp [hx, hk]
  have h1 : createModule fs lay s cls n cfg b = .ret s true := by
    unfold createModule
    rw [key]
  refine ⟨h1, ?_⟩
  unfold refCreateModule
  rw [h1]
  show Res.ret s (findKind s .module n) = _
  rw [key]

example : createModule exFs .other ⟨[⟨.module, ['a'], ['M'], [], none⟩], [], []⟩ ['X'] ['a'] []
    true = .ret ⟨[⟨.module, ['a'], ['M'], [], none⟩], [], []⟩ true :=
  (C120_other_class_counterexample exFs .other _ ['X'] ['a'] [] true
    ⟨.module, ['a'], ['M'], [], none⟩ [] [] (by decide) (fun _ h => by cases h) rfl rfl rfl).1

/-! ## Devices -/

/-- Every name being used for one kind of objects only and factories making devices of the
class asked for, the command succeeds exactly if afterwards there is a device of this name and
class.  It is the only object with the name and is remembered as last created device. -/
theorem C120_device_partial (fs : List Factory) (lay : Layout) (ops : List Op)
    (k : Name → Kind) (s s1 : St) (cls name cfg n : Name) (b r : Bool)
    (hs : Reached fs lay ops s) (hk : OneKind k ops)
    (hd : n = if name = [] then cls else name) (hn : n ≠ []) (hm : k n = .device)
    (hfs : ∀ f ∈ fs, ∀ c p, f.device c = some p → p.1 = c)
    (h : createDevice fs lay s cls name cfg b = .ret s1 r) :
    (r = true → (∃ o ∈ s1.objs, o.kind = .device ∧ o.name = n ∧ o.cls = cls)
        ∧ numNamed s1 n = 1 ∧ s1.lastDev = n)
    ∧ (r = false → s1.objs = s.objs ∧ s1.thrds = s.thrds ∧ s1.lastDev = s.lastDev
        ∧ ¬ ∃ o ∈ s1.objs, o.name = n ∧ o.cls = cls) := by
  have hi := reached_kinv hs hk
  have hdn : deviceName cls name = n := hd.symm
  have one : ∀ s2 : St, KInv k s2 → ∀ o ∈ s2.objs, o.name = n → numNamed s2 n = 1 := by
    intro s2 hi2 o ho hon
    have h1 := hi2.once n (by rw [hm]; decide)
    have h2 : 0 < numNamed s2 n := List.countP_pos_iff.mpr ⟨o, ho, by simp [hon]⟩
    omega
  rcases createDevice_ret h with ⟨o, h1, h2, h3, h4, h5⟩ | ⟨h1, h2, h3, h4⟩ |
    ⟨h1, h2, c, req, s2, h3, h4, h5, h6, h7⟩
  · rw [hdn] at h1 h5
    have ho : o ∈ s.objs ∧ o.kind = .device ∧ o.name = n := by
      unfold findKind findItem at h1
      rw [if_neg hn] at h1
      split at h1
      · rename_i y hy
        split at h1
        · rename_i hyk
          cases h1
          exact ⟨List.mem_of_find?_eq_some hy, hyk, by simpa using List.find?_some hy⟩
        · cases h1
      · cases h1
    have hc := one s hi o ho.1 ho.2.2
    constructor
    · intro hr
      have hcls := h4.mp hr
      refine ⟨⟨o, by rw [h2]; exact ho.1, ho.2.1, ho.2.2, hcls.symm⟩, ?_, ?_⟩
      · unfold numNamed at hc ⊢; rw [h2]; exact hc
      · rw [h5, if_pos ⟨hcls, hn⟩]
    · intro hr
      have hcls : cls ≠ o.cls := fun e => by rw [h4.mpr e] at hr; cases hr
      refine ⟨h2, h3, by rw [h5, if_neg (fun e => hcls e.1)], ?_⟩
      rintro ⟨y, hy, hyn, hyc⟩
      rw [h2] at hy
      by_cases e : y = o
      · subst e; exact hcls hyc.symm
      · have h6 : 2 ≤ numNamed s n := by
          unfold numNamed
          obtain ⟨a, l, hl⟩ := List.append_of_mem ho.1
          rw [hl, List.countP_append, List.countP_cons]
          rw [hl] at hy
          have h7 : 0 < a.countP (fun o => o.name == n) + l.countP (fun o => o.name == n) := by
            rcases List.mem_append.mp hy with hy | hy
            · have := (List.countP_pos_iff (p := fun o : Obj => o.name == n)).mpr
                    ⟨y, hy, by simp [hyn]⟩
              omega
            · rcases List.mem_cons.mp hy with hy | hy
              · exact absurd hy e
              · have := (List.countP_pos_iff (p := fun o : Obj => o.name == n)).mpr
                    ⟨y, hy, by simp [hyn]⟩
                omega
          simp [ho.2.2]
          omega
        omega
  · subst h3 h4
    rw [hdn] at h1
    refine ⟨(fun e => by cases e), fun _ => ⟨rfl, rfl, rfl, ?_⟩⟩
    rintro ⟨y, hy, hyn, -⟩
    exact findKind_none hi hn (by rw [hm]; exact h1) y hy hyn
  · subst h2
    rw [hdn] at h1 h4 h7
    obtain ⟨t, h8, -⟩ := addObj_ret h4
    have hc : c = cls := by
      obtain ⟨pre, f, post, e1, -, e2⟩ := h3
      exact hfs f (by rw [e1]; simp) cls (c, req) e2
    have h9 : s1.objs = s.objs ++ [⟨.device, n, c, req, t⟩] := by rw [h5, h8]
    have hi2 : KInv k s1 := kinv_add hi _ s1 h9 hm.symm hn (.inr h1)
    have hin : (⟨.device, n, c, req, t⟩ : Obj) ∈ s1.objs := by rw [h9]; simp
    refine ⟨fun _ => ⟨⟨_, hin, rfl, rfl, hc⟩, one s1 hi2 _ hin rfl, ?_⟩, (fun e => by cases e)⟩
    rw [h7, if_pos hn]

/-! ## Threads -/

/-- At any time no two threads have the same name. -/
theorem C120_threads_distinct (fs : List Factory) (lay : Layout) (ops : List Op) (s : St)
    (h : Reached fs lay ops s) : (s.thrds.map Thrd.name).Nodup := reached_nodup h

/-- The thread given back exists, can serve the class and has one of the expected names; other
threads are left alone. If none is given back nothing has changed, and there was a reason. -/
theorem C120_thread_compatible (fs : List Factory) (s s1 : St) (n cl : Name) (b : Bool)
    (r : Option Thrd) (hfs : ThreadsHonest fs) (h : refCreateThread fs s n cl b = .ret s1 r) :
    s1.objs = s.objs ∧ (∀ t ∈ s.thrds, t ∈ s1.thrds)
    ∧ (∀ t, r = some t → t ∈ s1.thrds ∧ Usable t cl ∧ (∃ j, j ≤ 1000 ∧ t.name = candidate n j)
        ∧ ∀ u ∈ s1.thrds, u ∈ s.thrds ∨ u = t)
    ∧ (r = none → s1 = s ∧ (Unknown (fun f => f.thread cl) fs ∨ b = false)) := by
  rw [ref_eq] at h
  rcases createThread_ret h with ⟨t, rfl, rfl, h1, h2, j, h3, h4⟩ |
    ⟨m, c, rfl, rfl, ⟨pre, x, post, e1, -, e2⟩, -, -, j, h3, h4⟩ | ⟨rfl, rfl, h1⟩
  · refine ⟨rfl, fun _ h => h, ?_, (fun e => by cases e)⟩
    intro t' e
    cases e
    exact ⟨h1, h2, ⟨j, by omega, h4⟩, fun u hu => .inl hu⟩
  · refine ⟨rfl, fun t ht => List.mem_append_left _ ht, ?_, (fun e => by cases e)⟩
    intro t' e
    cases e
    refine ⟨by simp, ?_, ⟨j, h3, h4⟩, ?_⟩
    · by_cases h0 : cl = []
      · exact .inl h0
      · exact .inr (.inr (hfs x (by rw [e1]; simp) cl c e2 h0))
    · intro u hu
      rcases List.mem_append.mp hu with hu | hu
      · exact .inl hu
      · exact .inr (List.mem_singleton.mp hu)
  · exact ⟨rfl, fun _ h => h, (fun t e => by cases e), fun _ => ⟨rfl, h1⟩⟩

/-- A thread with the name which can serve the class is used again. -/
theorem C120_thread_reused (fs : List Factory) (lay : Layout) (ops : List Op) (s : St)
    (cl : Name) (b : Bool) (t : Thrd) (hs : Reached fs lay ops s) (ht : t ∈ s.thrds)
    (hu : Usable t cl) : refCreateThread fs s t.name cl b = .ret s (some t) := by
  rw [ref_eq]
  have h1 := find_nodup (reached_nodup hs) ht
  unfold createThread
  have : search s.thrds t.name cl 1000 0 t.name = .reuse t := by
    show search s.thrds t.name cl (999 + 1) 0 t.name = .reuse t
    unfold search
    rw [h1]
    exact if_pos ((compat_iff t cl).mpr hu)
  rw [this]

/-- With a new name a thread with this name is made by the first factory knowing the class. -/
theorem C120_thread_new (fs : List Factory) (s : St) (n cl c : Name)
    (hn : ∀ t ∈ s.thrds, t.name ≠ n) (hf : MadeByFirst (fun f => f.thread cl) fs c) :
    refCreateThread fs s n cl true
      = .ret { s with thrds := s.thrds ++ [⟨n, c⟩] } (some ⟨n, c⟩) := by
  rw [ref_eq]
  have h1 : findThread s.thrds n = none := by
    unfold findThread
    rw [List.find?_eq_none]
    intro t ht
    simpa using hn t ht
  unfold createThread
  have : search s.thrds n cl 1000 0 n = .fresh n := by
    show search s.thrds n cl (999 + 1) 0 n = .fresh n
    unfold search
    rw [h1]
  rw [this]
  dsimp only
  rw [(ask_some _ _ _).mpr hf]
  rfl

/-- The process is ended exactly if the first 1000 names are taken by threads which cannot
serve the class and the last name is taken too. -/
theorem C120_thread_exit (fs : List Factory) (lay : Layout) (ops : List Op) (s : St)
    (n cl : Name) (b : Bool) (hs : Reached fs lay ops s) :
    refCreateThread fs s n cl b = .exit ↔
      (∀ i, i < 1000 → ∃ t ∈ s.thrds, t.name = candidate n i ∧ ¬ Usable t cl)
      ∧ ∃ t ∈ s.thrds, t.name = candidate n 1000 := by
  rw [ref_eq, createThread_exit]
  have hnd := reached_nodup hs
  constructor
  · rintro ⟨h1, t, h2⟩
    refine ⟨fun i hi => ?_, t, (findThread_some h2).1, (findThread_some h2).2⟩
    obtain ⟨t, h3, h4⟩ := h1 i hi
    exact ⟨t, (findThread_some h3).1, (findThread_some h3).2, h4⟩
  · rintro ⟨h1, t, h2, h3⟩
    refine ⟨fun i hi => ?_, t, by rw [← h3]; exact find_nodup hnd h2⟩
    obtain ⟨t, h3, h4, h5⟩ := h1 i hi
    exact ⟨t, by rw [← h4]; exact find_nodup hnd h3, h5⟩

theorem candidate_inj (n : Name) {i j : Nat} (h : candidate n i = candidate n j) : i = j := by
  cases i with
  | zero =>
    cases j with
    | zero => rfl
    | succ j =>
      have := congrArg List.length h
      simp [candidate] at this
  | succ i =>
    cases j with
    | zero =>
      have := congrArg List.length h
      simp [candidate] at this
    | succ j =>
      have h1 := List.append_cancel_left h
      have h2 := List.append_cancel_left h1
      rw [Verif.CmdDef.toDigits_inj h2]

/-- Commands creating threads of the general class with new names. -/
theorem run_threads (fs : List Factory) (lay : Layout)
    (hf : MadeByFirst (fun f => f.thread typeThread) fs typeThread) :
    ∀ (l : List Name) (s : St), l.Nodup → (∀ n ∈ l, ∀ t ∈ s.thrds, t.name ≠ n) →
      run fs lay s (l.map fun n => .thread n typeThread true)
        = some { s with thrds := s.thrds ++ l.map fun n => ⟨n, typeThread⟩ } := by
  intro l
  induction l with
  | nil => intro s _ _; simp [run]
  | cons a l ih =>
    intro s hl hs
    rw [List.nodup_cons] at hl
    have h1 := C120_thread_new fs s a typeThread typeThread (hs a (List.mem_cons_self ..)) hf
    show (match step fs lay s (.thread a typeThread true) with
      | none => none
      | some s1 => run fs lay s1 (l.map fun n => .thread n typeThread true)) = _
    have h2 : step fs lay s (.thread a typeThread true)
        = some { s with thrds := s.thrds ++ [⟨a, typeThread⟩] } := by
      show forget (refCreateThread fs s a typeThread true) = _
      rw [h1]; rfl
    rw [h2]
    dsimp only
    rw [ih _ hl.2]
    · simp
    · intro n hn t ht
      rcases List.mem_append.mp ht with ht | ht
      · exact hs n (List.mem_cons_of_mem _ hn) t ht
      · rw [List.mem_singleton] at ht
        subst ht
        intro e
        have e' : a = n := e
        exact hl.1 (by rw [e']; exact hn)

/-- The last name is not examined: after suitable commands a request for a thread ends the
process although a thread with the last of the names can serve the class. -/
theorem C120_thread_exit_counterexample (fs : List Factory) (lay : Layout) (n : Name)
    (hn : ∀ i, candidate n i ≠ "ManagerThrd".toList)
    (hf : MadeByFirst (fun f => f.thread typeThread) fs typeThread)
    (hg : MadeByFirst (fun f => f.thread typeSocketThread) fs typeSocketThread) :
    ∃ ops s, Reached fs lay ops s
      ∧ (∃ t ∈ s.thrds, t.name = candidate n 1000 ∧ Usable t typeSocketThread)
      ∧ refCreateThread fs s n typeSocketThread true = .exit := by
  have hst : St.start.thrds = [⟨mgrThread, typeThread⟩] := rfl
  have hnd : ((List.range 1000).map (candidate n)).Nodup := by
    refine List.Nodup.map_on ?_ List.nodup_range
    intro x _ y _ h
    exact candidate_inj n h
  have h1 := run_threads fs lay hf ((List.range 1000).map (candidate n)) St.start hnd (by
    intro m hm t ht
    obtain ⟨i, -, rfl⟩ := List.mem_map.mp hm
    rw [hst, List.mem_singleton] at ht
    subst ht
    exact fun e => hn i e.symm)
  obtain ⟨s1, hs1⟩ : ∃ s1 : St, s1 = { St.start with
      thrds := St.start.thrds ++ ((List.range 1000).map (candidate n)).map
        (fun n => Thrd.mk n typeThread) } := ⟨_, rfl⟩
  rw [← hs1] at h1
  have hmem : ∀ t ∈ s1.thrds, t.name = mgrThread ∨ ∃ i, i < 1000 ∧ t.name = candidate n i := by
    intro t ht
    rw [hs1] at ht
    rcases List.mem_append.mp ht with ht | ht
    · rw [hst, List.mem_singleton] at ht
      subst ht
      exact .inl rfl
    · obtain ⟨m, hm, rfl⟩ := List.mem_map.mp ht
      obtain ⟨i, hi, rfl⟩ := List.mem_map.mp hm
      exact .inr ⟨i, List.mem_range.mp hi, rfl⟩
  have h2 := C120_thread_new fs s1 (candidate n 1000) typeSocketThread typeSocketThread (by
    intro t ht e
    rcases hmem t ht with h | ⟨i, hi, h⟩
    · exact hn 1000 (by rw [← e, h]; rfl)
    · rw [h] at e
      have := candidate_inj n e
      omega) hg
  have app : ∀ (l : List Op) (s s1 : St) (o : Op), run fs lay s l = some s1 →
      run fs lay s (l ++ [o]) = step fs lay s1 o := by
    intro l
    induction l with
    | nil =>
      intro s s1 o h
      cases h
      show (match step fs lay s o with | none => none | some s1 => some s1) = _
      cases step fs lay s o <;> rfl
    | cons a l ih =>
      intro s s1 o h
      rw [List.cons_append]
      unfold run at h ⊢
      cases e : step fs lay s a with
      | none => rw [e] at h; cases h
      | some s2 =>
        rw [e] at h
        exact ih s2 s1 o h
  have h3 := app _ _ _ (.thread (candidate n 1000) typeSocketThread true) h1
  have h4 : step fs lay s1 (.thread (candidate n 1000) typeSocketThread true)
      = some { s1 with thrds := s1.thrds ++ [⟨candidate n 1000, typeSocketThread⟩] } := by
    show forget (refCreateThread fs s1 (candidate n 1000) typeSocketThread true) = _
    rw [h2]; rfl
  rw [h4] at h3
  refine ⟨_, _, h3, ⟨⟨candidate n 1000, typeSocketThread⟩, List.mem_append_right _
    (List.mem_singleton.mpr rfl), rfl, .inr (.inr rfl)⟩, ?_⟩
  refine (C120_thread_exit fs lay _ _ n typeSocketThread true h3).mpr ⟨?_, ?_⟩
  · intro i hi
    refine ⟨⟨candidate n i, typeThread⟩, List.mem_append_left _ ?_, rfl, ?_⟩
    · rw [hs1]
      exact List.mem_append_right _ (List.mem_map.mpr ⟨candidate n i,
        List.mem_map.mpr ⟨i, List.mem_range.mpr hi, rfl⟩, rfl⟩)
    · rintro (h | h | h)
      · exact absurd h (by decide)
      · exact absurd h (by decide)
      · have h' : typeThread = typeSocketThread := h
        exact absurd h' (by decide)
  · exact ⟨⟨candidate n 1000, typeSocketThread⟩, List.mem_append_right _
      (List.mem_singleton.mpr rfl), rfl⟩

example : MadeByFirst (fun f => f.thread typeThread) exFs typeThread :=
  ⟨[], exStd, [exSock, exUser], rfl, (fun _ h => by cases h), by decide⟩

example : MadeByFirst (fun f => f.thread typeSocketThread) exFs typeSocketThread :=
  ⟨[exStd], exSock, [exUser], rfl, (fun y h => by
    rw [List.mem_singleton] at h; subst h; decide), by decide⟩

example (i : Nat) : candidate ['a'] i ≠ "ManagerThrd".toList := by
  cases i with
  | zero => decide
  | succ i =>
    intro h
    exact absurd (List.head_eq_of_cons_eq h) (by decide)

/-! ## Threads of workers -/

/-- A new module with a thread has one which exists, has the required class and the configured
name, possibly with a number.  It has no
thread only if no factory makes such threads, the thread did not start, or threads of the
general class are required and another one was found. -/
theorem C120_worker_thread (fs : List Factory) (lay : Layout) (s s1 : St)
    (cls n cfg : Name) (b : Bool) (o : Obj) (hfs : ThreadsHonest fs)
    (h : createModule fs lay s cls n cfg b = .ret s1 true) (ho : s1.objs = s.objs ++ [o]) :
    (∀ x, o.thrd = some x → ∃ t ∈ s1.thrds, t.name = x ∧ (o.req = [] ∨ t.cls = o.req)
        ∧ ∃ j, j ≤ 1000 ∧ x = candidate (wished lay cfg n) j)
    ∧ (o.thrd = none → Unknown (fun f => f.thread o.req) fs ∨ b = false
        ∨ (o.req = "dabc::Thread".toList ∧ ∃ t ∈ s.thrds, t.cls ≠ "dabc::Thread".toList)) := by
  rcases createModule_ret h with ⟨-, h1, -⟩ | ⟨-, -, -, h1⟩ | ⟨-, -, c, req, -, h2⟩
  · subst h1
    have := congrArg List.length ho
    simp at this
  · cases h1
  · obtain ⟨t, h4, -, -, h5, h6⟩ := addObj_ret h2
    rw [h4] at ho
    have := List.append_cancel_left ho
    cases this
    exact ⟨h5, fun e => h6 e hfs⟩

/-- The same for a new device. -/
theorem C120_device_thread (fs : List Factory) (lay : Layout) (s s1 : St)
    (cls n cfg : Name) (b : Bool) (o : Obj) (hfs : ThreadsHonest fs)
    (h : createDevice fs lay s cls n cfg b = .ret s1 true) (ho : s1.objs = s.objs ++ [o]) :
    (∀ x, o.thrd = some x → ∃ t ∈ s1.thrds, t.name = x ∧ (o.req = [] ∨ t.cls = o.req)
        ∧ ∃ j, j ≤ 1000 ∧ x = candidate (wished lay cfg (if n = [] then cls else n)) j)
    ∧ (o.thrd = none → Unknown (fun f => f.thread o.req) fs ∨ b = false
        ∨ (o.req = "dabc::Thread".toList ∧ ∃ t ∈ s.thrds, t.cls ≠ "dabc::Thread".toList)) := by
  rcases createDevice_ret h with ⟨x, -, h1, -⟩ | ⟨-, -, -, h1⟩ |
    ⟨-, -, c, req, s2, -, h2, h1, h3, -⟩
  · rw [h1] at ho
    have := congrArg List.length ho
    simp at this
  · cases h1
  · obtain ⟨t, h4, -, -, h5, h6⟩ := addObj_ret h2
    rw [h1, h4] at ho
    have := List.append_cancel_left ho
    cases this
    refine ⟨?_, fun e => h6 e hfs⟩
    rw [h3]
    exact h5

/-- A module is reported as created also when it has no thread and therefore can do nothing. -/
theorem C120_no_thread_counterexample (fs : List Factory) (lay : Layout) (s s1 : St)
    (cls n cfg c req : Name) (b r : Bool) (hn : ∀ o ∈ s.objs, o.name ≠ n)
    (hf : MadeByFirst (fun f => f.module cls) fs (c, req))
    (hu : Unknown (fun f => f.thread req) fs) (hreq : ∀ t ∈ s.thrds, t.cls ≠ req)
    (hne : req ≠ [])
    (h : createModule fs lay s cls n cfg b = .ret s1 r) :
    r = true ∧ s1.objs = s.objs ++ [⟨.module, n, c, req, none⟩] := by
  rcases createModule_ret h with ⟨h1, -⟩ | ⟨-, h1, -⟩ | ⟨-, h3, c', req', h1, h2⟩
  · rw [findKind_absent hn] at h1; cases h1
  · exact absurd h1 (first_known hf)
  · have := first_unique h1 hf
    cases this
    refine ⟨h3, ?_⟩
    obtain ⟨t, h4, -, hg, h5, -⟩ := addObj_ret h2
    cases t with
    | none => exact h4
    | some x =>
      exfalso
      obtain ⟨th, h6, -, h7, -⟩ := h5 x rfl
      rcases h7 with h7 | h7
      · exact hne h7
      · -- a new thread can only come from a factory
        unfold addObj at h2
        cases e : makeThread fs s (threadName lay cfg n) n req b with
        | exit => rw [e] at h2; cases h2
        | ret s2 q =>
          rw [e] at h2
          simp only [Res.ret.injEq] at h2
          obtain ⟨rfl, -⟩ := h2
          unfold makeThread at e
          rw [ref_eq] at e
          have hth : th ∈ s2.thrds := h6
          cases e3 : createThread fs s (workerThreadName (threadName lay cfg n) n) req b with
          | exit => rw [e3] at e; cases e
          | ret s3 q3 =>
            rw [e3] at e
            have hs3 : s3 = s2 := by
              cases q3 <;> (simp only [Res.ret.injEq] at e; exact e.1)
            subst hs3
            rcases createThread_ret e3 with ⟨_, -, rfl, -⟩ | ⟨_, _, -, -, h9, -⟩ | ⟨-, rfl, -⟩
            · exact hreq th hth h7
            · exact first_known h9 hu
            · exact hreq th hth h7

/-- A run which meets the hypotheses of the theorems above. -/
def exOps : List Op := [.module ['M'] ['m'] [] true, .device ['D'] [] [] true]

def exKind (n : Name) : Kind := if n = ['D'] then .device else .module

example : OneKind exKind exOps := by
  intro o ho n q h
  simp only [exOps, List.mem_cons, List.not_mem_nil, or_false] at ho
  rcases ho with rfl | rfl
  · cases h; decide
  · cases h; decide

example : Reached exFs .other exOps
    ⟨[⟨.module, ['m'], ['M'], [], some "mThrd".toList⟩,
      ⟨.device, ['D'], ['D'], typeSocketThread, some "DThrd".toList⟩],
     [⟨mgrThread, typeThread⟩, ⟨"mThrd".toList, typeThread⟩,
      ⟨"DThrd".toList, typeSocketThread⟩], ['D']⟩ := rfl

example : ∀ f ∈ exFs, ∀ c p, f.device c = some p → p.1 = c := by
  intro f hf c p h
  simp only [exFs, List.mem_cons, List.not_mem_nil, or_false] at hf
  rcases hf with rfl | rfl | rfl
  · cases h
  · cases h
  · simp only [exUser] at h
    split at h
    · rename_i h1; cases h; exact h1.symm
    · cases h

/-- A module which requires threads of an unknown class. -/
example : createModule [⟨0, fun _ => some (['M'], ['V']), fun _ => none, fun _ => none⟩] .other
    St.start ['M'] ['m'] [] true
      = .ret ⟨[⟨.module, ['m'], ['M'], ['V'], none⟩], St.start.thrds, []⟩ true := rfl

/-- A module with the name of a device. -/
example : refCreateModule exFs .other ⟨[⟨.device, ['m'], ['D'], [], none⟩], [], []⟩ ['M'] ['m']
    [] true = .ret ⟨[⟨.device, ['m'], ['D'], [], none⟩,
      ⟨.module, ['m'], ['M'], [], some "mThrd".toList⟩], [⟨"mThrd".toList, typeThread⟩], []⟩
      none := rfl

end Verif.Create
