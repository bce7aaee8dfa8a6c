import Verif.Spec.CmdDef
import Mathlib.Data.List.Nodup

/-!
# C76: command definitions
-/

namespace Verif.CmdDef

open Spec

/-! ### Names of the fields differ -/

theorem toDigits_ne_nil (n : Nat) : Nat.toDigits 10 n ≠ [] := by
  rw [Nat.toDigits_eq_if (by decide)]
  split
  · simp
  · simp

theorem digitChar_inj {a b : Nat} (ha : a < 10) (hb : b < 10) (h : Nat.digitChar a = Nat.digitChar b) : a = b := by
  have : ∀ a < 10, ∀ b < 10, Nat.digitChar a = Nat.digitChar b → a = b := by decide
  exact this a ha b hb h

theorem toDigits_inj {n m : Nat} (h : Nat.toDigits 10 n = Nat.toDigits 10 m) : n = m := by
  induction n using Nat.strongRecOn generalizing m with
  | _ n ih =>
    rw [Nat.toDigits_eq_if (by decide), Nat.toDigits_eq_if (n := m) (by decide)] at h
    split at h <;> split at h
    · rename_i h1 h2
      simp only [List.cons.injEq, and_true] at h
      exact digitChar_inj h1 h2 h
    · have := congrArg List.length h
      have h0 := List.length_pos_iff.2 (toDigits_ne_nil (m / 10))
      simp at this
      try omega
    · have := congrArg List.length h
      have h0 := List.length_pos_iff.2 (toDigits_ne_nil (n / 10))
      simp at this
      try omega
    · rename_i h1 h2
      have hh := List.append_inj' h rfl
      have e1 := ih (n / 10) (by omega) hh.1
      have e2 : n % 10 = m % 10 := by
        have := hh.2
        simp only [List.cons.injEq, and_true] at this
        exact digitChar_inj (Nat.mod_lt _ (by decide)) (Nat.mod_lt _ (by decide)) this
      omega

/-- Suffixes in use. -/
def Suffix (s : String) : Prop := s.toList = [] ∨ ∃ t, s.toList = '_' :: t

theorem split_digits {a b s t : List Char} (ha : '_' ∉ a) (hb : '_' ∉ b) (hs : s = [] ∨ ∃ x, s = '_' :: x)
    (ht : t = [] ∨ ∃ x, t = '_' :: x) (h : a ++ s = b ++ t) : a = b ∧ s = t := by
  induction a generalizing b with
  | nil =>
    cases b with
    | nil => exact ⟨rfl, h⟩
    | cons y ys =>
      rcases hs with rfl | ⟨x, rfl⟩
      · simp at h
      · simp only [List.nil_append, List.cons_append, List.cons.injEq] at h
        exact absurd (by rw [h.1]; exact List.mem_cons_self) hb
  | cons x xs ih =>
    cases b with
    | nil =>
      rcases ht with rfl | ⟨z, rfl⟩
      · simp at h
      · simp only [List.nil_append, List.cons_append, List.cons.injEq] at h
        exact absurd (by rw [← h.1]; exact List.mem_cons_self) ha
    | cons y ys =>
      simp only [List.cons_append, List.cons.injEq] at h
      have := ih (fun hm => ha (List.mem_cons_of_mem _ hm)) (fun hm => hb (List.mem_cons_of_mem _ hm)) h.2
      exact ⟨by rw [h.1, this.1], this.2⟩

/-- **C76**: the names of the fields of different arguments and attributes are different. -/
theorem C76_keys {n m : Nat} {s t : String} (hs : Suffix s) (ht : Suffix t) (h : key n s = key m t) : n = m ∧ s = t := by
  unfold key at h
  rw [List.append_assoc, List.append_assoc] at h
  have h' := List.append_cancel_left h
  have := split_digits Nat.underscore_not_in_toDigits Nat.underscore_not_in_toDigits hs ht h'
  exact ⟨toDigits_inj this.1, String.toList_inj.1 this.2⟩

theorem key_ne_num (n : Nat) (s : String) : numKey ≠ key n s := by
  intro h
  have : numKey.head? = (key n s).head? := by rw [h]
  unfold key numKey at this
  rw [List.append_assoc, List.head?_append_of_ne_nil _ (by decide)] at this
  exact absurd this (by decide)

theorem suf_name : Suffix "" := Or.inl rfl
theorem suf_kind : Suffix "_kind" := Or.inr ⟨_, rfl⟩
theorem suf_dflt : Suffix "_dflt" := Or.inr ⟨_, rfl⟩
theorem suf_req : Suffix "_req" := Or.inr ⟨_, rfl⟩

example : key 1 "_kind" = "arg1_kind".toList ∧ key 12 "" = "arg12".toList := by decide

theorem set_same (f : Fields) (k : List Char) (v : Val) : f.set k v k = some v := if_pos rfl

theorem set_ne (f : Fields) {k x : List Char} (v : Val) (h : x ≠ k) : f.set k v x = f x := if_neg h

theorem key_ne {n m : Nat} {s t : String} (hs : Suffix s) (ht : Suffix t) (h : n ≠ m ∨ s ≠ t) : key n s ≠ key m t := by
  intro e
  have := C76_keys hs ht e
  rcases h with h | h
  · exact h this.1
  · exact h this.2

/-! ### The fields stand for a list of arguments -/

structure Rep (f : Fields) (l : List Arg) : Prop where
  num : numArgs f = l.length
  names : (l.map (·.name)).Nodup
  name : ∀ n a, l[n]? = some a → f (key n "") = some (.str a.name)
  kind : ∀ n a, l[n]? = some a → f (key n "_kind") = some (.str a.kind)
  req : ∀ n a, l[n]? = some a → asBool (f (key n "_req")) = a.required
  dflt : ∀ n a, l[n]? = some a → asStr (f (key n "_dflt")) = a.dflt
  free : ∀ n, l.length ≤ n → f (key n "_req") = none ∧ f (key n "_dflt") = none

theorem rep_argName {f : Fields} {l : List Arg} (h : Rep f l) {n : Nat} {a : Arg} (ha : l[n]? = some a) :
    argName f n = a.name := by
  unfold argName; rw [h.name n a ha]; rfl

theorem rep_find_none {f : Fields} {l : List Arg} (h : Rep f l) {name : String} (hn : name ∉ l.map (·.name)) :
    findArg f name = none := by
  unfold findArg
  rw [List.find?_eq_none]
  intro n hm
  rw [h.num, List.mem_range] at hm
  simp only [decide_eq_true_eq]
  rw [rep_argName h (List.getElem?_eq_getElem hm)]
  intro e
  exact hn (List.mem_map.2 ⟨_, List.getElem_mem hm, e⟩)

theorem rep_find_some {f : Fields} {l : List Arg} (h : Rep f l) {n : Nat} {a : Arg} (ha : l[n]? = some a) :
    findArg f a.name = some n := by
  obtain ⟨hn, hna⟩ := List.getElem?_eq_some_iff.1 ha
  unfold findArg
  cases hf : (List.range (numArgs f)).find? (fun n => argName f n = a.name) with
  | none =>
    rw [List.find?_eq_none] at hf
    have := hf n (by rw [h.num]; exact List.mem_range.2 hn)
    rw [rep_argName h ha] at this
    simp at this
  | some m =>
    have h1 := List.find?_some hf
    have h2 := List.mem_of_find?_eq_some hf
    rw [h.num, List.mem_range] at h2
    rw [decide_eq_true_eq, rep_argName h (List.getElem?_eq_getElem h2)] at h1
    have e1 : (l.map (·.name))[m]'(by simpa using h2) = (l.map (·.name))[n]'(by simpa using hn) := by
      simp only [List.getElem_map, h1, hna]
    have := (List.Nodup.getElem_inj_iff h.names).1 e1
    rw [this]

/-- What `AddArg` writes. -/
theorem addArg_fields (f : Fields) (name kind : String) (req : Bool) (dflt : Option String) (hne : name ≠ "") :
    let id := (place f name).1
    let g := (place f name).2
    let r := addArg f name kind req dflt
    r numKey = g numKey ∧
    r (key id "") = some (.str name) ∧ r (key id "_kind") = some (.str kind) ∧
    r (key id "_req") = (if req then some (.bool true) else g (key id "_req")) ∧
    r (key id "_dflt") = (match dflt with
      | some d => some (.str d)
      | none => g (key id "_dflt")) ∧
    ∀ n s, n ≠ id → Suffix s → r (key n s) = g (key n s) := by
  dsimp only
  unfold addArg
  rw [if_neg hne]
  generalize (place f name).1 = id
  generalize (place f name).2 = g
  have n1 := key_ne_num id ""
  have n2 := key_ne_num id "_dflt"
  have n3 := key_ne_num id "_kind"
  have n4 := key_ne_num id "_req"
  have k1 : key id "" ≠ key id "_dflt" := key_ne suf_name suf_dflt (Or.inr (by decide))
  have k2 : key id "" ≠ key id "_kind" := key_ne suf_name suf_kind (Or.inr (by decide))
  have k3 : key id "" ≠ key id "_req" := key_ne suf_name suf_req (Or.inr (by decide))
  have k4 : key id "_kind" ≠ key id "_req" := key_ne suf_kind suf_req (Or.inr (by decide))
  have k5 : key id "_dflt" ≠ key id "_req" := key_ne suf_dflt suf_req (Or.inr (by decide))
  have k6 : key id "_dflt" ≠ key id "_kind" := key_ne suf_dflt suf_kind (Or.inr (by decide))
  have ko : ∀ n s t, n ≠ id → Suffix s → Suffix t → key n s ≠ key id t := fun n s t h hs ht => key_ne hs ht (Or.inl h)
  cases req <;> cases dflt <;>
    refine ⟨?_, ?_, ?_, ?_, ?_, ?_⟩ <;>
    (try (intro n s hn hs; have o1 := ko n s "" hn hs suf_name; have o2 := ko n s "_dflt" hn hs suf_dflt
          have o3 := ko n s "_kind" hn hs suf_kind; have o4 := ko n s "_req" hn hs suf_req)) <;>
    simp_all [Fields.set, Ne.symm]

theorem getElem?_map_name {l : List Arg} {g : Arg → Arg} {n : Nat} {a : Arg} (h : (l.map g)[n]? = some a) :
    ∃ b, l[n]? = some b ∧ g b = a := by
  rw [List.getElem?_map] at h
  cases e : l[n]? with
  | none => rw [e] at h; cases h
  | some b => rw [e] at h; exact ⟨b, rfl, by simpa using h⟩

/-- One call of `AddArg`. -/
theorem rep_add {f : Fields} {l : List Arg} (h : Rep f l) (c : Call) :
    Rep (addArg f c.name c.kind c.required c.dflt)
      (if c.name = "" then l
        else if c.name ∈ l.map (·.name) then l.map (fun a => if a.name = c.name then merged a c else a)
        else l ++ [⟨c.name, c.kind, c.required, c.dflt.getD ""⟩]) := by
  by_cases hne : c.name = ""
  · rw [if_pos hne]
    have : addArg f c.name c.kind c.required c.dflt = f := by unfold addArg; rw [if_pos hne]
    rw [this]; exact h
  · rw [if_neg hne]
    obtain ⟨f1, f2, f3, f4, f5, f6⟩ := addArg_fields f c.name c.kind c.required c.dflt hne
    generalize hr : addArg f c.name c.kind c.required c.dflt = r at *
    by_cases hm : c.name ∈ l.map (·.name)
    · rw [if_pos hm]
      obtain ⟨a0, ha0, hname⟩ := List.mem_map.1 hm
      obtain ⟨id, hid⟩ := List.mem_iff_getElem?.1 ha0
      have hp : place f c.name = (id, f) := by
        unfold place; rw [← hname, rep_find_some h hid]
      rw [hp] at f1 f2 f3 f4 f5 f6
      dsimp only at f1 f2 f3 f4 f5 f6
      have huniq : ∀ n b, l[n]? = some b → b.name = c.name → n = id := by
        intro n b hb e
        have h1 := rep_find_some h hb
        have h2 := rep_find_some h hid
        rw [e] at h1
        rw [hname] at h2
        rw [h1] at h2
        exact Option.some.inj h2
      have hnames : (l.map (fun a => if a.name = c.name then merged a c else a)).map (·.name) = l.map (·.name) := by
        rw [List.map_map]
        apply List.map_congr_left
        intro a _
        dsimp only [Function.comp]
        split
        · rename_i e; exact e.symm
        · rfl
      have hat : ∀ n a, (l.map (fun a => if a.name = c.name then merged a c else a))[n]? = some a →
          (n = id ∧ a = merged a0 c) ∨ (n ≠ id ∧ l[n]? = some a) := by
        intro n a hna
        obtain ⟨b, hb, e⟩ := getElem?_map_name hna
        by_cases hbn : b.name = c.name
        · rw [if_pos hbn] at e
          have hn := huniq n b hb hbn
          left
          refine ⟨hn, ?_⟩
          rw [hn, hid] at hb
          cases hb
          exact e.symm
        · rw [if_neg hbn] at e
          right
          refine ⟨?_, by rw [hb, e]⟩
          intro hn
          rw [hn, hid] at hb
          cases hb
          exact hbn hname
      have hidlen : id < l.length := (List.getElem?_eq_some_iff.1 hid).1
      refine ⟨?_, by rw [hnames]; exact h.names, ?_, ?_, ?_, ?_, ?_⟩
      · rw [List.length_map, ← h.num]; unfold numArgs; rw [f1]
      · intro n a hna
        rcases hat n a hna with ⟨rfl, rfl⟩ | ⟨hn, hl⟩
        · exact f2
        · rw [f6 n "" hn suf_name]; exact h.name n a hl
      · intro n a hna
        rcases hat n a hna with ⟨rfl, rfl⟩ | ⟨hn, hl⟩
        · exact f3
        · rw [f6 n _ hn suf_kind]; exact h.kind n a hl
      · intro n a hna
        rcases hat n a hna with ⟨rfl, rfl⟩ | ⟨hn, hl⟩
        · rw [f4]
          have := h.req n a0 hid
          cases hreq : c.required
          · simp [this, merged, hreq]
          · simp [merged, hreq, asBool]
        · rw [f6 n _ hn suf_req]; exact h.req n a hl
      · intro n a hna
        rcases hat n a hna with ⟨rfl, rfl⟩ | ⟨hn, hl⟩
        · rw [f5]
          have := h.dflt n a0 hid
          cases hd : c.dflt
          · simp [this, merged, hd]
          · simp [merged, hd, asStr]
        · rw [f6 n _ hn suf_dflt]; exact h.dflt n a hl
      · intro n hn
        rw [List.length_map] at hn
        rw [f6 n _ (by omega) suf_req, f6 n _ (by omega) suf_dflt]
        exact h.free n hn
    · rw [if_neg hm]
      have hp : place f c.name = (l.length, f.set numKey (.int (l.length + 1))) := by
        unfold place; rw [rep_find_none h hm, h.num]
      rw [hp] at f1 f2 f3 f4 f5 f6
      dsimp only at f1 f2 f3 f4 f5 f6
      have hg : ∀ n s, f.set numKey (.int (l.length + 1)) (key n s) = f (key n s) :=
        fun n s => set_ne _ _ (Ne.symm (key_ne_num n s))
      have hat : ∀ n a, (l ++ [(⟨c.name, c.kind, c.required, c.dflt.getD ""⟩ : Arg)])[n]? = some a →
          (n = l.length ∧ a = ⟨c.name, c.kind, c.required, c.dflt.getD ""⟩) ∨ (n ≠ l.length ∧ l[n]? = some a) := by
        intro n a hna
        by_cases hn : n < l.length
        · rw [List.getElem?_append_left hn] at hna
          exact Or.inr ⟨by omega, hna⟩
        · rw [List.getElem?_append_right (by omega)] at hna
          have hlt := (List.getElem?_eq_some_iff.1 hna).1
          simp only [List.length_cons, List.length_nil] at hlt
          have hz : n - l.length = 0 := by omega
          rw [hz] at hna
          exact Or.inl ⟨by omega, by simpa using hna.symm⟩
      refine ⟨?_, ?_, ?_, ?_, ?_, ?_, ?_⟩
      · unfold numArgs; rw [f1, set_same]; simp [asInt]
      · rw [List.map_append, List.nodup_append]
        refine ⟨h.names, by simp, ?_⟩
        intro a ha b hb e
        simp only [List.map_cons, List.map_nil, List.mem_singleton] at hb
        rw [e, hb] at ha
        exact hm ha
      · intro n a hna
        rcases hat n a hna with ⟨rfl, rfl⟩ | ⟨hn, hl⟩
        · exact f2
        · rw [f6 n _ hn suf_name, hg]; exact h.name n a hl
      · intro n a hna
        rcases hat n a hna with ⟨rfl, rfl⟩ | ⟨hn, hl⟩
        · exact f3
        · rw [f6 n _ hn suf_kind, hg]; exact h.kind n a hl
      · intro n a hna
        rcases hat n a hna with ⟨rfl, rfl⟩ | ⟨hn, hl⟩
        · rw [f4, hg, (h.free l.length (Nat.le_refl _)).1]
          cases c.required <;> rfl
        · rw [f6 n _ hn suf_req, hg]; exact h.req n a hl
      · intro n a hna
        rcases hat n a hna with ⟨rfl, rfl⟩ | ⟨hn, hl⟩
        · rw [f5, hg, (h.free l.length (Nat.le_refl _)).2]
          cases c.dflt <;> rfl
        · rw [f6 n _ hn suf_dflt, hg]; exact h.dflt n a hl
      · intro n hn
        simp only [List.length_append, List.length_cons, List.length_nil] at hn
        rw [f6 n _ (by omega) suf_req, f6 n _ (by omega) suf_dflt, hg, hg]
        exact h.free n (by omega)

theorem rep_define (calls : List Call) : Rep (define calls) (args merged calls) := by
  have key : ∀ (calls : List Call) (f : Fields) (l : List Arg), Rep f l →
      Rep (calls.foldl (fun f c => addArg f c.name c.kind c.required c.dflt) f)
        (calls.foldl (fun l c =>
          if c.name = "" then l
          else if c.name ∈ l.map (·.name) then l.map (fun a => if a.name = c.name then merged a c else a)
          else l ++ [⟨c.name, c.kind, c.required, c.dflt.getD ""⟩]) l) := by
    intro calls
    induction calls with
    | nil => intro f l h; exact h
    | cons c cs ih => intro f l h; exact ih _ _ (rep_add h c)
  refine key calls _ [] ⟨rfl, by simp, ?_, ?_, ?_, ?_, fun _ _ => ⟨rfl, rfl⟩⟩ <;>
    (intro n a h; simp at h)

/-- **C76**: `GetArg` gives back exactly what was given to `AddArg`, each argument once, at the position of its first
call; outside of their number it refuses; `FindArg` finds the position of each argument and no other name.  A repeated
call merges (see the counterexample). -/
theorem C76_args (calls : List Call) :
    numArgs (define calls) = (args merged calls).length ∧
    (∀ n, getArg (define calls) n = ((args merged calls)[n]?).map (fun a => (a.name, a.kind, a.required, a.dflt))) ∧
    (∀ n a, (args merged calls)[n]? = some a → findArg (define calls) a.name = some n) ∧
    (∀ name, name ∉ (args merged calls).map (·.name) → findArg (define calls) name = none) ∧
    ((args merged calls).map (·.name)).Nodup := by
  have h := rep_define calls
  refine ⟨h.num, ?_, fun n a ha => rep_find_some h ha, fun name hn => rep_find_none h hn, h.names⟩
  intro n
  unfold getArg
  rw [h.num]
  by_cases hn : n < (args merged calls).length
  · rw [if_pos hn]
    have ha := List.getElem?_eq_getElem hn
    rw [ha, h.req n _ ha, h.dflt n _ ha, h.name n _ ha, h.kind n _ ha]
    rfl
  · rw [if_neg hn, List.getElem?_eq_none (by omega)]; rfl

example : (args merged [⟨"a", "int", true, none⟩, ⟨"b", "string", false, some "x"⟩]) =
    [⟨"a", "int", true, ""⟩, ⟨"b", "string", false, "x"⟩] := by decide

/-- If no name is used twice, merging and replacing are the same. -/
theorem C76_args_once (calls : List Call) (hn : (calls.map (·.name)).Nodup) :
    args merged calls = args replaced calls := by
  have key : ∀ (calls : List Call) (l : List Arg), (calls.map (·.name)).Nodup →
      (∀ c ∈ calls, c.name ∉ l.map (·.name)) → ∀ g1 g2 : Arg → Call → Arg,
      calls.foldl (fun l c =>
          if c.name = "" then l
          else if c.name ∈ l.map (·.name) then l.map (fun a => if a.name = c.name then g1 a c else a)
          else l ++ [⟨c.name, c.kind, c.required, c.dflt.getD ""⟩]) l =
      calls.foldl (fun l c =>
          if c.name = "" then l
          else if c.name ∈ l.map (·.name) then l.map (fun a => if a.name = c.name then g2 a c else a)
          else l ++ [⟨c.name, c.kind, c.required, c.dflt.getD ""⟩]) l := by
    intro calls
    induction calls with
    | nil => intros; rfl
    | cons c cs ih =>
      intro l hnd hfresh g1 g2
      rw [List.map_cons, List.nodup_cons] at hnd
      simp only [List.foldl_cons]
      by_cases he : c.name = ""
      · rw [if_pos he, if_pos he]
        exact ih l hnd.2 (fun x hx => hfresh x (List.mem_cons_of_mem _ hx)) g1 g2
      · have hc := hfresh c List.mem_cons_self
        rw [if_neg he, if_neg he, if_neg hc, if_neg hc]
        refine ih _ hnd.2 ?_ g1 g2
        intro x hx hm
        rw [List.map_append, List.mem_append] at hm
        rcases hm with hm | hm
        · exact hfresh x (List.mem_cons_of_mem _ hx) hm
        · simp only [List.map_cons, List.map_nil, List.mem_singleton] at hm
          exact hnd.1 (by rw [← hm]; exact List.mem_map.2 ⟨x, hx, rfl⟩)
  exact key calls [] hn (by simp) merged replaced

/-- **C76** is violated: a second `AddArg` with the same name can neither make the argument optional nor remove its
default: the old attributes remain. -/
theorem C76_again_counterexample :
    getArg (define [⟨"a", "int", true, some "5"⟩, ⟨"a", "int", false, none⟩]) 0 = some ("a", "int", true, "5") ∧
    (args replaced [⟨"a", "int", true, some "5"⟩, ⟨"a", "int", false, none⟩]) = [⟨"a", "int", false, ""⟩] := by
  refine ⟨?_, by decide⟩
  rw [(C76_args _).2.1]
  decide

/-! ### The command -/

/-- **C76**: the command made from a definition has a field for each argument which is required or has a default, with
the default as value, in the order of the arguments, and no other field. -/
theorem C76_command (calls : List Call) : makeCommand (define calls) = wanted (args merged calls) := by
  have h := rep_define calls
  have hg := (C76_args calls).2.1
  generalize hl : args merged calls = l at *
  generalize define calls = f at *
  have key : ∀ n, n ≤ l.length → (List.range n).foldl (putArg f) [] = wanted (l.take n) := by
    intro n
    induction n with
    | zero => intro _; rfl
    | succ n ih =>
      intro hn
      have hlt : n < l.length := by omega
      rw [List.range_succ, List.foldl_append, ih (by omega)]
      simp only [List.foldl_cons, List.foldl_nil]
      have ht : l.take (n + 1) = l.take n ++ [l[n]] := (List.take_append_getElem hlt).symm
      unfold putArg
      rw [hg n, List.getElem?_eq_getElem hlt]
      simp only [Option.map_some]
      rw [ht]
      by_cases hc : (l[n].required || decide (l[n].dflt ≠ "")) = true
      · rw [if_pos hc]
        unfold setStr wanted
        rw [List.filter_append, List.map_append]
        congr 1
        · rw [List.filter_eq_self]
          intro x hx
          obtain ⟨a, ha, e⟩ := List.mem_map.1 hx
          have ha' := (List.mem_filter.1 ha).1
          rw [← e]
          simp only [decide_eq_true_eq]
          obtain ⟨i, hi⟩ := List.mem_iff_getElem?.1 ha'
          intro hname
          rw [List.getElem?_take] at hi
          split at hi
          · rename_i hin
            have h1 := rep_find_some h hi
            have h2 := rep_find_some h (List.getElem?_eq_getElem hlt)
            rw [hname, h2] at h1
            have := Option.some.inj h1
            omega
          · cases hi
        · rw [List.filter_cons, if_pos hc]; rfl
      · rw [if_neg hc]
        unfold wanted
        rw [List.filter_append, List.filter_cons, if_neg hc]
        simp
  unfold makeCommand
  rw [h.num, key l.length (Nat.le_refl _), List.take_length]

example : makeCommand (define [⟨"a", "int", true, none⟩, ⟨"b", "string", false, some "x"⟩, ⟨"c", "string", false, none⟩]) =
    [("a", ""), ("b", "x")] := by rw [C76_command]; decide

end Verif.CmdDef
