import Verif.Spec.RefVector

/-!
# C42: vector of references
-/

namespace Verif.RefVector

theorem append_set (a : List (Option Nat)) (x y : Option Nat) (b : List (Option Nat)) :
    (a ++ x :: b).set a.length y = a ++ y :: b := by
  induction a with
  | nil => rfl
  | cons c a ih => simp [ih]

theorem append_get (a : List (Option Nat)) (x : Option Nat) (b : List (Option Nat)) :
    (a ++ x :: b)[a.length]? = some x := by
  simp

/-- Moving the next slot into an empty one. -/
theorem move_down (w : W) (a b : List (Option Nat)) (y : Option Nat) (h : w.vec = a ++ none :: y :: b) :
    move w a.length (a.length + 1) = some { w with vec := (a ++ [y]) ++ none :: b } := by
  unfold move
  rw [h, append_get]
  dsimp only
  have e1 := append_set a none none (y :: b)
  rw [e1]
  have e2 : (a ++ none :: y :: b)[a.length + 1]? = some y := by
    have := append_get (a ++ [none]) y b
    simp only [List.append_assoc, List.cons_append, List.nil_append, List.length_append, List.length_cons,
      List.length_nil] at this
    exact this
  rw [e2]
  dsimp only
  have e3 : (a ++ none :: y :: b).set (a.length + 1) none = a ++ none :: none :: b := by
    have := append_set (a ++ [none]) y none b
    simp only [List.append_assoc, List.cons_append, List.nil_append, List.length_append, List.length_cons,
      List.length_nil] at this
    exact this
  rw [e3, append_set]
  simp [release]

/-- Moving the previous slot into an empty one. -/
theorem move_up (w : W) (a b : List (Option Nat)) (y : Option Nat) (h : w.vec = a ++ y :: none :: b) :
    move w (a.length + 1) a.length = some { w with vec := a ++ none :: y :: b } := by
  unfold move
  have e2 : (a ++ y :: none :: b)[a.length + 1]? = some none := by
    have := append_get (a ++ [y]) none b
    simp only [List.append_assoc, List.cons_append, List.nil_append, List.length_append, List.length_cons,
      List.length_nil] at this
    exact this
  have e3 : ∀ z x, (a ++ z :: none :: b).set (a.length + 1) x = a ++ z :: x :: b := by
    intro z x
    have := append_set (a ++ [z]) none x b
    simp only [List.append_assoc, List.cons_append, List.nil_append, List.length_append, List.length_cons,
      List.length_nil] at this
    exact this
  rw [h, e2]
  dsimp only
  rw [e3, append_get]
  dsimp only
  rw [append_set, e3]
  simp [release]

theorem shiftDown_spec : ∀ (post pre : List (Option Nat)) (w : W), w.vec = pre ++ none :: post →
    shiftDown pre.length post.length w = some { w with vec := pre ++ post ++ [none] }
  | [], pre, w, h => by
    show some w = _
    rw [show pre ++ [] ++ [none] = w.vec by rw [h]; simp]
  | y :: post, pre, w, h => by
    rw [List.length_cons, shiftDown, move_down w pre post y h]
    dsimp only
    have := shiftDown_spec post (pre ++ [y]) { w with vec := (pre ++ [y]) ++ none :: post } rfl
    rw [List.length_append, List.length_cons, List.length_nil] at this
    rw [this]
    simp

theorem shiftUp_spec (pre : List (Option Nat)) : ∀ (k : Nat) (post b : List (Option Nat)) (w : W), post.length = k →
    w.vec = pre ++ post ++ none :: b →
    shiftUp pre.length (pre.length + k) w = some { w with vec := pre ++ none :: (post ++ b) }
  | 0, post, b, w, hk, h => by
    have : post = [] := List.length_eq_zero_iff.1 hk
    subst this
    have hw : w = { w with vec := pre ++ none :: ([] ++ b) } := by
      rw [show pre ++ none :: ([] ++ b) = w.vec by rw [h]; simp]
    rw [← hw, Nat.add_zero]
    cases hp : pre.length with
    | zero => rfl
    | succ n => rw [shiftUp, if_neg (by omega)]
  | k + 1, post, b, w, hk, h => by
    have hne : post ≠ [] := fun e => by rw [e] at hk; simp at hk
    have hsp := List.dropLast_concat_getLast hne
    generalize post.getLast hne = y at *
    generalize hi : post.dropLast = init at *
    subst hsp
    have hl : init.length = k := by simpa using hk
    rw [← Nat.add_assoc, shiftUp, if_pos (by omega)]
    have h' : w.vec = (pre ++ init) ++ y :: none :: b := by rw [h]; simp
    have hm := move_up w (pre ++ init) b y h'
    rw [List.length_append, hl] at hm
    rw [hm]
    dsimp only
    have := shiftUp_spec pre k init (y :: b) { w with vec := (pre ++ init) ++ none :: y :: b } hl (by simp)
    rw [this]
    simp

theorem put_spec (w : W) (a b : List (Option Nat)) (r : Option Nat) (h : w.vec = a ++ none :: b) :
    put w a.length r = some { w with vec := a ++ r :: b } := by
  unfold put
  rw [h, append_get]
  dsimp only
  rw [append_set]
  simp [release]

theorem refill_spec : ∀ (l : List (Option Nat)) (w : W), w.vec.length + l.length ≤ w.cap →
    refill l w = some { w with vec := w.vec ++ l }
  | [], w, _ => by simp [refill]
  | r :: l, w, h => by
    rw [List.length_cons] at h
    rw [refill, pushBack, if_pos (by omega), put_spec _ w.vec [] r rfl]
    dsimp only
    rw [refill_spec l _ (by simp; omega)]
    simp

/-- A vector whose storage suffices. -/
def Fits (w : W) : Prop := w.vec.length ≤ w.cap ∧ 8 ≤ w.cap

theorem expand_spec (w : W) (h : Fits w) (hs : w.vec.length < 2 ^ 31) :
    ∃ c, expand w = some { w with cap := c } ∧ w.vec.length < c ∧ 8 ≤ c := by
  obtain ⟨h1, h2⟩ := h
  unfold expand
  split
  · rename_i h3
    simp only [Bool.or_eq_true, decide_eq_true_eq] at h3
    exact ⟨w.cap, rfl, by omega, h2⟩
  · rename_i h3
    simp only [Bool.or_eq_true, decide_eq_true_eq] at h3
    have e : 2 * w.cap % 2 ^ 32 = 2 * w.cap := Nat.mod_eq_of_lt (by omega)
    rw [e]
    refine ⟨2 * w.cap, ?_, by omega, by omega⟩
    rw [refill_spec _ _ (by simp; omega)]
    simp

theorem pushBack_spec (w : W) (h : w.vec.length < w.cap) : pushBack w = { w with vec := w.vec ++ [none] } := if_pos h

theorem removeAt_spec (w : W) (a b : List (Option Nat)) (x : Option Nat) (h : w.vec = a ++ x :: b) :
    removeAt w a.length = some { w with vec := a ++ b, released := w.released ++ x.toList } := by
  unfold removeAt
  rw [if_neg (by rw [h]; simp)]
  unfold take
  rw [h, append_get]
  dsimp only
  rw [append_set]
  have hl : (a ++ none :: b).length - 1 - a.length = b.length := by simp
  rw [hl, shiftDown_spec b a _ rfl]
  dsimp only
  unfold popBack
  simp [release]

theorem removeAt_out (w : W) (n : Nat) (h : w.vec.length ≤ n) : removeAt w n = some w := if_pos h

theorem removeLoop_spec (o : Nat) : ∀ (n : Nat) (a b : List (Option Nat)) (w : W), a.length = n → w.vec = a ++ b →
    removeLoop o n w = some { w with
      vec := a.filter (· ≠ some o) ++ b, released := w.released ++ List.replicate (a.count (some o)) o }
  | 0, a, b, w, hn, h => by
    have : a = [] := List.length_eq_zero_iff.1 hn
    subst this
    rw [List.nil_append] at h
    simp [removeLoop, ← h]
  | n + 1, a, b, w, hn, h => by
    have hne : a ≠ [] := fun e => by rw [e] at hn; simp at hn
    have hsp := List.dropLast_concat_getLast hne
    generalize a.getLast hne = y at *
    generalize hi : a.dropLast = init at *
    subst hsp
    have hl : init.length = n := by simpa using hn
    have h' : w.vec = init ++ y :: b := by rw [h]; simp
    rw [removeLoop, h', ← hl, append_get]
    dsimp only
    by_cases hy : y = some o
    · subst hy
      rw [if_pos rfl, removeAt_spec w init b _ h']
      dsimp only
      rw [hl, removeLoop_spec o n init b _ hl rfl]
      simp [List.filter_append, List.replicate_succ]
    · rw [if_neg hy, hl, removeLoop_spec o n init (y :: b) w hl h']
      have h2 : List.count (some o) [y] = 0 := by
        rw [List.count_eq_zero]; simpa using fun e => hy e.symm
      simp [List.filter_append, hy]

theorem extractRef_spec (w : W) (a b : List (Option Nat)) (x r : Option Nat) (h : w.vec = a ++ x :: b) :
    extractRef w a.length r = some (true, x, { w with vec := a ++ b, released := w.released ++ r.toList }) := by
  unfold extractRef
  rw [if_neg (by rw [h]; simp)]
  unfold take
  rw [h, append_get]
  dsimp only
  rw [append_set, removeAt_spec _ a b none rfl]
  simp [release]

theorem takeRef_spec (w : W) (a b : List (Option Nat)) (x : Option Nat) (h : w.vec = a ++ x :: b) :
    takeRef w a.length = some (x, { w with vec := a ++ b }) := by
  unfold takeRef
  rw [extractRef_spec w a b x none h]
  simp

theorem findObj_spec (o : Option Nat) : ∀ (l : List (Option Nat)) (n : Nat),
    (findObj o l n = none ∧ o ∉ l) ∨ ∃ a b, l = a ++ o :: b ∧ o ∉ a ∧ findObj o l n = some (n + a.length)
  | [], n => Or.inl ⟨rfl, by simp⟩
  | x :: l, n => by
    by_cases hx : x = o
    · subst hx
      exact Or.inr ⟨[], l, rfl, by simp, by simp [findObj]⟩
    · rcases findObj_spec o l (n + 1) with ⟨h1, h2⟩ | ⟨a, b, h1, h2, h3⟩
      · refine Or.inl ⟨by rw [findObj, if_neg hx, h1], ?_⟩
        simp [h2, Ne.symm hx]
      · refine Or.inr ⟨x :: a, b, by rw [h1]; rfl, by simp [h2, Ne.symm hx], ?_⟩
        rw [findObj, if_neg hx, h3, List.length_cons]
        congr 1
        omega

theorem clearLoop_spec (owner : Bool) : ∀ (b a : List (Option Nat)) (w : W), w.vec = a ++ b →
    clearLoop owner a.length b.length w = some { w with
      vec := a ++ b.map fun _ => none,
      released := w.released ++ (if owner then [] else b.filterMap id),
      destroyed := w.destroyed ++ (if owner then b.filterMap id else []) }
  | [], a, w, h => by
    rw [List.append_nil] at h
    simp [clearLoop, ← h]
  | x :: b, a, w, h => by
    rw [List.length_cons, clearLoop]
    unfold take
    rw [h, append_get]
    dsimp only
    rw [append_set]
    cases owner with
    | true =>
      have := clearLoop_spec true b (a ++ [none])
        { w with vec := a ++ none :: b, destroyed := w.destroyed ++ x.toList } (by simp)
      rw [List.length_append, List.length_cons, List.length_nil] at this
      rw [if_pos rfl, this]
      cases x <;> simp
    | false =>
      have := clearLoop_spec false b (a ++ [none])
        (release { w with vec := a ++ none :: b } x) (by simp [release])
      rw [List.length_append, List.length_cons, List.length_nil] at this
      rw [if_neg (by simp), this]
      cases x <;> simp [release]

theorem split_at (l : List Nat) (n : Nat) (h : n < l.length) : ∃ x, l[n]? = some x ∧ l = l.take n ++ x :: l.drop (n + 1) := by
  refine ⟨l[n], by simp [h], ?_⟩
  rw [← List.drop_eq_getElem_cons h, List.take_append_drop]

theorem filter_map_some (l : List Nat) (o : Nat) :
    (l.map some).filter (· ≠ some o) = (l.filter (· ≠ o)).map some := by
  induction l with
  | nil => rfl
  | cons a l ih =>
    by_cases h : a = o <;> simp_all

theorem replicate_count (l : List Nat) (o : Nat) :
    List.replicate ((l.map some).count (some o)) o = l.filter (· = o) := by
  induction l with
  | nil => rfl
  | cons a l ih =>
    by_cases h : a = o
    · subst h; simp [List.replicate_succ] at ih ⊢; exact ih
    · have h' : ¬ (some a = some o) := by simpa using h
      simp [h, List.count_cons] at ih ⊢
      exact ih

/-- Every operation does to the vector what the same operation does to a list of objects: it never fails, the other
references stay in order, the caller gets the right answer and reference, exactly the references the caller gives up are
released, and nothing is copied. -/
theorem C42_step (w : W) (l : List Nat) (op : Op) (h : Holds w l) (hf : Fits w) (hs : l.length < 2 ^ 31) :
    ∃ w', op.step w = some (op.out l, w') ∧ Holds w' (op.list l) ∧ Fits w' ∧
      w'.released = w.released ++ op.gone l ∧ w'.destroyed = w.destroyed ++ op.killed l ∧ w'.copies = w.copies := by
  have hlen : w.vec.length = l.length := by rw [h]; simp
  have hat : ∀ n, n < l.length → ∃ x, l[n]? = some x ∧
      w.vec = (l.take n).map some ++ some x :: (l.drop (n + 1)).map some ∧ ((l.take n).map some).length = n := by
    intro n hn
    obtain ⟨x, e, hx⟩ := split_at l n hn
    refine ⟨x, e, ?_, by simp; omega⟩
    rw [h]
    conv => lhs; rw [hx]
    simp
  obtain ⟨hf1, hf2⟩ := hf
  cases op with
  | add r =>
    cases r with
    | none => exact ⟨w, rfl, h, ⟨hf1, hf2⟩, by simp [Op.gone], by simp [Op.killed], rfl⟩
    | some o =>
      obtain ⟨c, e, h1, h2⟩ := expand_spec w ⟨hf1, hf2⟩ (by omega)
      refine ⟨{ w with vec := w.vec ++ [some o], cap := c }, ?_, ?_, ?_, by simp [Op.gone], by simp [Op.killed], rfl⟩
      · simp only [Op.step, add, if_neg (show ¬ (some o = none) by simp), e]
        rw [pushBack_spec _ h1]
        dsimp only
        have := put_spec { w with vec := w.vec ++ [none], cap := c } w.vec [] (some o) rfl
        rw [show (w.vec ++ [(none : Option Nat)]).length - 1 = w.vec.length by simp, this]
        rfl
      · simp only [Holds, Op.list]
        rw [h]; simp
      · exact ⟨by simp; omega, h2⟩
  | addAt r p =>
    cases r with
    | none => exact ⟨w, rfl, h, ⟨hf1, hf2⟩, by simp [Op.gone], by simp [Op.killed], rfl⟩
    | some o =>
      obtain ⟨c, e, h1, h2⟩ := expand_spec w ⟨hf1, hf2⟩ (by omega)
      by_cases hp : p ≥ (w.vec ++ [none]).length
      · refine ⟨{ w with vec := w.vec ++ [some o], cap := c }, ?_, ?_, ?_, by simp [Op.gone], by simp [Op.killed], rfl⟩
        · simp only [Op.step, addAt, if_neg (show ¬ (some o = none) by simp), e]
          rw [pushBack_spec _ h1]
          dsimp only
          rw [if_pos hp]
          have := put_spec { w with vec := w.vec ++ [none], cap := c } w.vec [] (some o) rfl
          rw [show (w.vec ++ [(none : Option Nat)]).length - 1 = w.vec.length by simp, this]
          rfl
        · have hp' : l.length ≤ p := by simp [hlen] at hp; omega
          simp only [Holds, Op.list, List.take_of_length_le hp', List.drop_of_length_le hp']
          rw [h]; simp
        · exact ⟨by simp; omega, h2⟩
      · have hp' : p ≤ l.length := by simp [hlen] at hp; omega
        have hpre : ((l.take p).map some).length = p := by simp; omega
        refine ⟨{ w with vec := (l.take p).map some ++ some o :: (l.drop p).map some, cap := c }, ?_, ?_, ?_,
          by simp [Op.gone], by simp [Op.killed], rfl⟩
        · simp only [Op.step, addAt, if_neg (show ¬ (some o = none) by simp), e]
          rw [pushBack_spec _ h1]
          dsimp only
          rw [if_neg hp]
          have hv : w.vec = (l.take p).map some ++ (l.drop p).map some := by
            rw [h, ← List.map_append, List.take_append_drop]
          have := shiftUp_spec ((l.take p).map some) (l.length - p) ((l.drop p).map some) []
            { w with vec := w.vec ++ [none], cap := c } (by simp) (by rw [hv])
          rw [hpre, show p + (l.length - p) = (w.vec ++ [none]).length - 1 by simp [hlen]; omega] at this
          rw [this]
          dsimp only
          have h3 := put_spec { w with vec := (l.take p).map some ++ none :: ((l.drop p).map some ++ []), cap := c }
            ((l.take p).map some) ((l.drop p).map some ++ []) (some o) rfl
          rw [hpre] at h3
          rw [h3]
          simp [Op.out]
        · simp [Holds, Op.list]
        · refine ⟨?_, h2⟩
          simp
          omega
  | remove o =>
    cases o with
    | none => exact ⟨w, rfl, h, ⟨hf1, hf2⟩, by simp [Op.gone], by simp [Op.killed], rfl⟩
    | some o =>
      by_cases h0 : w.vec.length = 0
      · have hl0 : l = [] := List.length_eq_zero_iff.1 (by omega)
        subst hl0
        refine ⟨w, ?_, by simpa [Op.list] using h, ⟨hf1, hf2⟩, by simp [Op.gone], by simp [Op.killed], rfl⟩
        simp [Op.step, remove, h0, Op.out]
      · have hs := removeLoop_spec o w.vec.length w.vec [] w rfl (by simp)
        rw [List.append_nil] at hs
        refine ⟨?_, ?_, ?_, ?_, ?_, ?_, ?_⟩
        rotate_left 1
        · simp only [Op.step, remove]
          rw [if_neg h0, hs]
          have hne : l.isEmpty = false := by
            cases l with
            | nil => simp at hlen; exact absurd (by rw [hlen]; rfl) h0
            | cons => rfl
          simp only [Op.out, hne, Option.map_some]
          rfl
        · show List.filter _ w.vec = _
          rw [h]
          exact filter_map_some l o
        · refine ⟨?_, hf2⟩
          have := List.length_filter_le (fun x => decide (x ≠ some o)) w.vec
          dsimp only
          omega
        · dsimp only [Op.gone]
          rw [h, replicate_count]
        · simp [Op.killed]
        · rfl
  | removeAt n =>
    by_cases hn : n < l.length
    · obtain ⟨x, e, hv, hp⟩ := hat n hn
      have := removeAt_spec w _ _ _ hv
      rw [hp] at this
      refine ⟨?_, ?_, ?_, ?_, ?_, ?_, ?_⟩
      rotate_left 1
      · simp only [Op.step, this, Option.map_some]
        rfl
      · simp [Holds, Op.list]
      · refine ⟨?_, hf2⟩
        simp
        omega
      · simp [Op.gone, e]
      · simp [Op.killed]
      · rfl
    · refine ⟨w, ?_, ?_, ⟨hf1, hf2⟩, ?_, by simp [Op.killed], rfl⟩
      · simp only [Op.step, removeAt_out w n (by omega), Option.map_some]
        rfl
      · simp only [Op.list]
        rw [List.take_of_length_le (by omega), List.drop_of_length_le (by omega), List.append_nil]
        exact h
      · simp [Op.gone, List.getElem?_eq_none (Nat.le_of_not_lt hn)]
  | takeRef n =>
    by_cases hn : n < l.length
    · obtain ⟨x, e, hv, hp⟩ := hat n hn
      have := takeRef_spec w _ _ _ hv
      rw [hp] at this
      refine ⟨?_, ?_, ?_, ?_, ?_, ?_, ?_⟩
      rotate_left 1
      · simp only [Op.step, this, Option.map_some, Op.out, e]
        rfl
      · simp [Holds, Op.list]
      · refine ⟨?_, hf2⟩
        simp
        omega
      · simp [Op.gone]
      · simp [Op.killed]
      · rfl
    · refine ⟨w, ?_, ?_, ⟨hf1, hf2⟩, by simp [Op.gone], by simp [Op.killed], rfl⟩
      · have e : extractRef w n none = some (false, none, w) := if_pos (by omega)
        simp only [Op.step, takeRef, e, Option.map_some, Op.out, List.getElem?_eq_none (Nat.le_of_not_lt hn)]
      · simp only [Op.list]
        rw [List.take_of_length_le (by omega), List.drop_of_length_le (by omega), List.append_nil]
        exact h
  | extract n r =>
    by_cases hn : n < l.length
    · obtain ⟨x, e, hv, hp⟩ := hat n hn
      have := extractRef_spec w _ _ _ r hv
      rw [hp] at this
      refine ⟨?_, ?_, ?_, ?_, ?_, ?_, ?_⟩
      rotate_left 1
      · simp only [Op.step, this, Option.map_some, Op.out, e, if_pos hn]
        rfl
      · simp [Holds, Op.list]
      · refine ⟨?_, hf2⟩
        simp
        omega
      · simp [Op.gone, hn]
      · simp [Op.killed]
      · rfl
    · refine ⟨w, ?_, ?_, ⟨hf1, hf2⟩, by simp [Op.gone, hn], by simp [Op.killed], rfl⟩
      · have e : extractRef w n r = some (false, r, w) := if_pos (by omega)
        simp only [Op.step, e, Option.map_some, Op.out, if_neg hn]
      · simp only [Op.list]
        rw [List.take_of_length_le (by omega), List.drop_of_length_le (by omega), List.append_nil]
        exact h
  | extractObj o r =>
    rcases findObj_spec o w.vec 0 with ⟨h1, h2⟩ | ⟨a, b, h1, h2, h3⟩
    · refine ⟨w, ?_, ?_, ⟨hf1, hf2⟩, ?_, by simp [Op.killed], rfl⟩
      · simp only [Op.step, extractObj, h1, Option.map_some, Op.out]
        cases o with
        | none => rfl
        | some o =>
          have : o ∉ l := by rw [h] at h2; simpa using h2
          simp [this]
      · cases o with
        | none => exact h
        | some o =>
          have : o ∉ l := by rw [h] at h2; simpa using h2
          simpa [Op.list, List.erase_of_not_mem this] using h
      · cases o with
        | none => simp [Op.gone]
        | some o =>
          have : o ∉ l := by rw [h] at h2; simpa using h2
          simp [Op.gone, this]
    · have hl := h1
      rw [h] at hl
      obtain ⟨a', b', rfl, ha, hb⟩ := List.map_eq_append_iff.1 hl
      obtain ⟨x, b'', rfl, hx, hb'⟩ := List.map_eq_cons_iff.1 hb
      subst hx ha hb'
      have hxa : x ∉ a' := by simpa using h2
      have := extractRef_spec w _ _ _ r h1
      rw [Nat.zero_add] at h3
      refine ⟨?_, ?_, ?_, ?_, ?_, ?_, ?_⟩
      rotate_left 1
      · simp only [Op.step, extractObj, h3, this, Option.map_some, Op.out]
        rw [if_pos (by simp)]
      · simp [Holds, Op.list, List.erase_append_right _ hxa]
      · refine ⟨?_, hf2⟩
        rw [h1] at hf1
        simp at hf1 ⊢
        omega
      · simp [Op.gone]
      · simp [Op.killed]
      · rfl
  | takeLast =>
    by_cases h0 : w.vec.length > 0
    · have hne : l ≠ [] := fun e => by rw [e] at hlen; simp at hlen; rw [hlen] at h0; simp at h0
      have hsp := List.dropLast_concat_getLast hne
      have hv : w.vec = (l.dropLast).map some ++ some (l.getLast hne) :: [] := by
        rw [h]
        conv => lhs; rw [← hsp]
        simp
      have hp : w.vec.length - 1 = ((l.dropLast).map some).length := by rw [hv]; simp
      refine ⟨{ w with vec := (l.dropLast).map some }, ?_, ?_, ?_, by simp [Op.gone], by simp [Op.killed], rfl⟩
      · simp only [Op.step, takeLast]
        rw [if_pos h0]
        unfold take
        rw [hp, hv, append_get]
        dsimp only
        rw [append_set]
        simp only [Option.map_some, Op.out, List.getLast?_eq_some_getLast hne]
        simp [popBack, release]
      · simp [Holds, Op.list]
      · refine ⟨?_, hf2⟩
        simp
        omega
    · have hl0 : l = [] := List.length_eq_zero_iff.1 (by omega)
      subst hl0
      refine ⟨w, ?_, by simpa [Op.list] using h, ⟨hf1, hf2⟩, by simp [Op.gone], by simp [Op.killed], rfl⟩
      simp only [Op.step, takeLast]
      rw [if_neg h0]
      rfl
  | clear b =>
    have := clearLoop_spec b w.vec [] w rfl
    rw [List.length_nil] at this
    refine ⟨?_, ?_, ?_, ?_, ?_, ?_, ?_⟩
    rotate_left 1
    · simp only [Op.step, clear, this, Option.map_some]
      rfl
    · simp [Holds, Op.list]
    · exact ⟨by simp, hf2⟩
    · have e : (List.map (fun _ : Option Nat => (none : Option Nat)) w.vec).filterMap id = [] := by
        generalize w.vec = v
        induction v with
        | nil => rfl
        | cons a v ih => simpa using ih
      have e2 : w.vec.filterMap id = l := by
        rw [h]
        induction l with
        | nil => rfl
        | cons a v ih => simp
      dsimp only
      rw [List.nil_append, e, e2]
      cases b <;> simp [Op.gone]
    · have e2 : w.vec.filterMap id = l := by
        rw [h]
        simp
      dsimp only
      rw [e2]
      cases b <;> simp [Op.killed]
    · rfl

/-- A vector with two objects. -/
example : Holds { init with vec := [some 3, some 5] } [3, 5] ∧ Fits { init with vec := [some 3, some 5] } := by
  refine ⟨rfl, ?_, ?_⟩ <;> decide

/-- No operation makes the list more than one longer. -/
theorem list_length (l : List Nat) (op : Op) : (op.list l).length ≤ l.length + 1 := by
  cases op with
  | add r => cases r <;> simp [Op.list]
  | addAt r p => cases r <;> simp [Op.list]; omega
  | remove o =>
    cases o with
    | none => simp [Op.list]
    | some o => have := List.length_filter_le (fun x => decide (x ≠ o)) l; simp only [Op.list]; omega
  | removeAt n => simp [Op.list]; omega
  | takeRef n => simp [Op.list]; omega
  | extract n r => simp [Op.list]; omega
  | extractObj o r =>
    cases o with
    | none => simp [Op.list]
    | some o => have := List.length_erase_le (a := o) (l := l); simp only [Op.list]; omega
  | takeLast => simp [Op.list]; omega
  | clear b => simp [Op.list]

theorem step_ledger (l : List Nat) (op : Op) :
    (l ++ op.given).Perm (op.list l ++ op.gone l ++ op.killed l ++ (op.out l).ref.toList) := by
  rw [List.perm_iff_count]
  intro x
  have cut : ∀ n, n < l.length → List.count x l =
      List.count x (l.take n) + List.count x l[n]?.toList + List.count x (l.drop (n + 1)) := by
    intro n hn
    obtain ⟨y, e, hy⟩ := split_at l n hn
    rw [e]
    conv => lhs; rw [hy]
    rw [List.count_append, List.count_cons]
    simp [List.count_cons]
    omega
  cases op with
  | add r => cases r <;> simp [Op.list, Op.given, Op.gone, Op.killed, Op.out]
  | addAt r p =>
    cases r with
    | none => simp [Op.list, Op.given, Op.gone, Op.killed, Op.out]
    | some o =>
      have := congrArg (List.count x) (List.take_append_drop p l)
      rw [List.count_append] at this
      simp [Op.list, Op.given, Op.gone, Op.killed, Op.out, List.count_cons]
      omega
  | remove o =>
    cases o with
    | none => simp [Op.list, Op.given, Op.gone, Op.killed, Op.out]
    | some o =>
      simp only [Op.list, Op.given, Op.gone, Op.killed, Op.out, List.count_append, Option.toList, List.count_nil]
      induction l with
      | nil => rfl
      | cons a l ih =>
        have ih := ih fun n hn => by
          obtain ⟨y, e, hy⟩ := split_at l n hn
          rw [e]
          conv => lhs; rw [hy]
          rw [List.count_append, List.count_cons]
          simp [List.count_cons]
          omega
        by_cases h : a = o <;> simp [h, List.count_cons] at ih ⊢ <;> omega
  | removeAt n =>
    by_cases hn : n < l.length
    · have := cut n hn
      simp [Op.list, Op.given, Op.gone, Op.killed, Op.out, hn] at this ⊢
      omega
    · have hn' := Nat.le_of_not_lt hn
      simp [Op.list, Op.given, Op.gone, Op.killed, Op.out, List.take_of_length_le hn',
        List.drop_of_length_le (Nat.le_succ_of_le hn'), List.getElem?_eq_none hn']
  | takeRef n =>
    by_cases hn : n < l.length
    · have := cut n hn
      simp [Op.list, Op.given, Op.gone, Op.killed, Op.out, hn] at this ⊢
      omega
    · have hn' := Nat.le_of_not_lt hn
      simp [Op.list, Op.given, Op.gone, Op.killed, Op.out, List.take_of_length_le hn',
        List.drop_of_length_le (Nat.le_succ_of_le hn'), List.getElem?_eq_none hn']
  | extract n r =>
    by_cases hn : n < l.length
    · have := cut n hn
      simp [Op.list, Op.given, Op.gone, Op.killed, Op.out, hn] at this ⊢
      omega
    · have hn' := Nat.le_of_not_lt hn
      simp [Op.list, Op.given, Op.gone, Op.killed, Op.out, List.take_of_length_le hn', hn,
        List.drop_of_length_le (Nat.le_succ_of_le hn')]
  | extractObj o r =>
    cases o with
    | none => simp [Op.list, Op.given, Op.gone, Op.killed, Op.out]
    | some o =>
      by_cases ho : o ∈ l
      · have := (List.perm_cons_erase ho).count_eq x
        rw [List.count_cons] at this
        simp [Op.list, Op.given, Op.gone, Op.killed, Op.out, ho, List.count_cons]
        simp at this
        omega
      · simp [Op.list, Op.given, Op.gone, Op.killed, Op.out, ho, List.erase_of_not_mem ho]
  | takeLast =>
    by_cases hl : l = []
    · simp [hl, Op.list, Op.given, Op.gone, Op.killed, Op.out]
    · have := congrArg (List.count x) (List.dropLast_concat_getLast hl)
      rw [List.count_append] at this
      simp [Op.list, Op.given, Op.gone, Op.killed, Op.out, List.getLast?_eq_some_getLast hl]
      omega
  | clear b => cases b <;> simp [Op.list, Op.given, Op.gone, Op.killed, Op.out]

theorem run_from : ∀ (ops : List Op) (w : W) (l : List Nat), Holds w l → Fits w → l.length + ops.length < 2 ^ 31 →
    ∃ outs w', run w ops = some (outs, w') ∧ Holds w' (lists l ops) ∧ w'.copies = w.copies ∧
      ∃ gone killed, w'.released = w.released ++ gone ∧ w'.destroyed = w.destroyed ++ killed ∧
        (l ++ ops.flatMap Op.given).Perm
          (lists l ops ++ gone ++ killed ++ outs.flatMap fun o => o.ref.toList)
  | [], w, l, h, _, _ => ⟨[], w, rfl, h, rfl, [], [], by simp, by simp, by simp [lists]⟩
  | op :: ops, w, l, h, hf, hs => by
    rw [List.length_cons] at hs
    obtain ⟨w1, e, h1, hf1, h2, h3, h4⟩ := C42_step w l op h hf (by omega)
    have hl := list_length l op
    obtain ⟨outs, w', e', h1', h4', gone, killed, h2', h3', hp⟩ :=
      run_from ops w1 (op.list l) h1 hf1 (by omega)
    refine ⟨op.out l :: outs, w', ?_, h1', by rw [h4', h4], op.gone l ++ gone, op.killed l ++ killed,
      by rw [h2', h2, List.append_assoc], by rw [h3', h3, List.append_assoc], ?_⟩
    · rw [run, e]
      dsimp only
      rw [e']
      rfl
    · have hop := step_ledger l op
      rw [List.flatMap_cons, List.flatMap_cons]
      rw [List.perm_iff_count] at hop hp ⊢
      intro x
      have a1 := hop x
      have a2 := hp x
      simp only [List.count_append] at a1 a2 ⊢
      simp only [lists, List.foldl_cons] at a2 ⊢
      omega

/-- From the empty vector, for every sequence of operations: the vector holds what a list would hold, nothing is copied, and
every reference which was ever given to the vector is exactly once in the vector, given back, destroyed or handed out. -/
theorem C42_run (ops : List Op) (hs : ops.length < 2 ^ 31) :
    ∃ outs w, run init ops = some (outs, w) ∧ Holds w (lists [] ops) ∧ w.copies = 0 ∧
      (ops.flatMap Op.given).Perm
        (lists [] ops ++ w.released ++ w.destroyed ++ outs.flatMap fun o => o.ref.toList) := by
  obtain ⟨outs, w, e, h, hc, gone, killed, h2, h3, hp⟩ :=
    run_from ops init [] rfl ⟨by decide, by decide⟩ (by simpa using hs)
  refine ⟨outs, w, e, h, hc, ?_⟩
  rw [h2, h3]
  simpa [init] using hp

example : ([.add (some 3), .addAt (some 5) 0, .takeLast] : List Op).length < 2 ^ 31 ∧
    lists [] [.add (some 3), .addAt (some 5) 0, .takeLast] = [5] := by decide

/-- What can be asked about a vector. -/
theorem C42_ask (w : W) (l : List Nat) (h : Holds w l) :
    getSize w = l.length ∧ (∀ n, getObject w n = l[n]?) ∧ (∀ o, hasObject w (some o) = decide (o ∈ l)) ∧
      ∀ named, findObject w named = l.find? named := by
  refine ⟨by simp [getSize, show w.vec = l.map some from h], fun n => ?_, fun o => ?_, fun f => ?_⟩
  · unfold getObject
    rw [show w.vec = l.map some from h]
    by_cases hn : n < l.length
    · simp [hn]
    · simp [hn]
  · unfold hasObject
    rw [show w.vec = l.map some from h]
    by_cases ho : o ∈ l <;> simp [ho]
  · unfold findObject
    rw [show w.vec = l.map some from h]
    simp

end Verif.RefVector
