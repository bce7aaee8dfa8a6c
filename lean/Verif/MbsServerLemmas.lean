import Verif.Spec.MbsServer

/-! Invariants of the MBS server. -/

namespace Verif.MbsServer

open Spec

/-- Queues of connected clients. -/
def links (l : List (Option Link)) : List (Nat × List Item) := (l.map orphan).flatten

theorem links_nil : links [] = [] := rfl

theorem links_cons (x : Option Link) (l : List (Option Link)) : links (x :: l) = orphan x ++ links l := rfl

theorem links_append (l l' : List (Option Link)) : links (l ++ l') = links l ++ links l' := by
  simp [links]

theorem mem_links {l : List (Option Link)} {p : Nat × List Item} :
    p ∈ links l ↔ ∃ n : Nat, l[n]? = some (some ⟨p.2, some p.1⟩) := by
  constructor
  · intro h
    simp only [links, List.mem_flatten, List.mem_map] at h
    obtain ⟨_, ⟨x, hx, rfl⟩, hp⟩ := h
    obtain ⟨n, hn⟩ := List.mem_iff_getElem?.mp hx
    refine ⟨n, ?_⟩
    rw [hn]
    obtain _ | ⟨items, _ | k⟩ := x
    · simp [orphan] at hp
    · simp [orphan] at hp
    · simp [orphan] at hp; subst hp; rfl
  · rintro ⟨n, hn⟩
    simp only [links, List.mem_flatten, List.mem_map]
    exact ⟨_, ⟨_, List.mem_of_getElem? hn, rfl⟩, by simp [orphan]⟩

theorem links_none (l : List (Option Link)) : links (l.map fun _ => (none : Option Link)) = [] := by
  induction l with
  | nil => rfl
  | cons x l ih => rw [List.map_cons, links_cons, ih]; rfl

/-- How often a client occurs. -/
def cnt (k : Nat) (l : List (Nat × List Item)) : Nat := l.countP fun p => p.1 == k

theorem cnt_append (k : Nat) (a b : List (Nat × List Item)) : cnt k (a ++ b) = cnt k a + cnt k b := by simp [cnt]

theorem cnt_pos {k : Nat} {l : List (Nat × List Item)} {p : Nat × List Item} (h : p ∈ l) (hk : p.1 = k) : 0 < cnt k l :=
  List.countP_pos_iff.mpr ⟨p, h, by simp [hk]⟩

theorem cnt_set (k : Nat) (x : Option Link) : ∀ (l : List (Option Link)) (n : Nat) (y : Option Link), l[n]? = some y →
    cnt k (links (l.set n x)) + cnt k (orphan y) = cnt k (links l) + cnt k (orphan x) := by
  intro l
  induction l with
  | nil => intro n y h; simp at h
  | cons a l ih =>
    intro n y h
    cases n with
    | zero =>
      simp at h; subst h
      rw [List.set_cons_zero, links_cons, links_cons, cnt_append, cnt_append]; omega
    | succ n =>
      simp at h
      rw [List.set_cons_succ, links_cons, links_cons, cnt_append, cnt_append]
      have := ih n y h
      omega

theorem links_set {l : List (Option Link)} {n : Nat} {x : Option Link} {p : Nat × List Item} (h : p ∈ links (l.set n x)) :
    p ∈ orphan x ∨ p ∈ links l := by
  obtain ⟨m, hm⟩ := mem_links.mp h
  rw [List.getElem?_set] at hm
  split at hm
  · split at hm
    · left; simp at hm; subst hm; simp [orphan]
    · simp at hm
  · exact Or.inr (mem_links.mpr ⟨m, hm⟩)

/-- In a list where a client is at most once, it has one queue only. -/
theorem cnt_unique {k : Nat} : ∀ {l : List (Nat × List Item)}, cnt k l ≤ 1 → ∀ {p q : Nat × List Item}, p ∈ l → q ∈ l → p.1 = k →
    q.1 = k → p = q := by
  intro l
  induction l with
  | nil => intro _ p q h; simp at h
  | cons a l ih =>
    intro hc p q hp hq hpk hqk
    have e : cnt k (a :: l) = cnt k [a] + cnt k l := cnt_append k [a] l
    rcases List.mem_cons.mp hp with rfl | hp' <;> rcases List.mem_cons.mp hq with rfl | hq'
    · rfl
    · have := cnt_pos hq' hqk
      have : cnt k [p] = 1 := by simp [cnt, hpk]
      omega
    · have := cnt_pos hp' hpk
      have : cnt k [q] = 1 := by simp [cnt, hqk]
      omega
    · exact ih (by omega) hp' hq' hpk hqk

theorem findIdx_has {k n : Nat} {l : List (Option Link)} (h : l.findIdx? (has k) = some n) :
    ∃ items, l[n]? = some (some ⟨items, some k⟩) := by
  obtain ⟨hn, hx⟩ := List.findIdx?_eq_some_iff_getElem.mp h
  have hx := hx.1
  rw [List.getElem?_eq_getElem hn]
  generalize l[n] = x at hx ⊢
  obtain _ | ⟨items, _ | j⟩ := x
  · simp [has] at hx
  · simp [has] at hx
  · simp [has] at hx; subst hx; exact ⟨items, rfl⟩

/-- What is true in every state. -/
structure Inv (s : S) : Prop where
  one : ∀ k, cnt k (links s.slots ++ s.orphans) ≤ 1
  old : ∀ k, s.next ≤ k → cnt k (links s.slots ++ s.orphans) = 0 ∧ s.got k = []
  born : ∀ k, s.born k ≤ s.taken.length
  /-- Connected clients. -/
  eq : ∀ p ∈ links s.slots, (s.deliverAll = true → s.got p.1 ++ p.2 = since s p.1) ∧ (s.got p.1 ++ p.2).Sublist (since s p.1)
  /-- Others which still have a queue. -/
  pre : ∀ p ∈ s.orphans, (s.deliverAll = true → s.got p.1 ++ p.2 <+: since s p.1) ∧ (s.got p.1 ++ p.2).Sublist (since s p.1)
  all : ∀ k, (s.deliverAll = true → s.got k <+: since s k) ∧ (s.got k).Sublist (since s k)
  /-- A queue without client will be released. -/
  free : ∀ (n : Nat) (items : List Item), s.slots[n]? = some (some ⟨items, none⟩) → Ev.gone n ∈ s.evs

/-- Only queues, events and such things changed, and no queue of a client is new. -/
theorem Inv.less {s t : S} (h : Inv s) (hd : t.deliverAll = s.deliverAll) (hg : t.got = s.got) (ht : t.taken = s.taken)
    (hb : t.born = s.born) (hn : t.next = s.next)
    (hc : ∀ k, cnt k (links t.slots ++ t.orphans) ≤ cnt k (links s.slots ++ s.orphans))
    (h1 : ∀ p ∈ links t.slots, p ∈ links s.slots) (h2 : ∀ p ∈ t.orphans, p ∈ links s.slots ++ s.orphans)
    (hf : ∀ (n : Nat) (items : List Item), t.slots[n]? = some (some ⟨items, none⟩) → Ev.gone n ∈ t.evs) : Inv t := by
  have hs : ∀ k, since t k = since s k := fun k => by simp [since, ht, hb]
  refine ⟨fun k => ?_, fun k hk => ?_, fun k => ?_, fun p hp => ?_, fun p hp => ?_, fun k => ?_, hf⟩
  · exact Nat.le_trans (hc k) (h.one k)
  · rw [hn] at hk
    have := h.old k hk
    have := hc k
    rw [hg]
    exact ⟨by omega, (h.old k hk).2⟩
  · rw [hb, ht]; exact h.born k
  · rw [hd, hg, hs]; exact h.eq p (h1 p hp)
  · rw [hd, hg, hs]
    rcases List.mem_append.mp (h2 p hp) with hp | hp
    · have := h.eq p hp
      exact ⟨fun e => this.1 e ▸ List.prefix_refl _, this.2⟩
    · exact h.pre p hp
  · rw [hd, hg, hs]; exact h.all k

theorem orphan_mem {l : List (Option Link)} {n : Nat} {x : Option Link} (h : l[n]? = some x) {p : Nat × List Item} (hp : p ∈ orphan x) :
    p ∈ links l := by
  simp only [links, List.mem_flatten, List.mem_map]
  exact ⟨_, ⟨_, List.mem_of_getElem? h, rfl⟩, hp⟩

theorem inv_close {s : S} (h : Inv s) : Inv (close s) := by
  refine h.less rfl rfl rfl rfl rfl (fun k => ?_) (fun p hp => ?_) (fun p hp => ?_) fun n items hn => ?_
  · show cnt k (links (s.slots.map fun _ => none) ++ (s.orphans ++ links s.slots)) ≤ _
    rw [links_none, List.nil_append, cnt_append, cnt_append]; omega
  · have : p ∈ links (s.slots.map fun _ => none) := hp
    rw [links_none] at this; simp at this
  · have : p ∈ s.orphans ++ links s.slots := hp
    simp only [List.mem_append] at this ⊢
    exact this.symm
  · have : (s.slots.map fun _ => (none : Option Link))[n]? = some (some ⟨items, none⟩) := hn
    simp at this

theorem inv_cut {s : S} (h : Inv s) (n : Nat) (evs : List Ev) (he : ∀ m, m ≠ n → Ev.gone m ∈ s.evs → Ev.gone m ∈ evs) :
    Inv (cut { s with evs := evs } n) := by
  unfold cut
  split
  · rename_i l hl
    have hl : s.slots[n]? = some l := hl
    refine h.less rfl rfl rfl rfl rfl (fun k => ?_) (fun p hp => ?_) (fun p hp => ?_) fun m items hm => ?_
    · show cnt k (links (s.slots.set n none) ++ (s.orphans ++ orphan l)) ≤ _
      have := cnt_set k none s.slots n l hl
      have h0 : cnt k (orphan none) = 0 := rfl
      rw [cnt_append, cnt_append, cnt_append]; omega
    · rcases links_set (show p ∈ links (s.slots.set n none) from hp) with h | h
      · simp [orphan] at h
      · exact h
    · have : p ∈ s.orphans ++ orphan l := hp
      simp only [List.mem_append] at this ⊢
      rcases this with h | h
      · exact Or.inr h
      · exact Or.inl (orphan_mem hl h)
    · have hm : (s.slots.set n none)[m]? = some (some ⟨items, none⟩) := hm
      rw [List.getElem?_set] at hm
      split at hm
      · split at hm <;> simp at hm
      · rename_i hne
        exact he m (fun e => hne e.symm) (h.free m items hm)
  · rename_i hl
    have hl : s.slots[n]? = none := hl
    refine h.less rfl rfl rfl rfl rfl (fun k => Nat.le_refl _) (fun p hp => hp) (fun p hp => List.mem_append.mpr (Or.inr hp)) fun m items hm => ?_
    refine he m (fun e => ?_) (h.free m items hm)
    subst e
    have hm : s.slots[m]? = some (some ⟨items, none⟩) := hm
    rw [hl] at hm; simp at hm

theorem links_sendAll {cap : Nat} {b : Item} {l : List (Option Link)} {p : Nat × List Item} (h : p ∈ links (sendAll cap b l)) :
    ∃ q ∈ links l, q.1 = p.1 ∧ (p.2 = q.2 ++ [b] ∨ (p.2 = q.2 ∧ ∃ x ∈ l, connected x = true ∧ canSend cap x = false)) := by
  obtain ⟨n, hn⟩ := mem_links.mp h
  simp only [sendAll, List.getElem?_map, Option.map_eq_some_iff] at hn
  obtain ⟨x, hx, he⟩ := hn
  split at he
  · rename_i hc
    obtain _ | ⟨items, _ | k⟩ := x
    · simp [put] at he
    · simp [put] at he
    · simp only [canSend] at hc
      have hlt : items.length < cap := by
        rcases Nat.lt_or_ge items.length cap with h | h
        · exact h
        · rw [if_neg (by omega)] at hc; simp at hc
      simp only [put, if_pos hlt] at he
      simp at he
      exact ⟨(k, items), mem_links.mpr ⟨n, hx⟩, he.2, Or.inl he.1.symm⟩
  · rename_i hc
    subst he
    exact ⟨p, mem_links.mpr ⟨n, hx⟩, rfl, Or.inr ⟨rfl, _, List.mem_of_getElem? hx, rfl, by simpa using hc⟩⟩

theorem orphan_put (cap : Nat) (b : Item) (x : Option Link) (k : Nat) :
    cnt k (orphan (if canSend cap x then put cap b x else x)) = cnt k (orphan x) := by
  obtain _ | ⟨items, _ | j⟩ := x <;> split <;> simp [put, orphan, cnt]

theorem cnt_sendAll (k cap : Nat) (b : Item) (l : List (Option Link)) : cnt k (links (sendAll cap b l)) = cnt k (links l) := by
  induction l with
  | nil => rfl
  | cons x l ih =>
    have : sendAll cap b (x :: l) = (if canSend cap x then put cap b x else x) :: sendAll cap b l := rfl
    rw [this, links_cons, links_cons, cnt_append, cnt_append, orphan_put, ih]

theorem inv_took {s : S} (h : Inv s) (b : Item) (rest : List Item) (hc : s.deliverAll = true → allCan s = true) :
    Inv { s with inp := rest, slots := sendAll s.cap b s.slots, taken := s.taken ++ [b] } := by
  have hs : ∀ k, (s.taken ++ [b]).drop (s.born k) = since s k ++ [b] := fun k => List.drop_append_of_le_length (h.born k)
  refine ⟨fun k => ?_, fun k hk => ?_, fun k => ?_, fun p hp => ?_, fun p hp => ?_, fun k => ?_, fun n items hn => ?_⟩
  · show cnt k (links (sendAll s.cap b s.slots) ++ s.orphans) ≤ 1
    have := h.one k
    rw [cnt_append] at this ⊢
    rw [cnt_sendAll]; exact this
  · have := h.old k hk
    rw [cnt_append] at this
    refine ⟨?_, this.2⟩
    show cnt k (links (sendAll s.cap b s.slots) ++ s.orphans) = 0
    rw [cnt_append, cnt_sendAll]; exact this.1
  · have := h.born k
    show s.born k ≤ (s.taken ++ [b]).length
    rw [List.length_append]; omega
  · obtain ⟨q, hq, hk, hv⟩ := links_sendAll (show p ∈ links (sendAll s.cap b s.slots) from hp)
    show (_ → s.got p.1 ++ p.2 = (s.taken ++ [b]).drop (s.born p.1)) ∧ (s.got p.1 ++ p.2).Sublist ((s.taken ++ [b]).drop (s.born p.1))
    rw [hs, ← hk]
    have := h.eq q hq
    rcases hv with hv | ⟨hv, x, hx, hx1, hx2⟩
    · rw [hv, ← List.append_assoc]
      exact ⟨fun hd => by rw [this.1 hd], this.2.append (List.Sublist.refl _)⟩
    · refine ⟨fun hd => ?_, ?_⟩
      · have := hc hd
        simp only [allCan, List.all_eq_true] at this
        have := this x hx
        simp [hx1, hx2] at this
      · rw [hv]; exact this.2.trans (List.sublist_append_left _ _)
  · show (_ → s.got p.1 ++ p.2 <+: (s.taken ++ [b]).drop (s.born p.1)) ∧ (s.got p.1 ++ p.2).Sublist ((s.taken ++ [b]).drop (s.born p.1))
    rw [hs]
    have := h.pre p hp
    exact ⟨fun hd => (this.1 hd).trans (List.prefix_append _ _), this.2.trans (List.sublist_append_left _ _)⟩
  · show (_ → s.got k <+: (s.taken ++ [b]).drop (s.born k)) ∧ (s.got k).Sublist ((s.taken ++ [b]).drop (s.born k))
    rw [hs]
    have := h.all k
    exact ⟨fun hd => (this.1 hd).trans (List.prefix_append _ _), this.2.trans (List.sublist_append_left _ _)⟩
  · have hn : (sendAll s.cap b s.slots)[n]? = some (some ⟨items, none⟩) := hn
    simp only [sendAll, List.getElem?_map, Option.map_eq_some_iff] at hn
    obtain ⟨x, hx, he⟩ := hn
    show Ev.gone n ∈ s.evs
    obtain _ | ⟨its, c⟩ := x
    · split at he <;> simp [put] at he
    · have : c = none := by
        split at he
        · simp [put] at he; exact he.2
        · simp at he; exact he.2
      subst this
      exact h.free n its hx

theorem inv_sendNext {s : S} (h : Inv s) : Inv (sendNext s) := by
  unfold sendNext
  split
  · exact h
  · rename_i b rest _
    split
    · exact h
    · split
      · exact h
      · rename_i hc
        have h' := inv_took h b rest fun hd => by
          simp [hd] at hc
          exact hc
        dsimp only
        split
        · split
          · exact inv_close h'
          · exact h'.less rfl rfl rfl rfl rfl (fun k => Nat.le_refl _) (fun p hp => hp) (fun p hp => List.mem_append.mpr (Or.inr hp)) h'.free
        · exact h'

theorem inv_onStop {s : S} (h : Inv s) (n : Nat) (evs : List Ev) (he : ∀ m, m ≠ n → Ev.gone m ∈ s.evs → Ev.gone m ∈ evs) :
    Inv (onStop { s with evs := evs } n) := by
  unfold onStop
  have := inv_cut h n evs he
  dsimp only
  split
  · exact inv_close this
  · exact this

/-- A new client with an empty queue. -/
theorem inv_new {s : S} (h : Inv s) (slots : List (Option Link)) (hc : ∀ k, cnt k (links slots) = cnt k (links s.slots) + if k = s.next then 1 else 0)
    (hm : ∀ p ∈ links slots, p = (s.next, []) ∨ p ∈ links s.slots)
    (hf : ∀ (n : Nat) (items : List Item), slots[n]? = some (some ⟨items, none⟩) → Ev.gone n ∈ s.evs) :
    Inv { s with slots := slots, next := s.next + 1, born := fun j => if j = s.next then s.taken.length else s.born j } := by
  have hg : s.got s.next = [] := (h.old s.next (Nat.le_refl _)).2
  have h0 := (h.old s.next (Nat.le_refl _)).1
  rw [cnt_append] at h0
  have ne : ∀ p, p ∈ links s.slots ++ s.orphans → p.1 ≠ s.next := by
    intro p hp e
    have := cnt_pos hp e
    rw [cnt_append] at this; omega
  refine ⟨fun k => ?_, fun k hk => ?_, fun k => ?_, fun p hp => ?_, fun p hp => ?_, fun k => ?_, hf⟩
  · show cnt k (links slots ++ s.orphans) ≤ 1
    have := h.one k
    rw [cnt_append] at this ⊢
    rw [hc]
    split
    · rename_i e; subst e; omega
    · omega
  · have hk : s.next + 1 ≤ k := hk
    have := h.old k (by omega)
    refine ⟨?_, this.2⟩
    have := this.1
    show cnt k (links slots ++ s.orphans) = 0
    rw [cnt_append] at this ⊢
    rw [hc, if_neg (by omega)]; omega
  · show (if k = s.next then s.taken.length else s.born k) ≤ s.taken.length
    split
    · exact Nat.le_refl _
    · exact h.born k
  · show (_ → s.got p.1 ++ p.2 = s.taken.drop (if p.1 = s.next then _ else _)) ∧ (s.got p.1 ++ p.2).Sublist (s.taken.drop (if p.1 = s.next then _ else _))
    rcases hm p hp with rfl | hp
    · simp [hg]
    · rw [if_neg (ne p (List.mem_append.mpr (Or.inl hp)))]
      exact h.eq p hp
  · show (_ → s.got p.1 ++ p.2 <+: s.taken.drop (if p.1 = s.next then _ else _)) ∧ (s.got p.1 ++ p.2).Sublist (s.taken.drop (if p.1 = s.next then _ else _))
    rw [if_neg (ne p (List.mem_append.mpr (Or.inr hp)))]
    exact h.pre p hp
  · show (_ → s.got k <+: s.taken.drop (if k = s.next then _ else _)) ∧ (s.got k).Sublist (s.taken.drop (if k = s.next then _ else _))
    split
    · rename_i e; subst e; simp [hg]
    · exact h.all k

theorem inv_connect {s : S} (h : Inv s) (he : s.evs = []) (f i : Bool) : Inv (connect s f i) := by
  unfold connect
  split
  · exact h
  · split
    · exact h
    · split
      · exact h
      · dsimp only
        generalize hj : s.slots.findIdx (fun l => !connected l) = j
        split
        · rename_i l hl
          exfalso
          have hl : s.slots[j]? = some (some l) := hl
          have hlt : j < s.slots.length := (List.getElem?_eq_some_iff.mp hl).1
          have := List.findIdx_getElem (w := hj ▸ hlt)
          have hx : s.slots[j]'hlt = some l := (List.getElem?_eq_some_iff.mp hl).2
          subst hj
          rw [hx] at this
          obtain ⟨items, _ | k⟩ := l
          · have := h.free _ _ hl
            rw [he] at this; simp at this
          · simp [connected] at this
        · rename_i hl
          have hl : s.slots[j]? = some none := hl
          refine inv_new h _ (fun k => ?_) (fun p hp => ?_) fun n items hn => ?_
          · have := cnt_set k (some ⟨[], some s.next⟩) s.slots j none hl
            have h0 : cnt k (orphan none) = 0 := rfl
            have h1 : cnt k (orphan (some ⟨[], some s.next⟩)) = if k = s.next then 1 else 0 := by
              by_cases hk : k = s.next
              · subst hk; simp [orphan, cnt]
              · simp [orphan, cnt, hk, Ne.symm hk]
            omega
          · rcases links_set hp with h | h
            · left; simpa [orphan] using h
            · exact Or.inr h
          · rw [List.getElem?_set] at hn
            split at hn
            · split at hn <;> simp at hn
            · exact h.free n items hn
        · refine inv_new h _ (fun k => ?_) (fun p hp => ?_) fun n items hn => ?_
          · rw [links_append, cnt_append]
            have h1 : cnt k (links [some ⟨[], some s.next⟩]) = if k = s.next then 1 else 0 := by
              by_cases hk : k = s.next
              · subst hk; simp [links, orphan, cnt]
              · simp [links, orphan, cnt, hk, Ne.symm hk]
            omega
          · rw [links_append, List.mem_append] at hp
            rcases hp with hp | hp
            · exact Or.inr hp
            · left; simpa [links, orphan] using hp
          · rw [List.getElem?_append] at hn
            split at hn
            · exact h.free n items hn
            · rw [List.getElem?_singleton] at hn
              split at hn <;> simp at hn

/-- Client `k` takes a buffer: only its own queue changes. -/
theorem inv_took1 {s : S} (h : Inv s) (k : Nat) (b : Item) (rest : List Item) (slots : List (Option Link)) (orphans : List (Nat × List Item))
    (hp : (k, b :: rest) ∈ links s.slots ++ s.orphans)
    (hc : ∀ j, cnt j (links slots ++ orphans) = cnt j (links s.slots ++ s.orphans))
    (h1 : ∀ p ∈ links slots, (p = (k, rest) ∧ (k, b :: rest) ∈ links s.slots) ∨ (p.1 ≠ k ∧ p ∈ links s.slots))
    (h2 : ∀ p ∈ orphans, (p = (k, rest) ∧ (k, b :: rest) ∈ s.orphans) ∨ (p.1 ≠ k ∧ p ∈ s.orphans))
    (hf : ∀ (n : Nat) (items : List Item), slots[n]? = some (some ⟨items, none⟩) → Ev.gone n ∈ s.evs) :
    Inv { s with slots := slots, orphans := orphans, got := fun j => if j = k then s.got j ++ [b] else s.got j } := by
  refine ⟨fun j => ?_, fun j hj => ?_, h.born, fun p hp => ?_, fun p hp => ?_, fun j => ?_, hf⟩
  · show cnt j (links slots ++ orphans) ≤ 1
    rw [hc]; exact h.one j
  · have hj : s.next ≤ j := hj
    have := h.old j hj
    refine ⟨by show cnt j (links slots ++ orphans) = 0; rw [hc]; exact this.1, ?_⟩
    show (if j = k then s.got j ++ [b] else s.got j) = []
    rw [if_neg, this.2]
    rintro rfl
    have := cnt_pos (k := j) hp rfl
    have := (h.old j hj).1
    omega
  · show (_ → (if p.1 = k then s.got p.1 ++ [b] else s.got p.1) ++ p.2 = since s p.1) ∧ ((if p.1 = k then s.got p.1 ++ [b] else s.got p.1) ++ p.2).Sublist (since s p.1)
    rcases h1 p hp with ⟨rfl, hm⟩ | ⟨hne, hm⟩
    · rw [if_pos rfl, List.append_assoc]
      exact h.eq _ hm
    · rw [if_neg hne]; exact h.eq p hm
  · show (_ → (if p.1 = k then s.got p.1 ++ [b] else s.got p.1) ++ p.2 <+: since s p.1) ∧ ((if p.1 = k then s.got p.1 ++ [b] else s.got p.1) ++ p.2).Sublist (since s p.1)
    rcases h2 p hp with ⟨rfl, hm⟩ | ⟨hne, hm⟩
    · rw [if_pos rfl, List.append_assoc]
      exact h.pre _ hm
    · rw [if_neg hne]; exact h.pre p hm
  · show (_ → (if j = k then s.got j ++ [b] else s.got j) <+: since s j) ∧ (if j = k then s.got j ++ [b] else s.got j).Sublist (since s j)
    split
    · rename_i e
      subst e
      have hpre : s.got j ++ [b] <+: s.got j ++ b :: rest := ⟨rest, by simp⟩
      rcases List.mem_append.mp hp with hp | hp
      · have := h.eq _ hp
        exact ⟨fun e => hpre.trans (this.1 e ▸ List.prefix_refl _), hpre.sublist.trans this.2⟩
      · have := h.pre _ hp
        exact ⟨fun e => hpre.trans (this.1 e), hpre.sublist.trans this.2⟩
    · exact h.all j

theorem cnt_map (j k : Nat) (rest : List Item) (l : List (Nat × List Item)) :
    cnt j (l.map fun p => if p.1 = k then (k, rest) else p) = cnt j l := by
  induction l with
  | nil => rfl
  | cons p l ih =>
    have e1 : ∀ (x : Nat × List Item) (l : List (Nat × List Item)), cnt j (x :: l) = cnt j [x] + cnt j l := fun x l => cnt_append j [x] l
    rw [List.map_cons, e1, e1 p, ih]
    congr 1
    split
    · rename_i e; simp [cnt, e]
    · rfl

theorem inv_take {s : S} (h : Inv s) (k : Nat) : Inv (take s k) := by
  unfold take
  split
  · rename_i n hn
    obtain ⟨items, hi⟩ := findIdx_has hn
    rw [hi]
    split
    · rename_i b rest c hx
      simp only [Option.some.injEq, Link.mk.injEq] at hx
      obtain ⟨rfl, rfl⟩ := hx
      have hm : (k, b :: rest) ∈ links s.slots := mem_links.mpr ⟨n, hi⟩
      have hcnt : ∀ j, cnt j (links (s.slots.set n (some ⟨rest, some k⟩))) = cnt j (links s.slots) := by
        intro j
        have := cnt_set j (some ⟨rest, some k⟩) s.slots n _ hi
        have e : cnt j (orphan (some ⟨rest, some k⟩)) = cnt j (orphan (some ⟨b :: rest, some k⟩)) := by simp [orphan, cnt]
        omega
      refine inv_took1 h k b rest _ s.orphans (List.mem_append.mpr (Or.inl hm)) (fun j => by rw [cnt_append, cnt_append, hcnt]) (fun p hp => ?_)
        (fun p hp => Or.inr ⟨fun e => ?_, hp⟩) fun m items hm' => ?_
      · obtain ⟨m, hmm⟩ := mem_links.mp hp
        rw [List.getElem?_set] at hmm
        split at hmm
        · rename_i e
          split at hmm
          · simp at hmm
            exact Or.inl ⟨by rw [hmm.1, hmm.2], hm⟩
          · simp at hmm
        · rename_i hne
          refine Or.inr ⟨fun e => ?_, mem_links.mpr ⟨m, hmm⟩⟩
          have c1 := cnt_set k none s.slots n _ hi
          have c2 : cnt k (orphan none) = 0 := rfl
          have c3 : cnt k (orphan (some ⟨b :: rest, some k⟩)) = 1 := by simp [orphan, cnt]
          have c4 := h.one k
          rw [cnt_append] at c4
          have c5 : p ∈ links (s.slots.set n none) := mem_links.mpr ⟨m, by rw [List.getElem?_set, if_neg hne]; exact hmm⟩
          have := cnt_pos c5 e
          omega
      · have c4 := h.one k
        rw [cnt_append] at c4
        have := cnt_pos (k := k) hm rfl
        have := cnt_pos hp e
        omega
      · rw [List.getElem?_set] at hm'
        split at hm'
        · split at hm' <;> simp at hm'
        · exact h.free m items hm'
    · exact h
  · rename_i hn
    split
    · rename_i k' b rest hf
      have hmem := List.mem_of_find?_eq_some hf
      have hk : k' = k := by simpa using List.find?_some hf
      subst hk
      refine inv_took1 h k' b rest s.slots _ (List.mem_append.mpr (Or.inr hmem)) (fun j => by rw [cnt_append, cnt_append, cnt_map])
        (fun p hp => Or.inr ⟨fun e => ?_, hp⟩) (fun p hp => ?_) h.free
      · have c4 := h.one k'
        rw [cnt_append] at c4
        have := cnt_pos (k := k') hmem rfl
        have := cnt_pos hp e
        omega
      · obtain ⟨q, hq, hqe⟩ := List.mem_map.mp hp
        split at hqe
        · exact Or.inl ⟨hqe.symm, hmem⟩
        · rename_i hne
          subst hqe
          exact Or.inr ⟨hne, hq⟩
    · exact h

theorem cnt_filter (j : Nat) (f : Nat × List Item → Bool) (l : List (Nat × List Item)) : cnt j (l.filter f) ≤ cnt j l :=
  List.Sublist.countP_le (List.filter_sublist)

theorem inv_leave {s : S} (h : Inv s) (k : Nat) : Inv (leave s k) := by
  unfold leave
  split
  · rename_i n hn
    obtain ⟨items, hi⟩ := findIdx_has hn
    rw [hi]
    refine h.less rfl rfl rfl rfl rfl (fun j => ?_) (fun p hp => ?_) (fun p hp => List.mem_append.mpr (Or.inr hp)) fun m its hm => ?_
    · show cnt j (links (s.slots.set n (some ⟨items, none⟩)) ++ s.orphans) ≤ _
      have := cnt_set j (some ⟨items, none⟩) s.slots n _ hi
      have c2 : cnt j (orphan (some ⟨items, none⟩)) = 0 := rfl
      rw [cnt_append, cnt_append]; omega
    · rcases links_set (show p ∈ links (s.slots.set n (some ⟨items, none⟩)) from hp) with h | h
      · simp [orphan] at h
      · exact h
    · have hm : (s.slots.set n (some ⟨items, none⟩))[m]? = some (some ⟨its, none⟩) := hm
      show Ev.gone m ∈ s.evs ++ [.gone n]
      rw [List.getElem?_set] at hm
      split at hm
      · rename_i e; subst e; simp
      · exact List.mem_append.mpr (Or.inl (h.free m its hm))
  · refine h.less rfl rfl rfl rfl rfl (fun j => ?_) (fun p hp => hp) (fun p hp => ?_) h.free
    · rw [cnt_append, cnt_append]
      have := cnt_filter j (fun p => decide (p.1 ≠ k)) s.orphans
      show cnt j (links s.slots) + cnt j (s.orphans.filter fun p => decide (p.1 ≠ k)) ≤ _
      omega
    · exact List.mem_append.mpr (Or.inr (List.mem_filter.mp hp).1)

theorem inv_evs {s : S} (h : Inv s) (evs : List Ev) (he : ∀ e ∈ s.evs, e ∈ evs) : Inv { s with evs := evs } :=
  h.less rfl rfl rfl rfl rfl (fun _ => Nat.le_refl _) (fun _ hp => hp) (fun _ hp => List.mem_append.mpr (Or.inr hp))
    fun n items hn => he _ (h.free n items hn)

theorem inv_destroy {s : S} (h : Inv s) (k : Nat) : Inv (destroy s k) := by
  unfold destroy
  split
  · exact inv_leave (inv_evs h _ fun e he => List.mem_append.mpr (Or.inl he)) k
  · exact inv_leave h k

theorem inv_step {s : S} (h : Inv s) (op : Op) (ho : ∀ f i, op = .connect f i → s.evs = []) : Inv (step s op) := by
  cases op with
  | arrive b =>
    simp only [step]
    split
    · exact h.less rfl rfl rfl rfl rfl (fun _ => Nat.le_refl _) (fun _ hp => hp) (fun _ hp => List.mem_append.mpr (Or.inr hp)) h.free
    · exact h
  | turn =>
    simp only [step]
    split
    · exact h
    · exact inv_sendNext h
  | connect f i =>
    simp only [step]
    split
    · exact h
    · exact inv_connect h (ho f i rfl) f i
  | take k => exact inv_take h k
  | leave k => exact inv_leave h k
  | destroy k => exact inv_destroy h k
  | event =>
    simp only [step]
    split
    · exact h
    · split
      · exact h
      · rename_i n r hr
        refine inv_onStop h n r fun m hm hg => ?_
        rw [hr] at hg
        simpa using hg
      · rename_i n r hr
        refine inv_cut h n r fun m hm hg => ?_
        rw [hr] at hg
        simp [hm] at hg
        exact hg

theorem inv_run : ∀ {ops : List Op} {s : S}, Inv s → Orderly s ops → Inv (run s ops) := by
  intro ops
  induction ops with
  | nil => intro s h _; exact h
  | cons op ops ih => intro s h ho; exact ih (inv_step h op ho.1) ho.2

theorem inv_start (b d : Bool) (lim icap cap : Nat) : Inv (new b d lim icap cap) := by
  refine ⟨fun k => ?_, fun k _ => ⟨rfl, rfl⟩, fun k => Nat.zero_le _, fun p hp => ?_, fun p hp => ?_, fun k => ?_, fun n items hn => ?_⟩
  · exact Nat.zero_le _
  · simp [new, links] at hp
  · simp [new] at hp
  · simp [new, since]
  · simp [new] at hn

end Verif.MbsServer
