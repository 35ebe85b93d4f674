import Verif.Props.Order
import Verif.Spec.Select
import Mathlib.Data.List.TakeWhile
/-!
# Structural navigation on well formed trees
-/
namespace Visdom
open Spec

variable {h : Heap} {r : Nat}

theorem find?_getElem {α : Type} {p : α → Bool} {l : List α} {e : α} :
    l.find? p = some e ↔ ∃ j : Nat, l[j]? = some e ∧ p e = true ∧ ∀ k z, k < j → l[k]? = some z → p z = false := by
  induction l with
  | nil => simp
  | cons a l ih =>
    rw [List.find?_cons]
    cases ha : p a with
    | true =>
      simp only [Option.some.injEq]
      constructor
      · rintro rfl
        exact ⟨0, by simp, ha, by intro k z hk; omega⟩
      · rintro ⟨j, hj, he, hk⟩
        cases j with
        | zero => simpa using hj
        | succ j =>
          have := hk 0 a (by omega) (by simp)
          rw [ha] at this; cases this
    | false =>
      simp only [ih]
      constructor
      · rintro ⟨j, hj, he, hk⟩
        refine ⟨j + 1, by simpa using hj, he, ?_⟩
        intro k z hlt hz
        cases k with
        | zero => simp at hz; subst hz; exact ha
        | succ k => exact hk k z (by omega) (by simpa using hz)
      · rintro ⟨j, hj, he, hk⟩
        cases j with
        | zero => simp at hj; subst hj; rw [ha] at he; cases he
        | succ j =>
          refine ⟨j, by simpa using hj, he, ?_⟩
          intro k z hlt hz
          exact hk (k + 1) z (by omega) (by simpa using hz)

theorem mem_children {x c : Nat} : c ∈ h.children x ↔ c ∈ h.kids x ∧ h.isElem c = true := by
  simp [Heap.children]

variable (wf : TreeWF h r)
include wf

theorem mem_nextElem {x e : Nat} (hx : Within h r x) :
    h.nextElem x = some e ↔ NextSib h r x e ∧ h.isElem e = true := by
  by_cases hne : x = r
  · subst hne
    constructor
    · unfold Heap.nextElem; rw [wf.rootParent]; simp
    · rintro ⟨⟨p, i, j, hp, _, hi, _⟩, _⟩
      exact absurd rfl (child_ne_root wf hp (List.mem_of_getElem? hi))
  · obtain ⟨p, hpar, hp, hidx⟩ := parent_inv wf hx hne
    unfold Heap.nextElem
    rw [hpar]
    simp only [find?_getElem, List.getElem?_drop]
    constructor
    · rintro ⟨j, hj, he, hk⟩
      refine ⟨⟨p, h.index x, h.index x + 1 + j, hp, by omega, hidx, hj, ?_⟩, he⟩
      intro k z h1 h2 hz
      exact hk (k - (h.index x + 1)) z (by omega) (by rw [show h.index x + 1 + (k - (h.index x + 1)) = k by omega]; exact hz)
    · rintro ⟨⟨q, i, j, hq, hlt, hi, hj, hk⟩, he⟩
      obtain ⟨h1, h2⟩ := wf.link _ _ _ hq hi
      rw [hpar] at h1
      obtain rfl : p = q := by simpa using h1
      subst h2
      refine ⟨j - (h.index x + 1), by rw [show h.index x + 1 + (j - (h.index x + 1)) = j by omega]; exact hj, he, ?_⟩
      intro k z hkl hz
      exact hk _ z (by omega) (by omega) hz

theorem index_lt {x p : Nat} (hx : Within h r x) (hp : h.parent x = some p) : h.index x < (h.kids p).length := by
  have := (parent_some wf hx hp).2
  rcases Nat.lt_or_ge (h.index x) (h.kids p).length with h1 | h1
  · exact h1
  · rw [List.getElem?_eq_none h1] at this; cases this

theorem nextElems_ok {x : Nat} (hx : Within h r x) : ∃ l, h.nextElems x = .ok l ∧
    (∀ e, e ∈ l ↔ LaterSib h r x e ∧ h.isElem e = true) ∧
    (l = [] ∨ ∃ p, Within h r p ∧ h.parent x = some p ∧ l.Sublist (h.kids p)) := by
  by_cases hne : x = r
  · subst hne
    refine ⟨[], by unfold Heap.nextElems; rw [wf.rootParent], ?_, Or.inl rfl⟩
    intro e
    constructor
    · intro he; cases he
    · rintro ⟨⟨p, i, j, hp, _, hi, _⟩, _⟩
      exact absurd rfl (child_ne_root wf hp (List.mem_of_getElem? hi))
  · obtain ⟨p, hpar, hp, hidx⟩ := parent_inv wf hx hne
    have hlt := index_lt wf hx hpar
    refine ⟨((h.kids p).drop (h.index x + 1)).filter h.isElem, ?_, ?_, Or.inr ⟨p, hp, hpar, ?_⟩⟩
    · unfold Heap.nextElems; rw [hpar]; simp; omega
    · intro e
      rw [List.mem_filter, List.mem_iff_getElem?]
      simp only [List.getElem?_drop]
      constructor
      · rintro ⟨⟨j, hj⟩, he⟩
        exact ⟨⟨p, _, _, hp, by omega, hidx, hj⟩, he⟩
      · rintro ⟨⟨q, i, j, hq, hlt, hi, hj⟩, he⟩
        obtain ⟨h1, h2⟩ := wf.link _ _ _ hq hi
        rw [hpar] at h1
        obtain rfl : p = q := by simpa using h1
        subst h2
        exact ⟨⟨j - (h.index x + 1), by rw [show h.index x + 1 + (j - (h.index x + 1)) = j by omega]; exact hj⟩, he⟩
    · exact List.filter_sublist.trans (List.drop_sublist _ _)

theorem prevElem_ok {x : Nat} (hx : Within h r x) : ∃ o, h.prevElem x = .ok o ∧
    ∀ e, o = some e ↔ NextSib h r e x ∧ h.isElem e = true := by
  by_cases hne : x = r
  · subst hne
    refine ⟨none, by unfold Heap.prevElem; rw [wf.rootParent], ?_⟩
    intro e
    constructor
    · intro he; cases he
    · rintro ⟨⟨p, i, j, hp, _, _, hj, _⟩, _⟩
      exact absurd rfl (child_ne_root wf hp (List.mem_of_getElem? hj))
  · obtain ⟨p, hpar, hp, hidx⟩ := parent_inv wf hx hne
    have hlt := index_lt wf hx hpar
    refine ⟨((h.kids p).take (h.index x)).reverse.find? h.isElem, ?_, ?_⟩
    · unfold Heap.prevElem; rw [hpar]; simp; omega
    · intro e
      have hlen : ((h.kids p).take (h.index x)).length = h.index x := by simp; omega
      have hget : ∀ k, k < h.index x → ((h.kids p).take (h.index x)).reverse[k]? = (h.kids p)[h.index x - 1 - k]? := by
        intro k hk
        rw [List.getElem?_reverse (by omega), hlen, List.getElem?_take, if_pos (by omega)]
      rw [find?_getElem]
      constructor
      · rintro ⟨j, hj, he, hk⟩
        have hjl : j < h.index x := by
          rcases Nat.lt_or_ge j (h.index x) with h1 | h1
          · exact h1
          · rw [List.getElem?_eq_none (by simp only [List.length_reverse]; omega)] at hj; cases hj
        rw [hget j hjl] at hj
        refine ⟨⟨p, h.index x - 1 - j, h.index x, hp, by omega, hj, hidx, ?_⟩, he⟩
        intro k z h1 h2 hz
        refine hk (h.index x - 1 - k) z (by omega) ?_
        rw [hget _ (by omega), show h.index x - 1 - (h.index x - 1 - k) = k by omega]
        exact hz
      · rintro ⟨⟨q, i, j, hq, hlt, hi, hj, hk⟩, he⟩
        obtain ⟨h1, h2⟩ := wf.link _ _ _ hq hj
        rw [hpar] at h1
        obtain rfl : p = q := by simpa using h1
        subst h2
        refine ⟨h.index x - 1 - i, ?_, he, ?_⟩
        · rw [hget _ (by omega), show h.index x - 1 - (h.index x - 1 - i) = i by omega]; exact hi
        · intro k z hkl hz
          rw [hget _ (by omega)] at hz
          exact hk _ z (by omega) (by omega) hz

theorem prevElems_ok {x : Nat} (hx : Within h r x) : ∃ l, h.prevElems x = .ok l ∧
    (∀ e, e ∈ l ↔ LaterSib h r e x ∧ h.isElem e = true) ∧
    (l = [] ∨ ∃ p, Within h r p ∧ h.parent x = some p ∧ l.Sublist (h.kids p)) := by
  by_cases hne : x = r
  · subst hne
    refine ⟨[], by unfold Heap.prevElems; rw [wf.rootParent], ?_, Or.inl rfl⟩
    intro e
    constructor
    · intro he; cases he
    · rintro ⟨⟨p, i, j, hp, _, _, hj⟩, _⟩
      exact absurd rfl (child_ne_root wf hp (List.mem_of_getElem? hj))
  · obtain ⟨p, hpar, hp, hidx⟩ := parent_inv wf hx hne
    have hlt := index_lt wf hx hpar
    refine ⟨((h.kids p).take (h.index x)).filter h.isElem, ?_, ?_, Or.inr ⟨p, hp, hpar, ?_⟩⟩
    · unfold Heap.prevElems; rw [hpar]; simp; omega
    · intro e
      rw [List.mem_filter, List.mem_iff_getElem?]
      simp only [List.getElem?_take]
      constructor
      · rintro ⟨⟨j, hj⟩, he⟩
        split at hj
        · exact ⟨⟨p, _, _, hp, by assumption, hj, hidx⟩, he⟩
        · cases hj
      · rintro ⟨⟨q, i, j, hq, hlt, hi, hj⟩, he⟩
        obtain ⟨h1, h2⟩ := wf.link _ _ _ hq hj
        rw [hpar] at h1
        obtain rfl : p = q := by simpa using h1
        subst h2
        exact ⟨⟨i, by rw [if_pos hlt]; exact hi⟩, he⟩
    · exact List.filter_sublist.trans (List.take_sublist _ _)

/-- The element siblings in order. -/
theorem siblings_ok {x : Nat} (hx : Within h r x) : ∃ l, h.siblings x = .ok l ∧
    (∀ e, e ∈ l ↔ Sib h r x e ∧ h.isElem e = true) ∧
    (l = [] ∨ ∃ p, Within h r p ∧ h.parent x = some p ∧ l.Sublist (h.kids p)) := by
  by_cases hne : x = r
  · subst hne
    refine ⟨[], by unfold Heap.siblings; rw [wf.rootParent], ?_, Or.inl rfl⟩
    intro e
    constructor
    · intro he; cases he
    · rintro ⟨⟨p, hp, hi, _⟩, _⟩
      exact absurd rfl (child_ne_root wf hp hi)
  · obtain ⟨p, hpar, hp, hidx⟩ := parent_inv wf hx hne
    have hlt := index_lt wf hx hpar
    have hval : h.siblings x = .ok (((h.kids p).take (h.index x)).filter h.isElem ++
        ((h.kids p).drop (h.index x + 1)).filter h.isElem) := by
      unfold Heap.siblings
      simp only [hpar]
      by_cases h0 : h.index x = 0
      · rw [if_pos h0]
        unfold Heap.nextElems
        rw [hpar]
        simp only [h0]
        rw [if_neg (by omega)]
        simp
      · rw [if_neg h0, if_neg (by omega)]
        by_cases h1 : h.index x = (h.kids p).length - 1
        · rw [if_pos h1]
          unfold Heap.prevElems
          rw [hpar]
          simp only []
          rw [if_neg (by omega), show (h.kids p).drop (h.index x + 1) = [] from List.drop_eq_nil_of_le (by omega)]
          simp
        · rw [if_neg h1, if_neg (by omega)]
    refine ⟨_, hval, ?_, Or.inr ⟨p, hp, hpar, ?_⟩⟩
    · intro e
      rw [List.mem_append, List.mem_filter, List.mem_filter, List.mem_iff_getElem?, List.mem_iff_getElem?]
      simp only [List.getElem?_drop, List.getElem?_take]
      constructor
      · rintro (⟨⟨j, hj⟩, he⟩ | ⟨⟨j, hj⟩, he⟩)
        · split at hj
          · refine ⟨⟨p, hp, List.mem_of_getElem? hidx, List.mem_of_getElem? hj, ?_⟩, he⟩
            rintro rfl
            have := child_index_unique wf hp hidx hj
            omega
          · cases hj
        · refine ⟨⟨p, hp, List.mem_of_getElem? hidx, List.mem_of_getElem? hj, ?_⟩, he⟩
          rintro rfl
          have := child_index_unique wf hp hidx hj
          omega
      · rintro ⟨⟨q, hq, h1, h2, hne'⟩, he⟩
        have := parent_of_child wf hq h1
        rw [hpar] at this
        obtain rfl : p = q := by simpa using this
        obtain ⟨j, hj⟩ := List.getElem?_of_mem h2
        rcases Nat.lt_trichotomy j (h.index x) with h3 | h3 | h3
        · left; exact ⟨⟨j, by rw [if_pos h3]; exact hj⟩, he⟩
        · exfalso; subst h3; rw [hidx] at hj; exact hne' (by simpa using hj)
        · right
          exact ⟨⟨j - (h.index x + 1), by rw [show h.index x + 1 + (j - (h.index x + 1)) = j by omega]; exact hj⟩, he⟩
    · have h1 : ((h.kids p).take (h.index x) ++ (h.kids p).drop (h.index x + 1)).Sublist (h.kids p) := by
        conv_rhs => rw [← List.take_append_drop (h.index x) (h.kids p)]
        refine List.Sublist.append (List.Sublist.refl _) ?_
        rw [show h.index x + 1 = h.index x + 1 from rfl, ← List.drop_drop]
        exact List.drop_sublist _ _
      rw [← List.filter_append]
      exact List.filter_sublist.trans h1

end Visdom
