import Verif.Proofs.Nav
import Verif.Spec.Samples
import Verif.Props.History
/-!
# C58: the siblings of one element
-/
namespace Visdom
open Spec

variable {h : Heap} {r : Nat}

/-- C58: the previous siblings, the element and the next siblings are the element children of the parent in order; `siblings`
are the previous and the next ones, the previous sibling is the last of the former, the next sibling the first of the latter. -/
theorem C58_siblings (wf : TreeWF h r) {x : Nat} (hx : Within h r x) (he : h.isElem x = true) :
    ∃ p ps ns, h.parent x = some p ∧ (h.kids p).filter h.isElem = ps ++ x :: ns ∧ h.prevElems x = .ok ps ∧ h.nextElems x = .ok ns ∧
      h.siblings x = .ok (ps ++ ns) ∧ h.prevElem x = .ok ps.getLast? ∧ h.nextElem x = ns.head? := by
  obtain ⟨p, hpar, hp, hidx⟩ := parent_inv wf hx (elem_ne_root wf he)
  have hlt := index_lt wf hx hpar
  have hdrop : (h.kids p).drop (h.index x) = x :: (h.kids p).drop (h.index x + 1) := by
    rw [List.drop_eq_getElem_cons hlt]
    congr 1
    exact (List.getElem?_eq_some_iff.1 hidx).2
  have hn : h.nextElems x = .ok (((h.kids p).drop (h.index x + 1)).filter h.isElem) := by
    simp only [Heap.nextElems, hpar]
    rw [if_neg (by omega)]
  have hpv : h.prevElems x = .ok (((h.kids p).take (h.index x)).filter h.isElem) := by
    simp only [Heap.prevElems, hpar]
    rw [if_neg (by omega)]
  refine ⟨p, ((h.kids p).take (h.index x)).filter h.isElem, ((h.kids p).drop (h.index x + 1)).filter h.isElem, hpar, ?_, hpv, hn, ?_, ?_, ?_⟩
  · conv => lhs; rw [← List.take_append_drop (h.index x) (h.kids p), hdrop]
    rw [List.filter_append, List.filter_cons, if_pos he]
  · simp only [Heap.siblings, hpar]
    split
    · rename_i h0
      rw [hn, h0]
      rfl
    · rw [if_neg (by omega)]
      split
      · rename_i h1
        rw [hpv, List.drop_eq_nil_of_le (by omega)]
        simp
      · rw [if_neg (by omega)]
  · simp only [Heap.prevElem, hpar]
    rw [if_neg (by omega), ← List.head?_filter, List.filter_reverse, List.head?_reverse]
  · simp only [Heap.nextElem, hpar]
    rw [← List.head?_filter]

theorem split_unique {α : Type} {a a' b b' : List α} {x : α} (hn : (a ++ x :: b).Nodup) (he : a ++ x :: b = a' ++ x :: b') : a = a' := by
  induction a generalizing a' with
  | nil =>
    cases a' with
    | nil => rfl
    | cons c a' =>
      simp only [List.nil_append, List.cons_append, List.cons.injEq] at he hn
      obtain ⟨rfl, rfl⟩ := he
      simp at hn
  | cons c a ih =>
    cases a' with
    | nil =>
      simp only [List.nil_append, List.cons_append, List.cons.injEq] at he hn
      obtain ⟨rfl, rfl⟩ := he
      simp at hn
    | cons d a' =>
      simp only [List.cons_append, List.cons.injEq] at he hn
      obtain ⟨rfl, he⟩ := he
      rw [ih (List.nodup_cons.1 hn).2 he]

/-- C58: next and previous sibling undo each other. -/
theorem C58_inverse (wf : TreeWF h r) {x y : Nat} (hx : Within h r x) (hex : h.isElem x = true) (hy : Within h r y) (hey : h.isElem y = true) :
    h.nextElem x = some y ↔ h.prevElem y = .ok (some x) := by
  obtain ⟨p, ps, ns, h1, h2, -, -, -, h3, h4⟩ := C58_siblings wf hx hex
  obtain ⟨q, qs, ms, g1, g2, -, -, -, g3, g4⟩ := C58_siblings wf hy hey
  have hpw : Within h r p := by
    obtain ⟨p', a, b, -⟩ := parent_inv wf hx (elem_ne_root wf hex)
    rw [h1] at a; cases a; exact b
  have hqw : Within h r q := by
    obtain ⟨p', a, b, -⟩ := parent_inv wf hy (elem_ne_root wf hey)
    rw [g1] at a; cases a; exact b
  have hnd : ∀ p, Within h r p → ((h.kids p).filter h.isElem).Nodup := fun p hp => (kids_nodup wf hp).filter _
  rw [h4, g3]
  constructor
  · intro hn
    obtain ⟨ns', rfl⟩ : ∃ ns', ns = y :: ns' := by
      cases ns with
      | nil => cases hn
      | cons a ns' => cases hn; exact ⟨ns', rfl⟩
    have hm : y ∈ h.kids p := by
      have : y ∈ (h.kids p).filter h.isElem := by rw [h2]; simp
      exact (List.mem_filter.1 this).1
    obtain ⟨i, hi⟩ := List.mem_iff_getElem?.1 hm
    have := (wf.link p i y hpw hi).1
    rw [g1] at this; cases this
    have e : (ps ++ [x]) ++ y :: ns' = qs ++ y :: ms := by rw [← g2, h2]; simp
    have hnd' := hnd p hpw
    rw [g2] at hnd'
    have : ps ++ [x] = qs := split_unique (e ▸ hnd') e
    rw [← this]
    simp
  · intro hp
    have hp : qs.getLast? = some x := by simpa using hp
    obtain ⟨qs', rfl⟩ : ∃ qs', qs = qs' ++ [x] := List.getLast?_eq_some_iff.1 hp
    have hm : x ∈ h.kids q := by
      have : x ∈ (h.kids q).filter h.isElem := by rw [g2]; simp
      exact (List.mem_filter.1 this).1
    obtain ⟨i, hi⟩ := List.mem_iff_getElem?.1 hm
    have := (wf.link q i x hqw hi).1
    rw [h1] at this; cases this
    have e : ps ++ x :: ns = qs' ++ x :: y :: ms := by rw [← h2, g2]; simp
    have hnd' := hnd p hpw
    rw [h2] at hnd'
    have := split_unique hnd' e
    subst this
    have := List.append_cancel_left e
    cases this
    rfl

example : demo.prevElems 5 = .ok [2] ∧ demo.nextElems 2 = .ok [5] ∧ demo.siblings 5 = .ok [2] ∧ demo.nextElem 2 = some 5 ∧
    demo.prevElem 5 = .ok (some 2) := by decide

/-- C58 is false for a removed element: its parent and position are stale. The next siblings of a removed only child panic; the
next sibling of a removed first child skips one. -/
theorem C58_fails_removed : (∃ h', removeAll demo2 [9] = .ok h' ∧ h'.nextElems 9 = .error .overflow) ∧
    ∃ h', removeAll demo2 [6] = .ok h' ∧ (demo2.nextElem 6 = some 7 ∧ h'.nextElem 6 = none ∧ h'.kids 5 = [7]) := ⟨⟨_, rfl, by decide⟩, _, rfl, by decide⟩

end Visdom
