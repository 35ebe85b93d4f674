import Verif.Proofs.Sets
import Verif.Props.Order
/-!
# C15: union of two element sets
-/
namespace Visdom
open Spec

variable {h : Heap} {r : Nat}

/-- C15: for any two lists whatever (unordered, repeated, from different documents) `add` returns, keeps every
element of the receiver in its order, and invents nothing. -/
theorem C15_add_total (h : Heap) (F S : List Nat) :
    ∃ l, addElems h F S = .ok l ∧ F.Sublist l ∧ ∀ x ∈ l, x ∈ F ∨ x ∈ S := by
  unfold addElems
  by_cases hF : F = []
  · subst hF; exact ⟨S, by simp, by simp, fun x hx => Or.inr hx⟩
  by_cases hS : S = []
  · subst hS; exact ⟨F, by simp [hF], List.Sublist.refl _, fun x hx => Or.inl hx⟩
  obtain ⟨m, e, hs⟩ := addMids_total (h := h) hF S.length S 0
  refine ⟨assemble F 0 m, by simp [hF, hS, e, Except.map], assemble_first _ _ _, ?_⟩
  intro x hx
  rcases (assemble_mem _ _ _ _).1 hx with h1 | h1
  · exact Or.inl h1
  · exact Or.inr (hs.subset h1)

example : addElems demo [9, 2, 2] [7, 1] = .ok [7, 1, 9, 2, 2] := by decide

theorem klt_of_sorted (wf : TreeWF h r) {l : List Nat} (hl : ∀ x ∈ l, Within h r x) (hs : DocSorted h r l) :
    l.Pairwise (KLt h) :=
  List.Pairwise.imp_of_mem (fun ha hb hab => (before_iff wf (hl _ ha) (hl _ hb)).1 hab) hs

theorem sorted_of_klt (wf : TreeWF h r) {l : List Nat} (hl : ∀ x ∈ l, Within h r x) (hs : l.Pairwise (KLt h)) :
    DocSorted h r l :=
  List.Pairwise.imp_of_mem (fun ha hb hab => (before_iff wf (hl _ ha) (hl _ hb)).2 hab) hs

theorem key_inj (wf : TreeWF h r) {x y : Nat} (hx : Within h r x) (hy : Within h r y)
    (e : h.treeIndexs x = h.treeIndexs y) : x = y :=
  (compare_eq_iff wf hx hy).1 (compareIndexs_eq.2 e)

/-- Everything about `add` on ordered sets of one document in one statement: the result is ordered when the second
set is at least as long as the first or does not go beyond a shared last element, and what is missing from it lies
behind the receiver's last element while that is also in the second set. -/
theorem add_spec (wf : TreeWF h r) {F S : List Nat} (hF : ∀ x ∈ F, Within h r x) (hS : ∀ x ∈ S, Within h r x)
    (sF : DocSorted h r F) (sS : DocSorted h r S) :
    ∃ l, addElems h F S = .ok l ∧
      (F.length ≤ S.length ∨ (∀ e, F.getLast? = some e → e ∈ S → ∀ s ∈ S, ¬ Before h r e s) → DocSorted h r l) ∧
      ∀ x, x ∈ F ∨ x ∈ S → x ∈ l ∨ ∃ e, F.getLast? = some e ∧ e ∈ S ∧ Before h r e x := by
  by_cases hFe : F = []
  · subst hFe; exact ⟨S, by simp [addElems], fun _ => sS, fun x hx => Or.inl (by simpa using hx)⟩
  by_cases hSe : S = []
  · subst hSe; exact ⟨F, by simp [addElems, hFe], fun _ => sF, fun x hx => Or.inl (by simpa using hx)⟩
  have kF := klt_of_sorted wf hF sF
  have kS := klt_of_sorted wf hS sS
  obtain ⟨m, e, hsub⟩ := addMids_total (h := h) hFe S.length S 0
  obtain ⟨p1, p2⟩ := addMids_spec kF S.length S 0 m (List.length_pos_iff.2 hFe) kS (by intro s _ i f hi; omega) e
  have hmemW : ∀ x ∈ assemble F 0 m, Within h r x := by
    intro x hx
    rcases (assemble_mem _ _ _ _).1 hx with h1 | h1
    · exact hF x h1
    · exact hS x (hsub.subset h1)
  refine ⟨assemble F 0 m, by simp [addElems, hFe, hSe, e, Except.map], ?_, ?_⟩
  · intro hn
    obtain ⟨q1, q2⟩ := p1 (hn.imp id (by
      intro hn e he s hs s' hs' hk hlt
      have heF := List.mem_of_getLast? he
      have := key_inj wf (hS s' hs') (hF e heF) hk
      subst this
      exact hn s' he hs' s hs ((before_iff wf (hF _ heF) (hS s hs)).2 hlt)))
    exact sorted_of_klt wf hmemW (assemble_sorted F kF 0 m q1 (kS.sublist hsub) q2)
  · rintro x (hx | hx)
    · exact Or.inl ((assemble_mem _ _ _ _).2 (Or.inl hx))
    · rcases p2 x hx with h1 | ⟨f, hf, hk⟩ | ⟨e, he, hlt, s', hs', hk⟩
      · exact Or.inl ((assemble_mem _ _ _ _).2 (Or.inr h1))
      · rw [key_inj wf (hS x hx) (hF f hf) hk]
        exact Or.inl ((assemble_mem _ _ _ _).2 (Or.inl hf))
      · have heF := List.mem_of_getLast? he
        have := key_inj wf (hS s' hs') (hF e heF) hk
        subst this
        exact Or.inr ⟨s', he, hs', (before_iff wf (hF _ heF) (hS x hx)).2 hlt⟩

/-- C15, proved part: for two document ordered sets of one document, `a.add(b)` is exactly their union in document
order, provided `b` does not both contain the last element of `a` and go beyond it. What is missing is the excluded
case, where the library is wrong: see `C15_fails_lost` and `C15_fails_order`. -/
theorem C15_add_union_partial (wf : TreeWF h r) {F S : List Nat} (hF : ∀ x ∈ F, Within h r x)
    (hS : ∀ x ∈ S, Within h r x) (sF : DocSorted h r F) (sS : DocSorted h r S)
    (htail : ∀ e, F.getLast? = some e → e ∈ S → ∀ s ∈ S, ¬ Before h r e s) :
    ∃ l, addElems h F S = .ok l ∧ DocSorted h r l ∧ l.Nodup ∧ ∀ x, x ∈ l ↔ x ∈ F ∨ x ∈ S := by
  obtain ⟨l, e, h1, h2⟩ := add_spec wf hF hS sF sS
  obtain ⟨l', e', _, h4⟩ := C15_add_total h F S
  rw [e] at e'; cases e'
  have hs := h1 (Or.inr htail)
  refine ⟨l, e, hs, docSorted_nodup wf ?_ hs, fun x => ⟨h4 x, fun hx => ?_⟩⟩
  · intro x hx
    rcases h4 x hx with h5 | h5
    · exact hF x h5
    · exact hS x h5
  · rcases h2 x hx with h5 | ⟨e, he, heS, hb⟩
    · exact h5
    · rcases hx with hx | hx
      · exfalso
        obtain ⟨i, hi⟩ := List.getElem?_of_mem hx
        rcases le_last (klt_of_sorted wf hF sF) he hi with h6 | h6
        · subst h6; exact before_irrefl wf (hF _ hx) hb
        · exact before_asymm wf (hF e (List.mem_of_getLast? he)) (hF x hx) hb
            ((before_iff wf (hF x hx) (hF e (List.mem_of_getLast? he))).2 h6)
      · exact absurd hb (htail e he heS x hx)

example : (∀ x ∈ [2, 7, 9], Within demo 0 x) ∧ DocSorted demo 0 [2, 7, 9] ∧ DocSorted demo 0 [1, 2, 5, 8] ∧
    addElems demo [2, 7, 9] [1, 2, 5, 8] = .ok [1, 2, 5, 7, 8, 9] := by
  have w1 : ∀ x ∈ [2, 7, 9], Within demo 0 x := by
    intro x hx
    simp only [List.mem_cons, List.not_mem_nil, or_false] at hx
    rcases hx with rfl | rfl | rfl
    · exact wfCheck_within [0, 1] (by decide) rfl
    · exact wfCheck_within [0, 1, 5] (by decide) rfl
    · exact wfCheck_within [0, 8] (by decide) rfl
  have w2 : ∀ x ∈ [1, 2, 5, 8], Within demo 0 x := by
    intro x hx
    simp only [List.mem_cons, List.not_mem_nil, or_false] at hx
    rcases hx with rfl | rfl | rfl | rfl
    · exact wfCheck_within [0] (by decide) rfl
    · exact wfCheck_within [0, 1] (by decide) rfl
    · exact wfCheck_within [0, 1] (by decide) rfl
    · exact wfCheck_within [0] (by decide) rfl
  refine ⟨w1, sorted_of_klt demo_wf w1 ?_, sorted_of_klt demo_wf w2 ?_, by decide⟩ <;> decide

/-- C15: an element of the second set can only be lost if the receiver's last element is also in the second set and
the lost element lies behind it. -/
theorem C15_add_loses_only_tail (wf : TreeWF h r) {F S l : List Nat} (hF : ∀ x ∈ F, Within h r x)
    (hS : ∀ x ∈ S, Within h r x) (sF : DocSorted h r F) (sS : DocSorted h r S) (hl : addElems h F S = .ok l)
    {x : Nat} (hx : x ∈ S) (hlost : x ∉ l) : ∃ e, F.getLast? = some e ∧ e ∈ S ∧ Before h r e x := by
  obtain ⟨l', e, _, h2⟩ := add_spec wf hF hS sF sS
  rw [hl] at e; cases e
  exact (h2 x (Or.inr hx)).resolve_left hlost

/-- C15: the result is in document order also when the second set is at least as long as the first. -/
theorem C15_add_sorted_long (wf : TreeWF h r) {F S l : List Nat} (hF : ∀ x ∈ F, Within h r x)
    (hS : ∀ x ∈ S, Within h r x) (sF : DocSorted h r F) (sS : DocSorted h r S) (hlen : F.length ≤ S.length)
    (hl : addElems h F S = .ok l) : DocSorted h r l := by
  obtain ⟨l', e, h1, _⟩ := add_spec wf hF hS sF sS
  rw [hl] at e; cases e
  exact h1 (Or.inl hlen)

/-- C15 is false as stated: `{div}.add({div, ul})` loses the second element. -/
theorem C15_fails_lost : addElems demo [1] [1, 8] = .ok [1] := by decide

/-- C15 is false as stated: with a shared last element and a shorter second set the order can break: `{div, p,
div, p}` and `{p, ul}` (the last `p` shared) give the `ul` before an element that precedes it. -/
theorem C15_fails_order : addElems demo [1, 2, 5, 6] [6, 8] = .ok [1, 2, 8, 5, 6] ∧ Before demo 0 5 8 := by
  refine ⟨by decide, ?_⟩
  exact (before_iff demo_wf (wfCheck_within [0, 1] (by decide) rfl) (wfCheck_within [0] (by decide) rfl)).2 (by decide)

end Visdom
