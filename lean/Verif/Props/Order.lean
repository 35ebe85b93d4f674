import Verif.Proofs.Order
import Verif.Spec.TreeCheck
/-!
# C12, C13, C14: document order, ancestor test, sort and deduplicate
-/
namespace Visdom
open Spec

variable {h : Heap} {r : Nat}

/-- C12: the comparison answers "less" exactly for nodes in document order, "greater" for the converse, and
"equal" exactly for the same node. -/
theorem C12_compare_is_document_order (wf : TreeWF h r) {x y : Nat} (hx : Within h r x) (hy : Within h r y) :
    (compareIndexs (h.treeIndexs x) (h.treeIndexs y) = .lt ↔ Before h r x y) ∧
    (compareIndexs (h.treeIndexs x) (h.treeIndexs y) = .eq ↔ x = y) ∧
    (compareIndexs (h.treeIndexs x) (h.treeIndexs y) = .gt ↔ Before h r y x) :=
  ⟨(before_iff wf hx hy).symm, compare_eq_iff wf hx hy, compare_gt_iff wf hx hy⟩

/-- C12: document order is a strict total order on the nodes of a document. -/
theorem C12_document_order_is_strict_total (wf : TreeWF h r) :
    (∀ x, Within h r x → ¬ Before h r x x) ∧
    (∀ x y z, Within h r x → Within h r y → Within h r z → Before h r x y → Before h r y z → Before h r x z) ∧
    (∀ x y, Within h r x → Within h r y → Before h r x y ∨ x = y ∨ Before h r y x) :=
  ⟨fun _ hx => before_irrefl wf hx, fun _ _ _ hx hy hz => before_trans wf hx hy hz,
    fun _ _ hx hy => before_trichotomy wf hx hy⟩

example : TreeWF demo 0 ∧ Within demo 0 7 ∧ Within demo 0 9 ∧ Before demo 0 7 9 ∧
    compareIndexs (demo.treeIndexs 7) (demo.treeIndexs 9) = .lt :=
  have h7 : Within demo 0 7 := wfCheck_within [0, 1, 5] (by decide) rfl
  have h9 : Within demo 0 9 := wfCheck_within [0, 8] (by decide) rfl
  ⟨demo_wf, h7, h9, (before_iff demo_wf h7 h9).2 (by decide), by decide⟩

/-- C13: the relation test is the tree relation. -/
theorem C13_relation_is_tree_relation (wf : TreeWF h r) {x y : Nat} (hx : Within h r x) (hy : Within h r y) :
    (relationOf (h.treeIndexs x) (h.treeIndexs y) = .ancestor ↔ Below h x y) ∧
    (relationOf (h.treeIndexs x) (h.treeIndexs y) = .descendant ↔ Below h y x) ∧
    (relationOf (h.treeIndexs x) (h.treeIndexs y) = .equal ↔ x = y) ∧
    (relationOf (h.treeIndexs x) (h.treeIndexs y) = .other ↔ x ≠ y ∧ ¬ Below h x y ∧ ¬ Below h y x) := by
  obtain ⟨π, a⟩ := hx.path
  obtain ⟨ρ, b⟩ := hy.path
  have hs := relationOf_spec (h.treeIndexs x) (h.treeIndexs y)
  have e1 : (∃ σ, h.treeIndexs y = h.treeIndexs x ++ σ) ↔ Within h x y := by
    rw [within_iff_path wf a b, treeIndexs_eq wf a, treeIndexs_eq wf b]; simp
  have e2 : (∃ σ, h.treeIndexs x = h.treeIndexs y ++ σ) ↔ Within h y x := by
    rw [within_iff_path wf b a, treeIndexs_eq wf a, treeIndexs_eq wf b]; simp
  have w1 : Within h x y ↔ x = y ∨ Below h x y :=
    ⟨within_cases, by rintro (rfl | hb); exacts [.self, hb.within]⟩
  have w2 : Within h y x ↔ y = x ∨ Below h y x :=
    ⟨within_cases, by rintro (rfl | hb); exacts [.self, hb.within]⟩
  have n1 : x = y → ¬ Below h x y ∧ ¬ Below h y x := by
    rintro rfl; exact ⟨not_below_self wf hx, not_below_self wf hx⟩
  have n2 : Below h x y → ¬ Below h y x := fun h1 h2 => not_below_self wf hx (h1.trans h2)
  rw [e1, e2, w1, w2, eq_comm (a := y)] at hs
  obtain ⟨s1, s2, s3, s4⟩ := hs
  refine ⟨s2.trans ?_, s3.trans ?_, s1.trans ?_, s4.trans ?_⟩ <;>
    (by_cases p1 : x = y <;> by_cases p2 : Below h x y <;> by_cases p3 : Below h y x <;> simp_all)

example : relationOf (demo.treeIndexs 1) (demo.treeIndexs 7) = .ancestor ∧
    relationOf (demo.treeIndexs 2) (demo.treeIndexs 5) = .other := by decide

theorem docSorted_nodup (wf : TreeWF h r) {l : List Nat} (hl : ∀ x ∈ l, Within h r x) (hs : DocSorted h r l) :
    l.Nodup := by
  unfold DocSorted at hs
  refine hs.imp_of_mem ?_
  rintro a b ha _ hab rfl
  exact before_irrefl wf (hl _ ha) hab

theorem sortElems_perm (h : Heap) (l : List Nat) : (sortElems h l).Perm l := List.perm_insertionSort _ _

theorem notAfter_total (h : Heap) (a b : Nat) : notAfter h a b ∨ notAfter h b a := by
  unfold notAfter
  rw [compareIndexs_swap (h.treeIndexs a)]
  cases compareIndexs (h.treeIndexs a) (h.treeIndexs b) <;> decide

theorem notAfter_trans (h : Heap) (a b c : Nat) (h1 : notAfter h a b) (h2 : notAfter h b c) : notAfter h a c := by
  have key : ∀ {p q : List Nat}, compareIndexs p q ≠ .gt → p = q ∨ compareIndexs p q = .lt := by
    intro p q hn
    cases e : compareIndexs p q
    · exact Or.inr rfl
    · exact Or.inl (compareIndexs_eq.1 e)
    · exact absurd e hn
  intro h3
  rcases key h1 with e1 | e1
  · rw [e1] at h3; exact h2 h3
  · rcases key h2 with e2 | e2
    · rw [← e2, e1] at h3; cases h3
    · rw [compareIndexs_lt_trans e1 e2] at h3; cases h3

instance (h : Heap) : Std.Total (notAfter h) := ⟨notAfter_total h⟩
instance (h : Heap) : IsTrans Nat (notAfter h) := ⟨notAfter_trans h⟩

theorem sortElems_sorted (wf : TreeWF h r) {l : List Nat} (hl : ∀ x ∈ l, Within h r x) :
    (sortElems h l).Pairwise (fun a b => a = b ∨ Before h r a b) := by
  refine (List.pairwise_insertionSort (notAfter h) l).imp_of_mem ?_
  intro a b ha hb hab
  have ha' := hl a ((sortElems_perm h l).mem_iff.1 ha)
  have hb' := hl b ((sortElems_perm h l).mem_iff.1 hb)
  rcases before_trichotomy wf ha' hb' with h1 | h1 | h1
  · exact Or.inr h1
  · exact Or.inl h1
  · exact absurd ((compare_gt_iff wf ha' hb').2 h1) hab

theorem dedupFrom_spec {R : Nat → Nat → Prop} (hirr : ∀ a, ¬ R a a) (prev : Nat) (l : List Nat)
    (hs : (prev :: l).Pairwise (fun a b => a = b ∨ R a b)) (htr : ∀ a b c, R a b → R b c → R a c) :
    (prev :: dedupFrom prev l).Pairwise R ∧ ∀ x, x ∈ prev :: dedupFrom prev l ↔ x ∈ prev :: l := by
  induction l generalizing prev with
  | nil => simp [dedupFrom]
  | cons a l ih =>
    rw [List.pairwise_cons] at hs
    obtain ⟨h1, h2⟩ := hs
    simp only [dedupFrom]
    by_cases e : a = prev
    · subst e
      rw [if_pos rfl]
      obtain ⟨i1, i2⟩ := ih a h2
      refine ⟨i1, fun x => ?_⟩
      rw [i2]; simp
    · rw [if_neg e]
      obtain ⟨i1, i2⟩ := ih a h2
      refine ⟨?_, fun x => ?_⟩
      · rw [List.pairwise_cons]
        refine ⟨?_, i1⟩
        intro b hb
        have hpa : R prev a := by
          rcases h1 a (by simp) with h3 | h3
          · exact absurd h3.symm e
          · exact h3
        rcases List.mem_cons.1 hb with rfl | hb'
        · exact hpa
        · exact htr _ _ _ hpa ((List.pairwise_cons.1 i1).1 b hb')
      · rw [List.mem_cons, i2, ← List.mem_cons]

/-- C14: sorting and deduplicating a list of nodes of one document gives the same nodes, each once, in document
order. -/
theorem C14_sort_and_unique (wf : TreeWF h r) {l : List Nat} (hl : ∀ x ∈ l, Within h r x) :
    DocSorted h r (sortAndUnique h l) ∧ (sortAndUnique h l).Nodup ∧ ∀ x, x ∈ sortAndUnique h l ↔ x ∈ l := by
  have hs := sortElems_sorted wf hl
  have hm : ∀ x, x ∈ sortElems h l ↔ x ∈ l := fun x => (sortElems_perm h l).mem_iff
  have hw : ∀ x ∈ sortElems h l, Within h r x := fun x hx => hl x ((hm x).1 hx)
  suffices hmain : DocSorted h r (sortAndUnique h l) ∧ ∀ x, x ∈ sortAndUnique h l ↔ x ∈ l by
    refine ⟨hmain.1, docSorted_nodup wf ?_ hmain.1, hmain.2⟩
    intro x hx; exact hl x ((hmain.2 x).1 hx)
  unfold sortAndUnique
  cases e : sortElems h l with
  | nil =>
    rw [e] at hm
    exact ⟨List.Pairwise.nil, fun x => by simpa [uniqueElems] using hm x⟩
  | cons a t =>
    rw [e] at hs hm hw
    have := dedupFrom_spec (R := fun a b => Within h r a ∧ Within h r b ∧ Before h r a b)
      (fun a ha => before_irrefl wf ha.1 ha.2.2) a t
      (hs.imp_of_mem (by
        intro x y hx hy hxy
        exact hxy.imp id (fun hb => ⟨hw x hx, hw y hy, hb⟩)))
      (fun a b c hab hbc => ⟨hab.1, hbc.2.1, before_trans wf hab.1 hab.2.1 hbc.2.1 hab.2.2 hbc.2.2⟩)
    exact ⟨this.1.imp (fun hb => hb.2.2), fun x => by rw [uniqueElems, this.2, hm]⟩

example : (∀ x ∈ [9, 6, 2, 6, 1], Within demo 0 x) ∧ sortAndUnique demo [9, 6, 2, 6, 1] = [1, 2, 6, 9] := by
  refine ⟨?_, by decide⟩
  intro x hx
  simp only [List.mem_cons, List.not_mem_nil, or_false] at hx
  rcases hx with rfl | rfl | rfl | rfl | rfl
  · exact wfCheck_within [0, 8] (by decide) rfl
  · exact wfCheck_within [0, 1, 5] (by decide) rfl
  · exact wfCheck_within [0, 1] (by decide) rfl
  · exact wfCheck_within [0, 1, 5] (by decide) rfl
  · exact wfCheck_within [0] (by decide) rfl

/-- C14: deduplication alone only merges adjacent repetitions; without sorting a repeated node can survive. -/
theorem C14_unique_needs_sorting : uniqueElems [1, 2, 1] = [1, 2, 1] := by decide

end Visdom
