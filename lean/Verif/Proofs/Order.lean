import Verif.Model.Order
import Verif.Proofs.Tree
import Mathlib.Data.List.Sort
/-! # Comparison of index paths, sorting and deduplication -/
namespace Visdom
open Spec

theorem compareIndexs_lt {a b : List Nat} : compareIndexs a b = .lt ↔
    (∃ σ, σ ≠ [] ∧ b = a ++ σ) ∨ ∃ τ i j α β, i < j ∧ a = τ ++ i :: α ∧ b = τ ++ j :: β := by
  induction a generalizing b with
  | nil =>
    cases b with
    | nil => simp [compareIndexs]
    | cons x b => simp [compareIndexs]
  | cons x a ih =>
    cases b with
    | nil => simp [compareIndexs]
    | cons y b =>
      simp only [compareIndexs]
      constructor
      · intro h
        split at h
        · rename_i hl
          exact Or.inr ⟨[], x, y, a, b, hl, rfl, rfl⟩
        · split at h
          · cases h
          · obtain rfl : x = y := by omega
            rcases ih.1 h with ⟨σ, h1, rfl⟩ | ⟨τ, i, j, α, β, h1, rfl, rfl⟩
            · exact Or.inl ⟨σ, h1, rfl⟩
            · exact Or.inr ⟨x :: τ, i, j, α, β, h1, rfl, rfl⟩
      · rintro (⟨σ, h1, h2⟩ | ⟨τ, i, j, α, β, h1, h2, h3⟩)
        · simp only [List.cons_append, List.cons.injEq] at h2
          obtain ⟨rfl, rfl⟩ := h2
          simp only [Nat.lt_irrefl, if_false]
          exact ih.2 (Or.inl ⟨σ, h1, rfl⟩)
        · cases τ with
          | nil =>
            simp only [List.nil_append, List.cons.injEq] at h2 h3
            rw [h2.1, h3.1, if_pos h1]
          | cons t τ =>
            simp only [List.cons_append, List.cons.injEq] at h2 h3
            obtain ⟨rfl, rfl⟩ := h2
            obtain ⟨rfl, rfl⟩ := h3
            simp only [Nat.lt_irrefl, if_false]
            exact ih.2 (Or.inr ⟨τ, i, j, α, β, h1, rfl, rfl⟩)

theorem compareIndexs_eq {a b : List Nat} : compareIndexs a b = .eq ↔ a = b := by
  induction a generalizing b with
  | nil => cases b <;> simp [compareIndexs]
  | cons x a ih =>
    cases b with
    | nil => simp [compareIndexs]
    | cons y b =>
      simp only [compareIndexs, List.cons.injEq]
      split
      · simp; omega
      · split
        · simp; omega
        · rw [ih]; constructor
          · intro h; exact ⟨by omega, h⟩
          · exact fun h => h.2

theorem compareIndexs_swap (a b : List Nat) : compareIndexs b a = (compareIndexs a b).swap := by
  induction a generalizing b with
  | nil => cases b <;> rfl
  | cons x a ih =>
    cases b with
    | nil => rfl
    | cons y b =>
      simp only [compareIndexs]
      split
      · rw [if_neg (by omega)]; rfl
      · split
        · rfl
        · exact ih b

theorem compareIndexs_lt_trans {a b c : List Nat} (h1 : compareIndexs a b = .lt) (h2 : compareIndexs b c = .lt) :
    compareIndexs a c = .lt := by
  induction a generalizing b c with
  | nil =>
    cases c with
    | nil => cases b <;> simp [compareIndexs] at h2
    | cons z c => rfl
  | cons x a ih =>
    cases b with
    | nil => simp [compareIndexs] at h1
    | cons y b =>
      cases c with
      | nil => simp [compareIndexs] at h2
      | cons z c =>
        simp only [compareIndexs] at h1 h2 ⊢
        by_cases e1 : x < y <;> by_cases e2 : y < z
        · rw [if_pos (by omega)]
        · rw [if_neg e2] at h2
          by_cases e3 : z < y
          · rw [if_pos e3] at h2; cases h2
          · rw [if_pos (by omega)]
        · rw [if_neg e1] at h1
          by_cases e3 : y < x
          · rw [if_pos e3] at h1; cases h1
          · rw [if_pos (by omega)]
        · rw [if_neg e1] at h1
          rw [if_neg e2] at h2
          by_cases e3 : y < x
          · rw [if_pos e3] at h1; cases h1
          rw [if_neg e3] at h1
          by_cases e4 : z < y
          · rw [if_pos e4] at h2; cases h2
          rw [if_neg e4] at h2
          rw [if_neg (by omega), if_neg (by omega)]
          exact ih h1 h2

variable {h : Heap} {r : Nat} (wf : TreeWF h r)
include wf

theorem before_iff_path {x y : Nat} {π ρ : List Nat} (a : At h r π x) (b : At h r ρ y) :
    Before h r x y ↔ compareIndexs π ρ = .lt := by
  rw [compareIndexs_lt]
  unfold Before
  rw [below_iff_path wf a b]
  constructor
  · rintro (h1 | ⟨p, i, j, c, d, hp, hij, hc, hd, hx, hy⟩)
    · exact Or.inl h1
    · right
      obtain ⟨τ, hτ⟩ := hp.path
      obtain ⟨α, hα⟩ := hx.path
      obtain ⟨β, hβ⟩ := hy.path
      exact ⟨τ, i, j, α, β, hij, path_unique wf a (hτ.append (At.cons hc hα)),
        path_unique wf b (hτ.append (At.cons hd hβ))⟩
  · rintro (h1 | ⟨τ, i, j, α, β, hij, rfl, rfl⟩)
    · exact Or.inl h1
    · right
      obtain ⟨p, hp, ha⟩ := At.split _ _ a
      obtain ⟨q, hq, hb⟩ := At.split _ _ b
      obtain rfl := hp.unique hq
      obtain ⟨c, hc, hx⟩ := ha.cons_inv
      obtain ⟨d, hd, hy⟩ := hb.cons_inv
      exact ⟨p, i, j, c, d, hp.within, hij, hc, hd, hx.within, hy.within⟩

theorem compare_path {x y : Nat} {π ρ : List Nat} (a : At h r π x) (b : At h r ρ y) :
    compareIndexs (h.treeIndexs x) (h.treeIndexs y) = compareIndexs π ρ := by
  rw [treeIndexs_eq wf a, treeIndexs_eq wf b]
  simp [compareIndexs]

theorem before_iff {x y : Nat} (hx : Within h r x) (hy : Within h r y) :
    Before h r x y ↔ compareIndexs (h.treeIndexs x) (h.treeIndexs y) = .lt := by
  obtain ⟨π, a⟩ := hx.path
  obtain ⟨ρ, b⟩ := hy.path
  rw [before_iff_path wf a b, compare_path wf a b]

theorem compare_eq_iff {x y : Nat} (hx : Within h r x) (hy : Within h r y) :
    compareIndexs (h.treeIndexs x) (h.treeIndexs y) = .eq ↔ x = y := by
  obtain ⟨π, a⟩ := hx.path
  obtain ⟨ρ, b⟩ := hy.path
  rw [compare_path wf a b, compareIndexs_eq]
  constructor
  · rintro rfl; exact a.unique b
  · rintro rfl; exact path_unique wf a b

theorem compare_gt_iff {x y : Nat} (hx : Within h r x) (hy : Within h r y) :
    compareIndexs (h.treeIndexs x) (h.treeIndexs y) = .gt ↔ Before h r y x := by
  rw [before_iff wf hy hx, compareIndexs_swap (h.treeIndexs x)]
  cases compareIndexs (h.treeIndexs x) (h.treeIndexs y) <;> simp [Ordering.swap]

theorem before_trichotomy {x y : Nat} (hx : Within h r x) (hy : Within h r y) :
    Before h r x y ∨ x = y ∨ Before h r y x := by
  rw [before_iff wf hx hy, ← compare_eq_iff wf hx hy, ← compare_gt_iff wf hx hy]
  cases compareIndexs (h.treeIndexs x) (h.treeIndexs y) <;> simp

theorem before_irrefl {x : Nat} (hx : Within h r x) : ¬ Before h r x x := by
  rw [before_iff wf hx hx, (compare_eq_iff wf hx hx).2 rfl]; simp

theorem before_trans {x y z : Nat} (hx : Within h r x) (hy : Within h r y) (hz : Within h r z)
    (h1 : Before h r x y) (h2 : Before h r y z) : Before h r x z := by
  rw [before_iff wf hx hy] at h1
  rw [before_iff wf hy hz] at h2
  rw [before_iff wf hx hz]
  exact compareIndexs_lt_trans h1 h2

theorem before_asymm {x y : Nat} (hx : Within h r x) (hy : Within h r y) (h1 : Before h r x y) : ¬ Before h r y x :=
  fun h2 => before_irrefl wf hx (before_trans wf hx hy hx h1 h2)

omit wf in
theorem equalNum_le (a b : List Nat) : equalNum a b ≤ a.length ∧ equalNum a b ≤ b.length := by
  induction a generalizing b with
  | nil => simp [equalNum]
  | cons x a ih =>
    cases b with
    | nil => simp [equalNum]
    | cons y b =>
      simp only [equalNum]
      split
      · simpa using ih b
      · simp

omit wf in
theorem equalNum_full (a b : List Nat) : equalNum a b = a.length ↔ ∃ σ, b = a ++ σ := by
  induction a generalizing b with
  | nil => simp [equalNum]
  | cons x a ih =>
    cases b with
    | nil => simp [equalNum]
    | cons y b =>
      simp only [equalNum]
      split
      · rename_i e; subst e
        simp [ih]
      · rename_i e
        constructor
        · intro h0; simp at h0
        · rintro ⟨σ, hσ⟩
          simp only [List.cons_append, List.cons.injEq] at hσ
          exact absurd hσ.1.symm e

omit wf in
theorem equalNum_comm (a b : List Nat) : equalNum a b = equalNum b a := by
  induction a generalizing b with
  | nil => cases b <;> simp [equalNum]
  | cons x a ih =>
    cases b with
    | nil => simp [equalNum]
    | cons y b =>
      simp only [equalNum, ih b]
      by_cases e : x = y
      · rw [if_pos e, if_pos e.symm]
      · rw [if_neg e, if_neg (fun e' => e e'.symm)]

omit wf in
theorem relationOf_spec (a b : List Nat) :
    (relationOf a b = .equal ↔ (∃ σ, b = a ++ σ) ∧ ∃ σ, a = b ++ σ) ∧
    (relationOf a b = .ancestor ↔ (∃ σ, b = a ++ σ) ∧ ¬ ∃ σ, a = b ++ σ) ∧
    (relationOf a b = .descendant ↔ (¬ ∃ σ, b = a ++ σ) ∧ ∃ σ, a = b ++ σ) ∧
    (relationOf a b = .other ↔ (¬ ∃ σ, b = a ++ σ) ∧ ¬ ∃ σ, a = b ++ σ) := by
  rw [← equalNum_full a b, ← equalNum_full b a, ← equalNum_comm a b]
  have h1 := equalNum_le a b
  have e1 : (a.length - equalNum a b == 0) = decide (equalNum a b = a.length) := by
    by_cases h : equalNum a b = a.length <;> simp [h]; omega
  have e2 : (b.length - equalNum a b == 0) = decide (equalNum a b = b.length) := by
    by_cases h : equalNum a b = b.length <;> simp [h]; omega
  unfold relationOf
  rw [e1, e2]
  generalize equalNum a b = n at *
  by_cases h2 : n = a.length <;> by_cases h3 : n = b.length <;> simp only [decide_eq_true_eq, h2, h3, decide_true, decide_false] <;> simp_all

end Visdom
