import Verif.Proofs.Nth
import Verif.Spec.Nth
import Mathlib.Tactic.Push
/-!
# C01: the positions selected by `an+b`

The code is right exactly outside `BadNth`. Inside, it produces a position outside the parent (or a
wrapped-around one), which the callers use as an index.
-/
namespace Visdom
open Spec

/-- The inputs on which the code's rounding helper goes wrong (see C02):
`an-c` with `1 + c < a` (such as `3n-1`), a first position less than one step past the end (such as
`2n+3` with two children), and the mirrored case for negative `a` (such as `-2n+4` with three). -/
def BadNth (n b : Int) (total : Nat) : Prop :=
  (n > 0 ∧ b < 0 ∧ 1 - b < n) ∨
  (n > 0 ∧ (total : Int) < b ∧ b < total + n) ∨
  (n < 0 ∧ -n < b ∧ (total : Int) < b ∧ b < total - n)

/-- The sufficient direction: outside `BadNth` the positions are right. -/
theorem nth_good (n b : Int) (total : Nat) (ht : (total : Int) < 9223372036854775808)
    (hg : ¬ BadNth n b total) : IsNthList n b total (allowedWithN n b total) := by
  simp only [BadNth, not_or] at hg
  obtain ⟨g1, g2, g3⟩ := hg
  unfold allowedWithN
  rcases Int.lt_trichotomy n 0 with hn | hn | hn
  · -- n < 0
    rw [if_neg (by omega)]
    by_cases hb0 : b ≤ 0
    · rw [if_pos ⟨hn, hb0⟩]
      refine ⟨List.Pairwise.nil, fun j => ?_⟩
      simp only [List.not_mem_nil, false_iff, NthSelects]
      rintro ⟨_, k, hk⟩
      push_cast at hk
      nlinarith [Int.natCast_nonneg k, Int.natCast_nonneg j]
    rw [if_neg (by omega)]
    by_cases hbm : b ≤ -n
    · rw [if_pos ⟨hn, hbm⟩]
      have key : ∀ j : Nat, NthSelects n b (j + 1) ↔ (j : Int) + 1 = b := by
        intro j
        constructor
        · rintro ⟨k, hk⟩
          rcases k with _ | k
          · push_cast at hk; omega
          · exfalso
            push_cast at hk
            nlinarith [Int.natCast_nonneg k, Int.natCast_nonneg j]
        · intro h; exact ⟨0, by push_cast; omega⟩
      by_cases hbt : b ≤ total
      · rw [if_pos hbt]
        refine ⟨List.pairwise_singleton _ _, fun j => ?_⟩
        rw [key, List.mem_singleton]; omega
      · rw [if_neg hbt]
        refine ⟨List.Pairwise.nil, fun j => ?_⟩
        rw [key]; simp only [List.not_mem_nil, false_iff]; omega
    rw [if_neg (by omega)]
    simp only [if_pos hn]
    have hm : 0 < -n := by omega
    have hcg : ∀ i : Nat, _ := ceil_galois (a := b - total) hm (by omega)
    have hfg : ∀ i : Int, _ := floor_galois (a := b - 1) hm (by omega)
    generalize divideIsize (b - total) (-n) .ceil = cs at *
    generalize divideIsize (b - 1) (-n) .floor = fe at *
    have sel : ∀ j : Nat, (j < total ∧ NthSelects n b (j + 1)) ↔
        ∃ i : Nat, cs ≤ i ∧ (i : Int) ≤ fe ∧ (i : Int) * n + b = j + 1 := by
      intro j
      constructor
      · rintro ⟨hj, k, hk⟩
        push_cast at hk
        refine ⟨k, (hcg k).2 (by nlinarith), (hfg k).2 (by nlinarith), by linarith⟩
      · rintro ⟨i, h1, h2, h3⟩
        have h1' := (hcg i).1 h1
        refine ⟨by have : (j : Int) + 1 ≤ total := by nlinarith
                   omega, i, by push_cast; linarith⟩
    have rng : ∀ i : Nat, cs ≤ i → (i : Int) ≤ fe → 1 ≤ (i : Int) * n + b ∧ (i : Int) * n + b ≤ total := by
      intro i h1 h2
      have h1' := (hcg i).1 h1
      have h2' := (hfg i).1 h2
      constructor <;> linarith
    generalize hcs : (if cs < 0 then 0 else cs) = cs'
    have hcs0 : 0 ≤ cs' := by rw [← hcs]; split <;> omega
    have hcs' : ∀ i : Nat, cs' ≤ i ↔ cs ≤ i := by intro i; rw [← hcs]; split <;> omega
    by_cases hse : cs' > fe
    · rw [if_pos hse]
      refine ⟨List.Pairwise.nil, fun j => ?_⟩
      simp only [List.not_mem_nil, false_iff]
      rw [sel]
      rintro ⟨i, h1, h2, _⟩
      have := (hcs' i).2 h1
      omega
    · rw [if_neg hse]
      have rng' : ∀ i : Nat, cs'.toNat ≤ i → i ≤ fe.toNat →
          0 ≤ (i : Int) * n + b ∧ (i : Int) * n + b < 18446744073709551616 := by
        intro i h1 h2
        have := rng i ((hcs' i).1 (by omega)) (by omega)
        omega
      refine ⟨?_, fun j => ?_⟩
      · rw [List.pairwise_reverse]
        exact (nthLoop_sorted rng').2 hn
      · rw [List.mem_reverse, mem_nthLoop, sel]
        constructor
        · rintro ⟨i, h1, h2, h3⟩
          have r := rng' i h1 h2
          rw [asUsize_of_range r.1 r.2] at h3
          refine ⟨i, (hcs' i).1 (by omega), by omega, by omega⟩
        · rintro ⟨i, h1, h2, h3⟩
          have h1' := (hcs' i).2 h1
          have r := rng' i (by omega) (by omega)
          refine ⟨i, by omega, by omega, ?_⟩
          rw [asUsize_of_range r.1 r.2]; omega
  · -- n = 0
    subst hn
    rw [if_pos rfl]
    have key : ∀ j : Nat, NthSelects 0 b (j + 1) ↔ (j : Int) + 1 = b := by
      intro j
      constructor
      · rintro ⟨k, hk⟩; push_cast at hk; omega
      · intro h; exact ⟨0, by push_cast; omega⟩
    by_cases hc : b > 0 ∧ b ≤ total
    · rw [if_pos hc]
      refine ⟨List.pairwise_singleton _ _, fun j => ?_⟩
      rw [key, List.mem_singleton]; omega
    · rw [if_neg hc]
      refine ⟨List.Pairwise.nil, fun j => ?_⟩
      rw [key]; simp only [List.not_mem_nil, false_iff]; omega
  · -- n > 0
    rw [if_neg (by omega), if_neg (by omega), if_neg (by omega)]
    have hnn : ¬ n < 0 := by omega
    simp only [if_neg hnn]
    have hfg : ∀ i : Int, _ := floor_galois (a := (total : Int) - b) hn (by omega)
    generalize divideIsize ((total : Int) - b) n .floor = fe at *
    -- the start: right, except that for b = 0 it may be 0 instead of 1 (that counter is skipped)
    have hcg : ∀ i : Nat, (divideIsize (1 - b) n .ceil ≤ i ↔ 1 - b ≤ i * n) ∨ (b = 0 ∧ divideIsize (1 - b) n .ceil = 0) := by
      intro i
      by_cases h : 0 < 1 - b ∧ 1 - b < n
      · right
        have hb0 : b = 0 := by omega
        subst hb0
        refine ⟨rfl, ?_⟩
        have : Int.tdiv 1 n = 0 := Int.tdiv_eq_zero_of_lt (by omega) (by omega)
        simp [divideIsize, this]
      · left; exact ceil_galois hn h i
    generalize divideIsize (1 - b) n .ceil = cs at *
    have sel : ∀ j : Nat, (j < total ∧ NthSelects n b (j + 1)) ↔
        ∃ i : Nat, cs ≤ i ∧ (i : Int) ≤ fe ∧ (i : Int) * n + b = j + 1 := by
      intro j
      constructor
      · rintro ⟨hj, k, hk⟩
        push_cast at hk
        refine ⟨k, ?_, (hfg k).2 (by nlinarith), by linarith⟩
        rcases hcg k with h | h
        · exact h.2 (by nlinarith)
        · omega
      · rintro ⟨i, h1, h2, h3⟩
        have h2' := (hfg i).1 h2
        refine ⟨by have : (j : Int) + 1 ≤ total := by nlinarith
                   omega, i, by push_cast; linarith⟩
    have rng : ∀ i : Nat, cs ≤ i → (i : Int) ≤ fe → 0 ≤ (i : Int) * n + b ∧ (i : Int) * n + b ≤ total := by
      intro i h1 h2
      have h2' := (hfg i).1 h2
      rcases hcg i with h | h
      · have h1' := h.1 h1
        constructor <;> linarith
      · rw [h.1] at h2' ⊢
        have := Int.mul_nonneg (Int.natCast_nonneg i) (Int.le_of_lt hn)
        constructor <;> linarith
    generalize hcs : (if cs < 0 then 0 else cs) = cs'
    have hcs0 : 0 ≤ cs' := by rw [← hcs]; split <;> omega
    have hcs' : ∀ i : Nat, cs' ≤ i ↔ cs ≤ i := by intro i; rw [← hcs]; split <;> omega
    by_cases hse : cs' > fe
    · rw [if_pos hse]
      refine ⟨List.Pairwise.nil, fun j => ?_⟩
      simp only [List.not_mem_nil, false_iff]
      rw [sel]
      rintro ⟨i, h1, h2, _⟩
      have := (hcs' i).2 h1
      omega
    · rw [if_neg hse]
      have rng' : ∀ i : Nat, cs'.toNat ≤ i → i ≤ fe.toNat →
          0 ≤ (i : Int) * n + b ∧ (i : Int) * n + b < 18446744073709551616 := by
        intro i h1 h2
        have := rng i ((hcs' i).1 (by omega)) (by omega)
        omega
      refine ⟨(nthLoop_sorted rng').1 hn, fun j => ?_⟩
      rw [mem_nthLoop, sel]
      constructor
      · rintro ⟨i, h1, h2, h3⟩
        have r := rng' i h1 h2
        rw [asUsize_of_range r.1 r.2] at h3
        refine ⟨i, (hcs' i).1 (by omega), by omega, by omega⟩
      · rintro ⟨i, h1, h2, h3⟩
        have h1' := (hcs' i).2 h1
        have r := rng' i (by omega) (by omega)
        refine ⟨i, by omega, by omega, ?_⟩
        rw [asUsize_of_range r.1 r.2]; omega

/-- The necessary direction: inside `BadNth` a position outside the parent is produced. -/
theorem nth_bad (n b : Int) (total : Nat) (ht : (total : Int) < 9223372036854775808)
    (hb1 : -9223372036854775808 ≤ b) (hb2 : b < 9223372036854775808)
    (hbad : BadNth n b total) : ∃ j ∈ allowedWithN n b total, total ≤ j := by
  -- in all three cases the loop starts at counter 0, whose position is `b` itself
  have key : ∀ (m : Int), n ≠ 0 → (n < 0 → ¬ b ≤ -n) → ¬ (n < 0 ∧ b ≤ 0) → b ≠ 0 →
      ((n < 0 ∧ divideIsize (b - total) (-n) .ceil = 0 ∧ 0 ≤ divideIsize (b - 1) (-n) .floor) ∨
       (0 < n ∧ divideIsize (1 - b) n .ceil ≤ 0 ∧ 0 ≤ divideIsize (total - b) n .floor)) →
      asUsize b = m → m ≥ (total : Int) + 1 →
      ∃ j ∈ allowedWithN n b total, total ≤ j := by
    intro m hn0 h1 h2 hb0 hc hm hmt
    refine ⟨asUsize b - 1, ?_, by omega⟩
    unfold allowedWithN
    rw [if_neg hn0, if_neg h2, if_neg (by omega)]
    rcases hc with ⟨hn, hs, he⟩ | ⟨hn, hs, he⟩
    · simp only [if_pos hn, hs]
      have e1 : (if (0 : Int) < 0 then (0 : Int) else 0) = 0 := rfl
      have e2 : ¬ (0 : Int) > divideIsize (b - 1) (-n) .floor := by omega
      rw [e1, if_neg e2, List.mem_reverse, mem_nthLoop]
      exact ⟨0, by simp, by omega, by simp; omega⟩
    · have hn' : ¬ n < 0 := by omega
      simp only [if_neg hn']
      have : (if divideIsize (1 - b) n .ceil < 0 then (0 : Int) else divideIsize (1 - b) n .ceil) = 0 := by
        split <;> omega
      rw [this, if_neg (by omega), mem_nthLoop]
      exact ⟨0, by simp, by omega, by simp; omega⟩
  rcases hbad with ⟨hn, hb, hlt⟩ | ⟨hn, hb, hlt⟩ | ⟨hn, hb, hlt, hlt2⟩
  · apply key (18446744073709551616 + b) (by omega) (by omega) (by omega) (by omega)
    · right
      refine ⟨hn, ?_, ?_⟩
      · have : Int.tdiv (1 - b) n = 0 := Int.tdiv_eq_zero_of_lt (by omega) (by omega)
        simp [divideIsize, this]
      · exact (floor_galois hn (by omega) 0).2 (by omega)
    · unfold asUsize
      have : b % 18446744073709551616 = 18446744073709551616 + b := by omega
      rw [this]; omega
    · omega
  · apply key b (by omega) (by omega) (by omega) (by omega)
    · right
      refine ⟨hn, ?_, ?_⟩
      · exact (ceil_galois hn (by omega) 0).2 (by simp; omega)
      · have : Int.tdiv (b - total) n = 0 := Int.tdiv_eq_zero_of_lt (by omega) (by omega)
        have h2 : Int.tdiv (total - b) n = 0 := by
          have h3 := Int.neg_tdiv (b - total) n
          rw [this] at h3
          have h4 : -(b - (total : Int)) = total - b := by omega
          rw [h4] at h3; simpa using h3
        simp [divideIsize, h2]
    · rw [asUsize_of_range (by omega) (by omega)]; omega
    · omega
  · apply key b (by omega) (by omega) (by omega) (by omega)
    · left
      refine ⟨hn, ?_, ?_⟩
      · have : Int.tdiv (b - total) (-n) = 0 := Int.tdiv_eq_zero_of_lt (by omega) (by omega)
        simp only [divideIsize, this]; rfl
      · exact (floor_galois (by omega) (by omega) 0).2 (by omega)
    · rw [asUsize_of_range (by omega) (by omega)]; omega
    · omega

/-- **C01, exact form.** For `isize` arguments and fewer than 2^63 children, `get_allowed_indexs` for
`an+b` is the correct list of positions if and only if the input is not in `BadNth`. -/
theorem C01_nth_exact_partial (n b : Int) (total : Nat) (ht : (total : Int) < 9223372036854775808)
    (hb1 : -9223372036854775808 ≤ b) (hb2 : b < 9223372036854775808) :
    IsNthList n b total (allowedWithN n b total) ↔ ¬ BadNth n b total := by
  constructor
  · intro h hbad
    obtain ⟨j, hj, hle⟩ := nth_bad n b total ht hb1 hb2 hbad
    have := ((h.2 j).1 hj).1
    omega
  · exact nth_good n b total ht

/-- **C01** for the formulas people write most: `n+b`, `-n+b` are always right. -/
theorem C01_unit_step (b : Int) (total : Nat) (ht : (total : Int) < 9223372036854775808) :
    IsNthList 1 b total (allowedWithN 1 b total) ∧ IsNthList (-1) b total (allowedWithN (-1) b total) :=
  ⟨nth_good _ _ _ ht (by simp only [BadNth]; omega), nth_good _ _ _ ht (by simp only [BadNth]; omega)⟩

/-- **C01** for `odd`, `even` and every `an` with `a > 0`: right for a non-empty parent. -/
theorem C01_multiples (n b : Int) (total : Nat) (ht : (total : Int) < 9223372036854775808)
    (hn : 0 < n) (hb : 0 ≤ b) (hbt : b ≤ total) : IsNthList n b total (allowedWithN n b total) :=
  nth_good _ _ _ ht (by simp only [BadNth]; omega)

/-- **C01** for a plain index (`:nth-child(3)`): always right. -/
theorem C01_index_only (b : Int) (total : Nat) :
    ∃ l, getAllowedIndexs none (some b) total = .ok l ∧ IsNthList 0 b total l := by
  unfold getAllowedIndexs
  have key : ∀ j : Nat, NthSelects 0 b (j + 1) ↔ (j : Int) + 1 = b := by
    intro j
    constructor
    · rintro ⟨k, hk⟩; push_cast at hk; omega
    · intro h; exact ⟨0, by push_cast; omega⟩
  by_cases hc : b ≤ 0 ∨ b > total
  · refine ⟨[], by simp [hc], List.Pairwise.nil, fun j => ?_⟩
    rw [key]; simp only [List.not_mem_nil, false_iff]; omega
  · refine ⟨[(b - 1).toNat], by simp [hc], List.pairwise_singleton _ _, fun j => ?_⟩
    rw [key, List.mem_singleton]; omega

/-- **C01 fails**: `:nth-child(3n-1)` yields a wrapped-around position for every number of children. -/
theorem C01_fails_3n_minus_1 (total : Nat) (ht : (total : Int) < 9223372036854775808) :
    ¬ IsNthList 3 (-1) total (allowedWithN 3 (-1) total) := by
  rw [C01_nth_exact_partial _ _ _ ht (by omega) (by omega)]
  simp only [BadNth]; omega

/-- **C01 fails**: `:nth-child(odd)` on a parent without element children yields position 0. -/
theorem C01_fails_odd_empty : allowedWithN 2 1 0 = [0] := by decide

/-- **C01 fails**: `2n+3` with two children yields the third. -/
theorem C01_fails_2n_plus_3 : allowedWithN 2 3 2 = [2] := by decide

-- instances: the hypotheses are satisfiable and the conclusion is not trivial
example : ¬ BadNth (-2) 3 9 ∧ allowedWithN (-2) 3 9 = [0, 2] := by
  refine ⟨by simp only [BadNth]; omega, by decide⟩
example : ¬ BadNth 3 (-2) 9 ∧ allowedWithN 3 (-2) 9 = [0, 3, 6] := by
  refine ⟨by simp only [BadNth]; omega, by decide⟩
example : BadNth 2 3 2 := by simp only [BadNth]; omega

/-! ### the shape of the positions computed -/

theorem nthLoop_isList {n b : Int} {total s e : Nat} (ht : (total : Int) < 9223372036854775808)
    (hk : ∀ i : Nat, (s ≤ i ∧ i ≤ e) ↔ (1 ≤ (i : Int) * n + b ∧ (i : Int) * n + b ≤ total)) :
    (0 < n → IsNthList n b total (nthLoop n b s e)) ∧ (n < 0 → IsNthList n b total (nthLoop n b s e).reverse) := by
  have hr : ∀ i : Nat, s ≤ i → i ≤ e → 0 ≤ (i : Int) * n + b ∧ (i : Int) * n + b < 18446744073709551616 := by
    intro i h1 h2
    have := (hk i).1 ⟨h1, h2⟩
    omega
  have hm : ∀ j : Nat, j ∈ nthLoop n b s e ↔ j < total ∧ NthSelects n b (j + 1) := by
    intro j
    rw [mem_nthLoop]
    constructor
    · rintro ⟨i, h1, h2, h3⟩
      have h4 := (hk i).1 ⟨h1, h2⟩
      have h5 := hr i h1 h2
      rw [asUsize_of_range h5.1 h5.2] at h3
      refine ⟨by omega, i, ?_⟩
      have : (i : Int) * n + b = j + 1 := by omega
      push_cast; rw [← this]; ring
    · rintro ⟨h1, i, h2⟩
      push_cast at h2
      have h3 : (i : Int) * n + b = j + 1 := by rw [← h2]; ring
      obtain ⟨h4, h5⟩ := (hk i).2 (by rw [h3]; omega)
      refine ⟨i, h4, h5, ?_⟩
      rw [asUsize_of_range (by omega) (by omega)]; omega
  obtain ⟨s1, s2⟩ := nthLoop_sorted hr
  refine ⟨fun hn => ⟨s1 hn, hm⟩, fun hn => ⟨?_, fun j => by rw [List.mem_reverse, hm]⟩⟩
  rw [List.pairwise_reverse]
  exact s2 hn

theorem nthLoop_zero {n b : Int} {e : Nat} (hb : 1 ≤ asUsize b) :
    nthLoop n b 0 e = (asUsize b - 1) :: nthLoop n b 1 e := by
  unfold nthLoop
  rw [show e + 1 - 0 = (e + 1 - 1) + 1 by omega, List.range'_succ, List.filterMap_cons]
  have : ¬ asUsize (((0 : Nat) : Int) * n + b) < 1 := by simp; omega
  simp only [this, if_false]
  simp

/-- **C01**: what `get_allowed_indexs` computes for `an+b` in all cases: the correct positions, in `BadNth` with one
further number in front or behind that is not below the number of children. -/
theorem C01_nth_shape (n b : Int) (total : Nat) (ht : (total : Int) < 9223372036854775808)
    (hb1 : -9223372036854775808 ≤ b) (hb2 : b < 9223372036854775808) :
    ∃ G, IsNthList n b total G ∧ (allowedWithN n b total = G ∨
      ∃ j, total ≤ j ∧ ((0 ∉ G ∧ allowedWithN n b total = j :: G) ∨ allowedWithN n b total = G ++ [j])) := by
  by_cases hbad : BadNth n b total
  swap
  · exact ⟨_, nth_good n b total ht hbad, Or.inl rfl⟩
  rcases hbad with ⟨hn, hb, hlt⟩ | ⟨hn, hb, hlt⟩ | ⟨hn, hb, hlt, hlt2⟩
  · -- `b` itself, wrapped around
    have hfg : ∀ i : Int, _ := floor_galois (a := (total : Int) - b) hn (by omega)
    have hz : Int.tdiv (1 - b) n = 0 := Int.tdiv_eq_zero_of_lt (by omega) (by omega)
    have hcs : divideIsize (1 - b) n .ceil = 0 := by simp only [divideIsize, hz]; rfl
    have ha : asUsize b = (18446744073709551616 + b).toNat := by
      unfold asUsize
      have : b % 18446744073709551616 = 18446744073709551616 + b := by omega
      rw [this]
    have hA : allowedWithN n b total =
        (asUsize b - 1) :: nthLoop n b 1 (divideIsize (total - b) n .floor).toNat := by
      unfold allowedWithN
      have h0 : (0 : Int) ≤ divideIsize (total - b) n .floor := (hfg 0).2 (by omega)
      rw [if_neg (by omega), if_neg (by omega), if_neg (by omega)]
      have hn' : ¬ n < 0 := by omega
      simp only [if_neg hn', hcs, lt_self_iff_false, if_false]
      rw [if_neg (by omega)]
      exact nthLoop_zero (by omega)
    have h0 : (0 : Int) ≤ divideIsize (total - b) n .floor := (hfg 0).2 (by omega)
    have hG : IsNthList n b total (nthLoop n b 1 (divideIsize (total - b) n .floor).toNat) := by
      refine (nthLoop_isList ht ?_).1 hn
      intro i
      have := hfg i
      constructor
      · rintro ⟨h1, h2⟩
        have h3 := this.1 (by omega)
        have h4 : (1 : Int) ≤ i := by omega
        have h5 : n ≤ (i : Int) * n := by nlinarith
        omega
      · rintro ⟨h1, h2⟩
        refine ⟨?_, ?_⟩
        · rcases Nat.eq_zero_or_pos i with rfl | hi
          · simp at h1; omega
          · exact hi
        · have := this.2 (by omega)
          omega
    refine ⟨_, hG, Or.inr ⟨_, ?_, Or.inl ⟨?_, hA⟩⟩⟩
    · omega
    · intro h1
      obtain ⟨_, k, hk⟩ := (hG.2 0).1 h1
      push_cast at hk
      rcases Nat.eq_zero_or_pos k with rfl | hk0
      · simp at hk; omega
      · have h4 : (1 : Int) ≤ k := by omega
        have h5 : n ≤ n * (k : Int) := by nlinarith
        omega
  · -- `b` itself, past the end
    have hcs : divideIsize (1 - b) n .ceil ≤ 0 := (ceil_galois hn (by omega) 0).2 (by simp; omega)
    have hfe : divideIsize (total - b) n .floor = 0 := by
      have : Int.tdiv (b - total) n = 0 := Int.tdiv_eq_zero_of_lt (by omega) (by omega)
      have h2 : Int.tdiv (total - b) n = 0 := by
        have h3 := Int.neg_tdiv (b - total) n
        rw [this] at h3
        have h4 : -(b - (total : Int)) = total - b := by omega
        rw [h4] at h3; simpa using h3
      simp only [divideIsize, h2]; rfl
    have ha : asUsize b = b.toNat := asUsize_of_range (by omega) (by omega)
    have hA : allowedWithN n b total = [asUsize b - 1] := by
      unfold allowedWithN
      rw [if_neg (by omega), if_neg (by omega), if_neg (by omega)]
      have hn' : ¬ n < 0 := by omega
      have hs : (if divideIsize (1 - b) n .ceil < 0 then (0 : Int) else divideIsize (1 - b) n .ceil) = 0 := by
        split <;> omega
      simp only [if_neg hn', hs, hfe, gt_iff_lt, lt_self_iff_false, if_false]
      rw [show (Int.toNat 0) = 0 from rfl, nthLoop_zero (by omega)]
      rfl
    refine ⟨[], ⟨List.Pairwise.nil, fun j => ?_⟩, Or.inr ⟨asUsize b - 1, by omega, Or.inr hA⟩⟩
    simp only [List.not_mem_nil, false_iff]
    rintro ⟨h1, k, hk⟩
    push_cast at hk
    have h5 : 0 ≤ n * (k : Int) := by positivity
    omega
  · -- `b` itself, past the end, for a negative step
    have hm : 0 < -n := by omega
    have hfg : ∀ i : Int, _ := floor_galois (a := b - 1) hm (by omega)
    have hcs : divideIsize (b - total) (-n) .ceil = 0 := by
      have : Int.tdiv (b - total) (-n) = 0 := Int.tdiv_eq_zero_of_lt (by omega) (by omega)
      simp only [divideIsize, this]; rfl
    have ha : asUsize b = b.toNat := asUsize_of_range (by omega) (by omega)
    have h0 : (0 : Int) ≤ divideIsize (b - 1) (-n) .floor := (hfg 0).2 (by omega)
    have hA : allowedWithN n b total =
        (nthLoop n b 1 (divideIsize (b - 1) (-n) .floor).toNat).reverse ++ [asUsize b - 1] := by
      unfold allowedWithN
      rw [if_neg (by omega), if_neg (by omega), if_neg (by omega)]
      simp only [if_pos hn, hcs, lt_self_iff_false, if_false]
      rw [if_neg (by omega), show (Int.toNat 0) = 0 from rfl, nthLoop_zero (by omega), List.reverse_cons]
    refine ⟨_, (nthLoop_isList ht ?_).2 hn, Or.inr ⟨asUsize b - 1, by omega, Or.inr hA⟩⟩
    intro i
    have := hfg i
    constructor
    · rintro ⟨h1, h2⟩
      have h3 := this.1 (by omega)
      have h4 : (1 : Int) ≤ i := by omega
      have h5 : (i : Int) * n ≤ n := by nlinarith
      have h6 : (i : Int) * -n = -((i : Int) * n) := by ring
      omega
    · rintro ⟨h1, h2⟩
      refine ⟨?_, ?_⟩
      · rcases Nat.eq_zero_or_pos i with rfl | hi
        · simp at h2; omega
        · exact hi
      · have h6 : (i : Int) * -n = -((i : Int) * n) := by ring
        have := this.2 (by omega)
        omega

/-- The three cases: `3n-1`, `3n+5` and `-2n+4` among three children. -/
example : allowedWithN 3 (-1) 3 = [18446744073709551614, 1] ∧ allowedWithN 3 5 3 = [4] ∧
    allowedWithN (-2) 4 3 = [1, 3] := by decide

end Visdom
