import Verif.Model.Nth
import Mathlib.Tactic.Linarith
import Mathlib.Tactic.Ring
/-! Lemmas about `divideIsize` and `nthLoop`. -/
namespace Visdom

theorem tdiv_eq {a m : Int} :
    (0 ≤ a ∧ a.tdiv m = a / m ∧ a.tmod m = a % m) ∨
    (a < 0 ∧ a.tdiv m = -((-a) / m) ∧ a.tmod m = -((-a) % m)) := by
  rcases Int.lt_or_le a 0 with h | h
  · right
    have h1 : (-a).tdiv m = (-a) / m := Int.tdiv_eq_ediv_of_nonneg (by omega)
    have h2 : (-a).tmod m = (-a) % m := Int.tmod_eq_emod_of_nonneg (by omega)
    rw [Int.neg_tdiv] at h1
    rw [Int.neg_tmod] at h2
    refine ⟨h, by omega, by omega⟩
  · left
    exact ⟨h, Int.tdiv_eq_ediv_of_nonneg h, Int.tmod_eq_emod_of_nonneg h⟩

/-- The clipped "ceiling" is the least admissible loop counter, unless the quotient is strictly
between 0 and 1. -/
theorem ceil_galois {a m : Int} (hm : 0 < m) (hg : ¬ (0 < a ∧ a < m)) (i : Nat) :
    divideIsize a m .ceil ≤ i ↔ a ≤ i * m := by
  have e1 := Int.mul_ediv_add_emod a m
  have e2 := Int.emod_nonneg a (by omega : m ≠ 0)
  have e3 := Int.emod_lt_of_pos a hm
  have f1 := Int.mul_ediv_add_emod (-a) m
  have f2 := Int.emod_nonneg (-a) (by omega : m ≠ 0)
  have f3 := Int.emod_lt_of_pos (-a) hm
  simp only [divideIsize]
  rcases tdiv_eq (a := a) (m := m) with ⟨h0, hd, hr⟩ | ⟨h0, hd, hr⟩
  · rw [hd, hr]
    generalize a / m = q at *
    generalize a % m = r at *
    have hq : 0 ≤ q := by
      by_contra hq
      nlinarith
    split
    · rename_i hc
      constructor
      · intro hi; nlinarith
      · intro hi
        by_contra hlt
        have : (i : Int) ≤ q := by omega
        have : (i : Int) * m ≤ q * m := Int.mul_le_mul_of_nonneg_right this (by omega)
        have : r = 0 := by nlinarith
        exact hc.2 this
    · rename_i hc
      have hr0 : r = 0 := by
        by_contra hr0
        have hq0 : q = 0 := by
          by_contra hq0
          exact hc ⟨by omega, hr0⟩
        subst hq0
        apply hg
        rw [Int.mul_zero] at e1
        omega
      constructor
      · intro hi; nlinarith
      · intro hi
        by_contra hlt
        have : (i : Int) + 1 ≤ q := by omega
        nlinarith
  · rw [hd, hr]
    generalize (-a) / m = q at *
    generalize (-a) % m = r at *
    have hq : 0 ≤ q := by
      by_contra hq
      nlinarith
    have : ¬ (-q > 0 ∧ -r ≠ 0) := by omega
    rw [if_neg this]
    constructor
    · intro _; nlinarith [Int.mul_nonneg (Int.natCast_nonneg i) (Int.le_of_lt hm)]
    · intro _; omega

/-- The "floor" is the greatest admissible loop counter, unless the quotient is strictly between
-1 and 0. -/
theorem floor_galois {a m : Int} (hm : 0 < m) (hg : ¬ (-m < a ∧ a < 0)) (i : Int) :
    i ≤ divideIsize a m .floor ↔ i * m ≤ a := by
  have e1 := Int.mul_ediv_add_emod a m
  have e2 := Int.emod_nonneg a (by omega : m ≠ 0)
  have e3 := Int.emod_lt_of_pos a hm
  have f1 := Int.mul_ediv_add_emod (-a) m
  have f2 := Int.emod_nonneg (-a) (by omega : m ≠ 0)
  have f3 := Int.emod_lt_of_pos (-a) hm
  simp only [divideIsize]
  rcases tdiv_eq (a := a) (m := m) with ⟨h0, hd, hr⟩ | ⟨h0, hd, hr⟩
  · rw [hd, hr]
    generalize a / m = q at *
    generalize a % m = r at *
    have hq : 0 ≤ q := by
      by_contra hq
      nlinarith
    rw [if_neg (by omega)]
    constructor
    · intro hi; nlinarith
    · intro hi
      by_contra hlt
      have : q + 1 ≤ i := by omega
      nlinarith
  · rw [hd, hr]
    generalize (-a) / m = q at *
    generalize (-a) % m = r at *
    have hq : 0 ≤ q := by
      by_contra hq
      nlinarith
    split
    · rename_i hc
      constructor
      · intro hi; nlinarith
      · intro hi
        by_contra hlt
        have : -q ≤ i := by omega
        have : (-q) * m ≤ i * m := Int.mul_le_mul_of_nonneg_right this (by omega)
        have : r = 0 := by nlinarith
        omega
    · rename_i hc
      have hr0 : r = 0 := by
        by_contra hr0
        have hq0 : q = 0 := by
          by_contra hq0
          exact hc ⟨by omega, by omega⟩
        subst hq0
        apply hg
        constructor <;> nlinarith
      constructor
      · intro hi; nlinarith
      · intro hi
        by_contra hlt
        have : -q + 1 ≤ i := by omega
        nlinarith

theorem asUsize_of_range {x : Int} (h0 : 0 ≤ x) (h1 : x < 18446744073709551616) :
    asUsize x = x.toNat := by
  unfold asUsize; rw [Int.emod_eq_of_lt h0 h1]

theorem mem_nthLoop {n b : Int} {s e j : Nat} :
    j ∈ nthLoop n b s e ↔
      ∃ i : Nat, s ≤ i ∧ i ≤ e ∧ asUsize ((i : Int) * n + b) = j + 1 := by
  unfold nthLoop
  simp only [List.mem_filterMap, List.mem_range'_1]
  constructor
  · rintro ⟨i, hi, h⟩
    by_cases hc : asUsize ((i : Int) * n + b) < 1
    · simp [hc] at h
    · simp only [hc, if_false, Option.some.injEq] at h
      exact ⟨i, by omega, by omega, by omega⟩
  · rintro ⟨i, h1, h2, h3⟩
    refine ⟨i, by omega, ?_⟩
    have hc : ¬ asUsize ((i : Int) * n + b) < 1 := by omega
    simp only [hc, if_false, Option.some.injEq]
    omega

theorem nthLoop_sorted {n b : Int} {s e : Nat}
    (hr : ∀ i : Nat, s ≤ i → i ≤ e → 0 ≤ (i : Int) * n + b ∧ (i : Int) * n + b < 18446744073709551616) :
    (0 < n → (nthLoop n b s e).Pairwise (· < ·)) ∧
    (n < 0 → (nthLoop n b s e).Pairwise (· > ·)) := by
  unfold nthLoop
  constructor
  · intro hn
    rw [List.pairwise_filterMap]
    apply List.Pairwise.imp_of_mem _ (List.pairwise_lt_range' (s := s) (n := e + 1 - s))
    intro i i' hi hi' hlt j hj j' hj'
    rw [List.mem_range'_1] at hi hi'
    have b1 := hr i (by omega) (by omega)
    have b2 := hr i' (by omega) (by omega)
    have hlt' : (i : Int) + 1 ≤ i' := by omega
    have hm : (i : Int) * n + n ≤ i' * n := by nlinarith
    simp only [asUsize_of_range b1.1 b1.2] at hj
    simp only [asUsize_of_range b2.1 b2.2] at hj'
    split at hj <;> split at hj' <;> simp at hj hj' <;> omega
  · intro hn
    rw [List.pairwise_filterMap]
    apply List.Pairwise.imp_of_mem _ (List.pairwise_lt_range' (s := s) (n := e + 1 - s))
    intro i i' hi hi' hlt j hj j' hj'
    rw [List.mem_range'_1] at hi hi'
    have b1 := hr i (by omega) (by omega)
    have b2 := hr i' (by omega) (by omega)
    have hlt' : (i : Int) + 1 ≤ i' := by omega
    have hm : (i' : Int) * n ≤ i * n + n := by nlinarith
    simp only [asUsize_of_range b1.1 b1.2] at hj
    simp only [asUsize_of_range b2.1 b2.2] at hj'
    split at hj <;> split at hj' <;> simp at hj hj' <;> omega

end Visdom
