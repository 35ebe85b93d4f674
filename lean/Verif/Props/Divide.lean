import Verif.Proofs.Nth
import Verif.Spec.Nth
import Mathlib.Tactic.FieldSimp
import Mathlib.Algebra.Order.Field.Basic
/-!
# C02: flooring and ceiling division
-/
namespace Visdom
open Spec

theorem divide_neg_neg (a b : Int) (r : RoundType) (hr : r ≠ .round) : divideIsize (-a) (-b) r = divideIsize a b r := by
  cases r <;> simp_all [divideIsize, Int.neg_tdiv, Int.tdiv_neg, Int.neg_tmod, Int.tmod_neg]

theorem quot_neg_neg (a b : Int) : quot (-a) (-b) = quot a b := by
  simp [quot, neg_div_neg_eq]

theorem floor_quot {a b q : Int} (hb : 0 < b) : ⌊quot a b⌋ = q ↔ q * b ≤ a ∧ a < (q + 1) * b := by
  have hb' : (0 : ℚ) < b := by exact_mod_cast hb
  rw [Int.floor_eq_iff, quot, le_div_iff₀ hb', div_lt_iff₀ hb']
  constructor
  · rintro ⟨h1, h2⟩; exact ⟨by exact_mod_cast h1, by exact_mod_cast h2⟩
  · rintro ⟨h1, h2⟩; exact ⟨by exact_mod_cast h1, by exact_mod_cast h2⟩

theorem ceil_quot {a b q : Int} (hb : 0 < b) : ⌈quot a b⌉ = q ↔ (q - 1) * b < a ∧ a ≤ q * b := by
  have hb' : (0 : ℚ) < b := by exact_mod_cast hb
  rw [Int.ceil_eq_iff, quot, lt_div_iff₀ hb', div_le_iff₀ hb']
  constructor
  · rintro ⟨h1, h2⟩; exact ⟨by exact_mod_cast h1, by exact_mod_cast h2⟩
  · rintro ⟨h1, h2⟩; exact ⟨by exact_mod_cast h1, by exact_mod_cast h2⟩

/-- The exact condition, for a positive divisor. -/
theorem floor_exact_pos {a b : Int} (hb : 0 < b) :
    divideIsize a b .floor = ⌊quot a b⌋ ↔ ¬ (-b < a ∧ a < 0) := by
  constructor
  · rintro h ⟨h1, h2⟩
    have hz : divideIsize a b .floor = 0 := by
      have : Int.tdiv (-a) b = 0 := Int.tdiv_eq_zero_of_lt (by omega) (by omega)
      rw [Int.neg_tdiv] at this
      have : a.tdiv b = 0 := by omega
      simp [divideIsize, this]
    rw [hz] at h
    have := (floor_quot hb).1 h.symm
    omega
  · intro hg
    symm
    rw [floor_quot hb]
    have g := floor_galois hb hg
    refine ⟨(g _).1 (Int.le_refl _), ?_⟩
    by_contra hlt
    have := (g (divideIsize a b .floor + 1)).2 (by omega)
    omega

theorem ceil_exact_pos {a b : Int} (hb : 0 < b) :
    divideIsize a b .ceil = ⌈quot a b⌉ ↔ ¬ (0 < a ∧ a < b) := by
  constructor
  · rintro h ⟨h1, h2⟩
    have hz : divideIsize a b .ceil = 0 := by
      have : a.tdiv b = 0 := Int.tdiv_eq_zero_of_lt (by omega) (by omega)
      simp [divideIsize, this]
    rw [hz] at h
    have := (ceil_quot hb).1 h.symm
    omega
  · intro hg
    -- the ceiling of a is minus the floor of -a, and the code mirrors exactly
    have hm : divideIsize a b .ceil = - divideIsize (-a) b .floor := by
      simp only [divideIsize, Int.neg_tdiv, Int.neg_tmod]
      split <;> split <;> omega
    have := (floor_exact_pos (a := -a) hb).2 (by omega)
    rw [hm, this]
    have e : quot (-a) b = - quot a b := by simp [quot, neg_div]
    rw [e, Int.floor_neg, Int.neg_neg]

/-- **C02 (floor), exact form**: the helper computes `⌊a/b⌋` if and only if the quotient is not strictly
between -1 and 0. -/
theorem C02_floor_exact_partial (a b : Int) (hb : b ≠ 0) :
    divideIsize a b .floor = ⌊quot a b⌋ ↔ ¬ (-1 < quot a b ∧ quot a b < 0) := by
  have pos : ∀ a b : Int, 0 < b → (divideIsize a b .floor = ⌊quot a b⌋ ↔ ¬ (-1 < quot a b ∧ quot a b < 0)) := by
    intro a b hb
    have hb' : (0 : ℚ) < b := by exact_mod_cast hb
    rw [floor_exact_pos hb, quot, lt_div_iff₀ hb', div_lt_iff₀ hb']
    constructor
    · rintro h ⟨h1, h2⟩
      exact h ⟨by have : ((-b : Int) : ℚ) < a := by push_cast; linarith
                  exact_mod_cast this, by have : (a : ℚ) < (0 : Int) := by push_cast; linarith
                                          exact_mod_cast this⟩
    · rintro h ⟨h1, h2⟩
      have h1' : ((-b : Int) : ℚ) < a := by exact_mod_cast h1
      have h2' : (a : ℚ) < (0 : Int) := by exact_mod_cast h2
      push_cast at h1' h2'
      exact h ⟨by linarith, by linarith⟩
  rcases Int.lt_or_lt_of_ne hb with h | h
  · have := pos (-a) (-b) (by omega)
    rwa [divide_neg_neg _ _ _ (by decide), quot_neg_neg] at this
  · exact pos a b h

/-- **C02 (ceiling), exact form**: the helper computes `⌈a/b⌉` if and only if the quotient is not
strictly between 0 and 1. -/
theorem C02_ceil_exact_partial (a b : Int) (hb : b ≠ 0) :
    divideIsize a b .ceil = ⌈quot a b⌉ ↔ ¬ (0 < quot a b ∧ quot a b < 1) := by
  have pos : ∀ a b : Int, 0 < b → (divideIsize a b .ceil = ⌈quot a b⌉ ↔ ¬ (0 < quot a b ∧ quot a b < 1)) := by
    intro a b hb
    have hb' : (0 : ℚ) < b := by exact_mod_cast hb
    rw [ceil_exact_pos hb, quot, lt_div_iff₀ hb', div_lt_iff₀ hb']
    constructor
    · rintro h ⟨h1, h2⟩
      exact h ⟨by have : ((0 : Int) : ℚ) < a := by push_cast; linarith
                  exact_mod_cast this, by have : (a : ℚ) < (b : Int) := by linarith
                                          exact_mod_cast this⟩
    · rintro h ⟨h1, h2⟩
      have h1' : ((0 : Int) : ℚ) < a := by exact_mod_cast h1
      have h2' : (a : ℚ) < (b : Int) := by exact_mod_cast h2
      push_cast at h1'
      exact h ⟨by linarith, by linarith⟩
  rcases Int.lt_or_lt_of_ne hb with h | h
  · have := pos (-a) (-b) (by omega)
    rwa [divide_neg_neg _ _ _ (by decide), quot_neg_neg] at this
  · exact pos a b h

theorem nearest_neg {x : ℚ} {q : Int} (h : IsNearest x q) : IsNearest (-x) (-q) := by
  constructor
  · intro hx
    have := h.2 (by linarith)
    push_cast; constructor <;> linarith
  · intro hx
    have := h.1 (by linarith)
    push_cast; constructor <;> linarith

/-- Rounding for non-negative numerator and positive divisor, when the quotient is at least 1. -/
theorem round_pos {a b : Int} (hb : 0 < b) (ha : b ≤ a) : IsNearest (quot a b) (divideIsize a b .round) := by
  have hb' : (0 : ℚ) < b := by exact_mod_cast hb
  have e1 := Int.mul_ediv_add_emod a b
  have e2 := Int.emod_nonneg a (by omega : b ≠ 0)
  have e3 := Int.emod_lt_of_pos a hb
  have hd : a.tdiv b = a / b := Int.tdiv_eq_ediv_of_nonneg (by omega)
  have hr : a.tmod b = a % b := Int.tmod_eq_emod_of_nonneg (by omega)
  have hval : ∃ q, divideIsize a b .round = q ∧ (2 * q - 1) * b ≤ 2 * a ∧ 2 * a < (2 * q + 1) * b := by
    simp only [divideIsize, hd, hr]
    generalize a / b = q at *
    generalize a % b = r at *
    have hq : 1 ≤ q := by
      by_contra hq
      nlinarith
    have hq0 : ¬ q < 0 := by omega
    simp only [if_neg hq0]
    refine ⟨_, rfl, ?_⟩
    split
    · split
      · rename_i hc
        have : r * 2 - 1 * b ≥ 0 := by omega
        constructor <;> nlinarith
      · rename_i hc
        have : r * 2 - 1 * b < 0 := by
          by_contra h0
          exact hc (Or.inl ⟨by omega, by omega⟩)
        constructor <;> nlinarith
    · rename_i hc
      have : r = 0 := by
        by_contra h0
        exact hc ⟨by omega, h0⟩
      subst this
      constructor <;> nlinarith
  obtain ⟨q, hq, h1, h2⟩ := hval
  rw [hq]
  have hx : 0 < quot a b := by
    have : (0 : ℚ) < a := by exact_mod_cast (by omega : (0 : Int) < a)
    exact div_pos this hb'
  have g1 : ((2 * q - 1) * b : ℚ) ≤ 2 * a := by exact_mod_cast h1
  have g2 : (2 * a : ℚ) < (2 * q + 1) * b := by exact_mod_cast h2
  have k1 : (q : ℚ) - 1/2 ≤ quot a b := by rw [quot, le_div_iff₀ hb']; nlinarith
  have k2 : quot a b < (q : ℚ) + 1/2 := by rw [quot, div_lt_iff₀ hb']; nlinarith
  exact ⟨fun _ => ⟨k1, k2⟩, fun h => absurd h (by linarith)⟩

theorem round_neg_left (a b : Int) : divideIsize (-a) b .round = - divideIsize a b .round := by
  simp only [divideIsize, Int.neg_tdiv, Int.neg_tmod]
  by_cases h : a.tdiv b ≠ 0 ∧ a.tmod b ≠ 0
  · rw [if_pos (by omega), if_pos h]
    have ha : a ≠ 0 := by rintro rfl; simp at h
    rcases Int.lt_or_lt_of_ne h.1 with h1 | h1
    · rw [if_neg (by omega : ¬ -a.tdiv b < 0), if_pos h1]
      split <;> split <;> omega
    · rw [if_pos (by omega : -a.tdiv b < 0), if_neg (by omega : ¬ a.tdiv b < 0)]
      split <;> split <;> omega
  · rw [if_neg (by omega), if_neg h]

theorem round_neg_right (a b : Int) : divideIsize a (-b) .round = - divideIsize a b .round := by
  simp only [divideIsize, Int.tdiv_neg, Int.tmod_neg]
  by_cases h : a.tdiv b ≠ 0 ∧ a.tmod b ≠ 0
  · rw [if_pos (by omega), if_pos h]
    rcases Int.lt_or_lt_of_ne h.1 with h1 | h1
    · rw [if_neg (by omega : ¬ -a.tdiv b < 0), if_pos h1]
      split <;> split <;> omega
    · rw [if_pos (by omega : -a.tdiv b < 0), if_neg (by omega : ¬ a.tdiv b < 0)]
      split <;> split <;> omega
  · rw [if_neg (by omega), if_neg h]

/-- **C02 (round)**: when the quotient is at least 1 in absolute value, the helper returns the nearest
integer, halves away from zero. -/
theorem C02_round_partial (a b : Int) (hb : b ≠ 0) (ha : b.natAbs ≤ a.natAbs) :
    IsNearest (quot a b) (divideIsize a b .round) := by
  have q1 : ∀ x y : Int, quot (-x) y = - quot x y := fun x y => by simp [quot, neg_div]
  have q2 : ∀ x y : Int, quot x (-y) = - quot x y := fun x y => by simp [quot, div_neg]
  rcases Int.lt_or_lt_of_ne hb with h | h <;> rcases Int.lt_or_le a 0 with h0 | h0
  · have := round_pos (a := -a) (b := -b) (by omega) (by omega)
    rwa [q1, q2, neg_neg, round_neg_left, round_neg_right, Int.neg_neg] at this
  · have := nearest_neg (round_pos (a := a) (b := -b) (by omega) (by omega))
    rwa [q2, neg_neg, round_neg_right, Int.neg_neg] at this
  · have := nearest_neg (round_pos (a := -a) (b := b) (by omega) (by omega))
    rwa [q1, neg_neg, round_neg_left, Int.neg_neg] at this
  · exact round_pos h (by omega)

/-- **C02 (round), exact form**: the helper returns the nearest integer if and only if the quotient is not at least one
half and below 1 in absolute value. -/
theorem C02_round_exact_partial (a b : Int) (hb : b ≠ 0) :
    IsNearest (quot a b) (divideIsize a b .round) ↔ ¬ (1 / 2 ≤ |quot a b| ∧ |quot a b| < 1) := by
  have hb' : (0 : ℚ) < |(b : ℚ)| := by simpa using hb
  by_cases ha : b.natAbs ≤ a.natAbs
  · refine iff_of_true (C02_round_partial a b hb ha) ?_
    rintro ⟨_, h2⟩
    rw [quot, abs_div, div_lt_one hb'] at h2
    have : a.natAbs < b.natAbs := by
      rw [← Int.cast_abs, ← Int.cast_abs] at h2
      have : |a| < |b| := by exact_mod_cast h2
      rw [Int.abs_eq_natAbs, Int.abs_eq_natAbs] at this
      omega
    omega
  · have hz : divideIsize a b .round = 0 := by
      have : a.tdiv b = 0 := by
        rw [← Int.natAbs_eq_zero, Int.natAbs_tdiv]
        exact Nat.div_eq_of_lt (by omega)
      simp [divideIsize, this]
    have hlt : |quot a b| < 1 := by
      rw [quot, abs_div, div_lt_one hb', ← Int.cast_abs, ← Int.cast_abs]
      have : |a| < |b| := by rw [Int.abs_eq_natAbs, Int.abs_eq_natAbs]; omega
      exact_mod_cast this
    rw [hz]
    constructor
    · rintro ⟨h1, h2⟩ ⟨h3, _⟩
      rcases le_or_gt 0 (quot a b) with h0 | h0
      · have := (h1 h0).2
        rw [abs_of_nonneg h0] at h3
        push_cast at this
        linarith
      · have := (h2 h0.le).1
        rw [abs_of_neg h0] at h3
        push_cast at this
        linarith
    · intro h3
      have h4 : |quot a b| < 1 / 2 := by
        by_contra h
        exact h3 ⟨by linarith, hlt⟩
      rw [abs_lt] at h4
      refine ⟨fun _ => ?_, fun _ => ?_⟩ <;> push_cast <;> constructor <;> linarith

/-- **C02 fails**: -1/4 "floors" to 0 and 1/4 "ceils" to 0, and 3/4 "rounds" to 0. -/
theorem C02_fails : divideIsize (-1) 4 .floor = 0 ∧ divideIsize 1 4 .ceil = 0 ∧ divideIsize 3 4 .round = 0 := by
  decide

theorem C02_floor_false : ¬ ∀ a b : Int, b ≠ 0 → divideIsize a b .floor = ⌊quot a b⌋ := by
  intro h
  have := h (-1) 4 (by decide)
  rw [floor_exact_pos (by omega)] at this
  omega

-- instances
example : ¬ (-1 < quot (-7) 4 ∧ quot (-7) 4 < 0) ∧ divideIsize (-7) 4 .floor = -2 := by
  refine ⟨by norm_num [quot], by decide⟩
example : (4 : Int).natAbs ≤ (-6 : Int).natAbs ∧ divideIsize (-6) 4 .round = -2 := by decide

end Visdom
