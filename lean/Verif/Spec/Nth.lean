import Mathlib.Data.Rat.Floor
/-!
# Specification: the CSS an+b formula and rounding

Independent of the model: plain integer arithmetic.
-/
namespace Visdom.Spec

/-- CSS: the 1-based position `p` is selected by `an+b` when `a*k + b = p` for some `k ≥ 0`. -/
def NthSelects (a b : Int) (p : Nat) : Prop := ∃ k : Nat, a * (k : Int) + b = (p : Int)

/-- `l` is the list of the 0-based positions selected by `an+b` among `total` children: in strictly
increasing order (hence each once), and a position is listed iff it exists and is selected. -/
def IsNthList (a b : Int) (total : Nat) (l : List Nat) : Prop :=
  l.Pairwise (· < ·) ∧ ∀ j : Nat, j ∈ l ↔ j < total ∧ NthSelects a b (j + 1)

/-- The rational quotient `a / b`. -/
def quot (a b : Int) : ℚ := (a : ℚ) / (b : ℚ)

/-- Nearest integer, halves away from zero. -/
def IsNearest (x : ℚ) (q : Int) : Prop :=
  (0 ≤ x → (q : ℚ) - 1/2 ≤ x ∧ x < (q : ℚ) + 1/2) ∧ (x ≤ 0 → (q : ℚ) - 1/2 < x ∧ x ≤ (q : ℚ) + 1/2)

end Visdom.Spec
