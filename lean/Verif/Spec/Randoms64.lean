import Verif.Spec.Float64
import Mathlib.Analysis.SpecialFunctions.Pow.Real

/-!
# Specification of ranges of random numbers in binary64
-/

namespace Magpie.Spec

/-- `u` is a possible result of `np.random.random_sample`. (It returns multiples of `2^-53`; all doubles
in `[0, 1)` are allowed here.) -/
def Variate (u : ℝ) : Prop := IsDouble u ∧ 0 ≤ u ∧ u < 1

/-- A radius that is zero, or whose square neither leaves the range of normal numbers nor overflows. -/
def ModRadius (r : ℝ) : Prop :=
  IsDouble r ∧ (r = 0 ∨ (2:ℝ)^(-500 : ℤ) ≤ r ∧ r ≤ (2:ℝ)^(510 : ℤ))

/-- `pow` is a power function for numbers that are not negative, exact up to one unit in the last place
(and to the smallest double), with results that are doubles and not negative. -/
structure PowClose (pow : ℝ → ℝ → ℝ) : Prop where
  close : ∀ x y, 0 ≤ x → 0 < y → |pow x y - x^y| ≤ x^y/2^52 + (2:ℝ)^(-1074 : ℤ)
  nonneg : ∀ x y, 0 ≤ x → 0 ≤ pow x y
  double : ∀ x y, 0 ≤ x → x^y ≤ (2:ℝ)^(1000 : ℤ) → IsDouble (pow x y)

end Magpie.Spec
