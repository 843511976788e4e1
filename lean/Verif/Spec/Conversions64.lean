import Verif.Spec.Float64
import Mathlib.Analysis.SpecialFunctions.Trigonometric.Basic

/-!
# Specification for coordinate conversions in binary64
-/

namespace Magpie.Spec

/-- Euclidean length of a vector. -/
noncomputable def len3 (X Y Z : ℝ) : ℝ := Real.sqrt (X^2 + Y^2 + Z^2)

/-- The vector is zero, or its length is neither so small nor so large that a square leaves the
range of normal numbers. -/
def Moderate (X Y Z : ℝ) : Prop :=
  len3 X Y Z = 0 ∨ (2:ℝ)^(-500 : ℤ) ≤ len3 X Y Z ∧ len3 X Y Z ≤ (2:ℝ)^(510 : ℤ)

/-- What is taken from the C library: the functions of angles return values between the floats
nearest to the ends of the ranges of the exact functions. -/
structure AnglesInRange (pi64 : ℝ) (atan2 : ℝ → ℝ → ℝ) (acos : ℝ → ℝ) : Prop where
  atan2_ge : ∀ y x, -pi64 ≤ atan2 y x
  atan2_le : ∀ y x, atan2 y x ≤ pi64
  acos_ge : ∀ q, -1 ≤ q → q ≤ 1 → 0 ≤ acos q
  acos_le : ∀ q, -1 ≤ q → q ≤ 1 → acos q ≤ pi64

end Magpie.Spec
