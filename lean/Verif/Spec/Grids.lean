import Mathlib.MeasureTheory.Integral.IntervalIntegral.Basic
import Mathlib.Analysis.SpecialFunctions.Integrals.Basic

/-!
# Areas in polar coordinates
-/

namespace Magpie.Spec

/-- The area of the polar pixel `r0 ≤ r ≤ r1`, `p0 ≤ φ ≤ p1`: the integral of `r dr dφ`. -/
noncomputable def sectorArea (r0 r1 p0 p1 : ℝ) : ℝ := ∫ _ in p0..p1, ∫ r in r0..r1, r

theorem sectorArea_eq (r0 r1 p0 p1 : ℝ) : sectorArea r0 r1 p0 p1 = (p1 - p0)*((r1^2 - r0^2)/2) := by
  unfold sectorArea
  rw [integral_id, intervalIntegral.integral_const, smul_eq_mul]

end Magpie.Spec
