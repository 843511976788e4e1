import Verif.Spec.Prob
import Verif.Spec.Grids

/-!
# Solid angle and volume in spherical coordinates, and laws of several variates
-/

namespace Magpie.Spec
open MeasureTheory

/-- Solid angle of `t0 ≤ θ ≤ t1`, `p0 ≤ φ ≤ p1`: the integral of `sin θ dθ dφ`. -/
noncomputable def solidAngle (p0 p1 t0 t1 : ℝ) : ℝ := ∫ _ in p0..p1, ∫ θ in t0..t1, Real.sin θ

/-- Volume of `r0 ≤ r ≤ r1`, `t0 ≤ θ ≤ t1`, `p0 ≤ φ ≤ p1`: the integral of `r² sin θ dr dθ dφ`. -/
noncomputable def shellVolume (r0 r1 p0 p1 t0 t1 : ℝ) : ℝ :=
  ∫ _ in p0..p1, ∫ θ in t0..t1, ∫ r in r0..r1, r^2 * Real.sin θ

/-- Law of three independent entries of `np.random.random_sample`. -/
noncomputable def unif3 : Measure (ℝ × ℝ × ℝ) := unif.prod unif2

theorem solidAngle_eq (p0 p1 t0 t1 : ℝ) :
    solidAngle p0 p1 t0 t1 = (p1 - p0)*(Real.cos t0 - Real.cos t1) := by
  unfold solidAngle
  rw [integral_sin, intervalIntegral.integral_const, smul_eq_mul]

theorem shellVolume_eq (r0 r1 p0 p1 t0 t1 : ℝ) :
    shellVolume r0 r1 p0 p1 t0 t1 = (p1 - p0)*(Real.cos t0 - Real.cos t1)*((r1^3 - r0^3)/3) := by
  unfold shellVolume
  have : ∀ θ : ℝ, ∫ r in r0..r1, r^2 * Real.sin θ = ((r1^3 - r0^3)/3) * Real.sin θ := by
    intro θ
    rw [intervalIntegral.integral_mul_const, integral_pow]
    norm_num
  simp only [this]
  rw [intervalIntegral.integral_const_mul, integral_sin, intervalIntegral.integral_const, smul_eq_mul]
  ring

end Magpie.Spec
