import Mathlib.MeasureTheory.Measure.Lebesgue.Basic
import Mathlib.MeasureTheory.Measure.Prod

/-!
# Random variates

`np.random.random_sample` is documented to draw from the uniform law on `[0, 1)`,
independently for every entry.  A statement about the distribution of an output is a
statement about the push-forward of this law.
-/

namespace Magpie.Spec
open MeasureTheory Set

/-- Law of one entry of `np.random.random_sample`. -/
noncomputable def unif : Measure ℝ := volume.restrict (Ico 0 1)

/-- Law of two independent entries. -/
noncomputable def unif2 : Measure (ℝ × ℝ) := unif.prod unif

instance : IsProbabilityMeasure unif := ⟨by simp [unif]⟩

/-- The uniform law on a set of the plane. -/
noncomputable def uniformOn (S : Set (ℝ × ℝ)) : Measure (ℝ × ℝ) :=
  (volume S)⁻¹ • volume.restrict S

/-- The uniform law on a set of the line. -/
noncomputable def uniformOn1 (S : Set ℝ) : Measure ℝ := (volume S)⁻¹ • volume.restrict S

end Magpie.Spec
