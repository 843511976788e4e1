import Verif.Spec.Prob
import Verif.Spec.Grids

/-!
# Pixels of a polar grid as sets of the plane
-/

namespace Magpie.Spec

/-- The points with distance between `r0` and `r1` from `c`, in a direction between `p0` and `p1`. -/
def Sector (c : ℝ × ℝ) (r0 r1 p0 p1 : ℝ) : Set (ℝ × ℝ) :=
  {x | ∃ r phi, (r0 ≤ r ∧ r ≤ r1) ∧ (p0 ≤ phi ∧ phi ≤ p1) ∧
    x = (c.1 + r*Real.cos phi, c.2 + r*Real.sin phi)}

end Magpie.Spec
