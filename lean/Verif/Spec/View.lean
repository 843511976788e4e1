import Mathlib.Data.Real.Basic

/-!
# Other units and another origin of coordinates
-/

namespace Magpie.Spec

/-- The coordinates of the point `p` in units `k` times smaller, from an origin at `-o`. -/
def moved (k : ℝ) (o p : ℝ × ℝ × ℝ) : ℝ × ℝ × ℝ := (k*p.1 + o.1, k*p.2.1 + o.2.1, k*p.2.2 + o.2.2)

end Magpie.Spec
