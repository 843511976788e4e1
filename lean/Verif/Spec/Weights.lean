import Verif.Model.Cube2Shell

/-!
# Words used by property C133: weights matter only up to a common factor
-/

namespace Magpie.Spec
open Magpie Magpie.Radial

/-- The weights `c*w`. -/
def times (c : ℝ) (w : Arr2 ℝ) : Arr2 ℝ := ⟨w.rows, w.cols, fun i j => c*w.val i j⟩

/-- The weights `c*w` in three dimensions. -/
def times3 (c : ℝ) (w : Arr3 ℝ) : Arr3 ℝ := ⟨w.n0, w.n1, w.n2, fun i j k => c*w.val i j k⟩

end Magpie.Spec
