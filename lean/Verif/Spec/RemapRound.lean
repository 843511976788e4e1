import Mathlib.Data.Real.Basic
import Verif.Spec.Remap

/-!
# How sensitive a remapping is to rounding
-/

namespace Magpie.Spec

/-- The largest coordinates, up to a factor 4: what rounding errors of edges are proportional to. -/
def gridScale (A B : Axis ℝ) : ℝ := |A.lo| + A.size + |B.lo| + B.size

/-- Condition number of remapping from `A` to `B`: the coordinates measured in cells of either grid. -/
noncomputable def gridCond (A B : Axis ℝ) : ℝ := gridScale A B * (1/A.dx + 1/B.dx)

/-- About how many cells of `A` a cell of `B` meets. -/
noncomputable def perCell (A B : Axis ℝ) : ℝ := B.dx/A.dx + 1

/-- The output starts inside the input box, or its first cell reaches the input box, or it starts more
than an input cell to the left; each with room for rounding errors.  This is `FirstCellClear` with a margin. -/
def FirstCellClearly (A B : Axis ℝ) : Prop :=
  A.lo ≤ B.lo ∨ A.lo + gridScale A B/2^46 ≤ B.lo + B.dx ∨ B.lo + A.dx + gridScale A B/2^46 ≤ A.lo

end Magpie.Spec
