import Verif.Spec.McLimit

/-!
# The lines of the box grid that cross a polar pixel
-/

namespace Magpie.Dg
open Magpie.Box2Ring Magpie.Spec Magpie.Mc

/-- The number of lines of the box grid, among the `numx + 1` edges of columns and the `numy + 1` edges of rows, that
have a point in polar pixel `(i, j)`. -/
noncomputable def lines (B : BoxArgs) (A : PolarArgs) (i j : ℕ) : ℕ :=
  {a : ℕ | a ≤ B.numx.toNat ∧ ∃ pt ∈ (Grid.lin A).pixel i j, pt.1 = edgeAt B.xmin B.xmax B.numx.toNat a}.ncard +
  {b : ℕ | b ≤ B.numy.toNat ∧ ∃ pt ∈ (Grid.lin A).pixel i j, pt.2 = edgeAt B.ymin B.ymax B.numy.toNat b}.ncard

end Magpie.Dg
