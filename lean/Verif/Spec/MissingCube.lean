import Verif.Spec.DgCube2Shell
import Verif.Spec.McLimit

/-!
# Specification for C137: missing values in a cube

A missing value (NaN) in the data is `none`.
-/

namespace Magpie.Missing
open Magpie Magpie.Radial Magpie.Cube Magpie.Spec

/-- The random point is in a voxel with a missing value (axes in the order `y`, `x`, `z`). -/
def InHoleVoxel (C : CubeArgs) (f : Arr3 (Option ℝ)) (pt : ℝ × ℝ × ℝ) : Prop :=
  ∃ a b c, McCube.InVoxel C pt a b c ∧ f.val b a c = none

/-- One of the periodic images of the point is in a cell with a missing value (axes in the order `x`, `y`, `z`). -/
def InHoleCell (C : CubeArgs) (A : DgCube.ShellArgs) (f : Arr3 (Option ℝ)) (pt : ℝ × ℝ × ℝ) : Prop :=
  ∃ n a b c, DgCube.InRange A n ∧ DgCube.InCell3 C (DgCube.image C n pt) a b c ∧ f.val a b c = none

/-- The data with `0` for missing values. -/
def filled3 (f : Arr3 (Option ℝ)) (i j k : ℕ) : ℝ := (f.val i j k).getD 0

/-- The array has the shape of the cube, and none of its numbers stands for a missing value of healpy. -/
structure HoldsSome (C : CubeArgs) (f : Arr3 (Option ℝ)) : Prop where
  n0 : f.n0 = C.numx.toNat
  n1 : f.n1 = C.numy.toNat
  n2 : f.n2 = C.numz.toNat
  good : ∀ a b c, a < C.numx.toNat → b < C.numy.toNat → c < C.numz.toNat → ∀ x, f.val a b c = some x → ¬ DgCube.isBad x

end Magpie.Missing
