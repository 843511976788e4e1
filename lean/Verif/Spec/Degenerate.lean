import Verif.Spec.Box2Ring
import Verif.Spec.McCube2Shell

/-!
# Boxes and cubes whose limits are equal or exchanged
-/

namespace Magpie.Spec
open Magpie Magpie.Radial Magpie.Box2Ring Magpie.Cube

/-- The map with its columns in the opposite order. -/
def flipX {α : Type} (f : Arr2 α) : Arr2 α := ⟨f.rows, f.cols, fun i j => f.val i (f.cols - 1 - j)⟩

/-- The map with its rows in the opposite order. -/
def flipY {α : Type} (f : Arr2 α) : Arr2 α := ⟨f.rows, f.cols, fun i j => f.val (f.rows - 1 - i) j⟩

/-- The box with the limits in `x` exchanged. -/
def exchangeX (B : BoxArgs) : BoxArgs := { B with xmin := B.xmax, xmax := B.xmin }

/-- The box with the limits in `y` exchanged. -/
def exchangeY (B : BoxArgs) : BoxArgs := { B with ymin := B.ymax, ymax := B.ymin }

/-- An interval of no width made one of width one. -/
noncomputable def widen (lo hi : ℝ) : ℝ × ℝ := if lo = hi then (lo - 1/2, hi + 1/2) else (lo, hi)

/-- The box in which each side without a width has the width one. -/
noncomputable def widenBox (B : BoxArgs) : BoxArgs :=
  { B with
    xmin := (widen B.xmin B.xmax).1, xmax := (widen B.xmin B.xmax).2
    ymin := (widen B.ymin B.ymax).1, ymax := (widen B.ymin B.ymax).2 }

/-- The cube in which each side without a width has the width one. -/
noncomputable def widenCube (C : CubeArgs) : CubeArgs :=
  { C with
    xmin := (widen C.xmin C.xmax).1, xmax := (widen C.xmin C.xmax).2
    ymin := (widen C.ymin C.ymax).1, ymax := (widen C.ymin C.ymax).2
    zmin := (widen C.zmin C.zmax).1, zmax := (widen C.zmin C.zmax).2 }

end Magpie.Spec
