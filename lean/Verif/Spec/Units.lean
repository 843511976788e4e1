import Verif.Model.Box2RingCalls
import Verif.Model.ObjectCalls

/-!
# Calls made in other units and from another origin

A position `x` becomes `c x + t`, a length `r` becomes `c r`. Numbers of bins, angles, data, weights and
random variates stay as they are.
-/

namespace Magpie.Spec.Units
open Magpie.Box2Ring

/-- The box in the new units. -/
def box (c tx ty : ℝ) (B : BoxArgs) : BoxArgs :=
  { B with xmin := c*B.xmin + tx, xmax := c*B.xmax + tx, ymin := c*B.ymin + ty, ymax := c*B.ymax + ty }

/-- A point of the plane in the new units. (A centre that is not a pair of numbers is rejected by all
classes; it is left as it is.) -/
def center2 (c tx ty : ℝ) : List ℝ → List ℝ
  | [x, y] => [c*x + tx, c*y + ty]
  | l => l

/-- The rings in the new units. -/
def polar (c tx ty : ℝ) (A : PolarArgs) : PolarArgs :=
  { A with rmin := c*A.rmin, rmax := c*A.rmax, center := center2 c tx ty A.center }

/-- A call that sets up a dense grid `Box2Ring`. -/
def dgSetup (c tx ty : ℝ) : Dg.Setup → Dg.Setup
  | .box B => .box (box c tx ty B)
  | .polar A mr mp => .polar (polar c tx ty A) mr mp

/-- A call that sets up a Monte Carlo `Box2Ring`. -/
def mcSetup (c tx ty : ℝ) : Mc.Setup → Mc.Setup
  | .box B => .box (box c tx ty B)
  | .lin A => .lin (polar c tx ty A)
  | .log A z => .log (polar c tx ty A) z
  | .weights n d => .weights n d

/-- Any call: only those that set up the object have lengths among their arguments. -/
def call {C : Type} (f : C → C) : Call C → Call C
  | .setup a => .setup (f a)
  | q => q

/-- A box with a width along both axes. -/
def Wide (B : BoxArgs) : Prop := B.xmin ≠ B.xmax ∧ B.ymin ≠ B.ymax

/-- The cube in the new units. -/
def cube (c tx ty tz : ℝ) (B : Cube.CubeArgs) : Cube.CubeArgs :=
  { B with xmin := c*B.xmin + tx, xmax := c*B.xmax + tx, ymin := c*B.ymin + ty, ymax := c*B.ymax + ty
           zmin := c*B.zmin + tz, zmax := c*B.zmax + tz }

/-- A point of space in the new units. -/
def center3 (c tx ty tz : ℝ) : List ℝ → List ℝ
  | [x, y, z] => [c*x + tx, c*y + ty, c*z + tz]
  | l => l

/-- The shells of the dense grid class in the new units. -/
def dgShell (c tx ty tz : ℝ) (A : DgCube.ShellArgs) : DgCube.ShellArgs :=
  { A with rmin := c*A.rmin, rmax := c*A.rmax, center := center3 c tx ty tz A.center }

/-- The shells of the Monte Carlo class in the new units. -/
def mcShell (c tx ty tz : ℝ) (A : McCube.ShellArgs) : McCube.ShellArgs :=
  { A with rmin := c*A.rmin, rmax := c*A.rmax, center := center3 c tx ty tz A.center }

/-- A call of a dense grid `Cube2Shell`. -/
def dgCubeCall (c tx ty tz : ℝ) : DgCube.Call → DgCube.Call
  | .cube a => .cube (cube c tx ty tz a)
  | .polar a => .polar (dgShell c tx ty tz a)
  | q => q

/-- A call of a Monte Carlo `Cube2Shell`. -/
def mcCubeCall (c tx ty tz : ℝ) : McCube.Call → McCube.Call
  | .cube a => .cube (cube c tx ty tz a)
  | .lin a => .lin (mcShell c tx ty tz a)
  | .log a z => .log (mcShell c tx ty tz a) z
  | q => q

/-- A cube with a width along all axes. -/
def Wide3 (B : Cube.CubeArgs) : Prop := B.xmin ≠ B.xmax ∧ B.ymin ≠ B.ymax ∧ B.zmin ≠ B.zmax

end Magpie.Spec.Units
