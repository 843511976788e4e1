import Verif.Spec.Degenerate
import Verif.Spec.DgCube2Shell

/-!
# Cubes whose limits are exchanged
-/

namespace Magpie.Spec
open Magpie Magpie.Cube Magpie.DgCube

/-- The cube with the limits in `x` exchanged. -/
def exchangeCubeX (C : CubeArgs) : CubeArgs := { C with xmin := C.xmax, xmax := C.xmin }

/-- The cube with the limits in `y` exchanged. -/
def exchangeCubeY (C : CubeArgs) : CubeArgs := { C with ymin := C.ymax, ymax := C.ymin }

/-- The cube with the limits in `z` exchanged. -/
def exchangeCubeZ (C : CubeArgs) : CubeArgs := { C with zmin := C.zmax, zmax := C.zmin }

/-- The array with its first, second or third axis in the opposite order. -/
def flip0 {α : Type} (f : Arr3 α) : Arr3 α := ⟨f.n0, f.n1, f.n2, fun i j k => f.val (f.n0 - 1 - i) j k⟩
def flip1 {α : Type} (f : Arr3 α) : Arr3 α := ⟨f.n0, f.n1, f.n2, fun i j k => f.val i (f.n1 - 1 - j) k⟩
def flip2 {α : Type} (f : Arr3 α) : Arr3 α := ⟨f.n0, f.n1, f.n2, fun i j k => f.val i j (f.n2 - 1 - k)⟩

/-- The range of the images counted in the opposite direction: `n` from `a` to `b` is `-n` from `-b` to `-a`. -/
def oppRange (p : ℤ × ℤ) : ℤ × ℤ := (-p.2, -p.1)

end Magpie.Spec
