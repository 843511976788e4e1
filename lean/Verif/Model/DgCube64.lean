import Verif.Model.DgCube2Shell
import Verif.Model.DgRemap64

/-!
# Model of `remap` of `/repo/magpie/densegrid/cube2shell.py` in binary64

`setup_cube`, `setup_polar` and `remap` of `Verif/Model/DgCube2Shell.lean` again, each arithmetic operation rounded, for
arguments that pass the assertions and data without NaN. `np.cos`, `np.sin` and the third power come from the C library,
`hp.pix2ang` from healpy: they are parameters. `np.sum` adds in any order. Simplification: no overflow and no signed zeros.
-/

namespace Magpie.DgCube64
open Magpie Magpie.Radial Magpie.Cube Magpie.DgCube Magpie.Grids64 Magpie.Means64 Magpie.Dg64

/-- Functions of the C library. -/
structure Lib extends Trig where
  pow : ℝ → ℝ → ℝ

/-- The orders of the sums over the subpixels, over the dense shells for the data, and for the weights. -/
structure Sums where
  sub : SumTree
  data : SumTree
  weights : SumTree

/-- `center + n*(edges[-1] - edges[0])` along one axis (cube2shell.py:113-115). -/
noncomputable def centre64 (c : ℝ) (n : ℤ) (edges : List ℝ) : ℝ :=
  F64.add c (F64.mul (F64.ofInt n) (F64.sub (edges.getLastD 0) (edges.getD 0 0)))

/-- `centers` (cube2shell.py:109-116). -/
noncomputable def centres64 (C : CubeArgs) (A : ShellArgs) : List (ℝ × ℝ × ℝ) :=
  let c := center3 A.center
  ((perRange A.perx).flatMap fun i => (perRange A.pery).flatMap fun j => (perRange A.perz).map fun k => (i, j, k)).map fun n =>
    (centre64 c.1 n.1 (setupEdges64 C.xmin C.xmax C.numx.toNat),
      centre64 c.2.1 n.2.1 (setupEdges64 C.ymin C.ymax C.numy.toNat),
      centre64 c.2.2 n.2.2 (setupEdges64 C.zmin C.zmax C.numz.toNat))

/-- `sphere2cart` (conversions.py:118-123). -/
noncomputable def sphere2cart64 (L : Lib) (r phi theta : ℝ) (c : ℝ × ℝ × ℝ) : ℝ × ℝ × ℝ :=
  let x := F64.mul (F64.mul r (L.cos phi)) (L.sin theta)
  let y := F64.mul (F64.mul r (L.sin phi)) (L.sin theta)
  let z := F64.mul r (L.cos theta)
  (F64.add x c.1, F64.add y c.2.1, F64.add z c.2.2)

/-- The cell of a point of the fine map, seen from one of the centres, if the point is in the cube
(cube2shell.py:143-153). -/
noncomputable def cellOf64 (L : Lib) (C : CubeArgs) (r : ℝ) (ang : ℝ × ℝ) (c : ℝ × ℝ × ℝ) : Option (ℕ × ℕ × ℕ) :=
  let p := sphere2cart64 L r ang.2 ang.1 c
  match boxCell64 C.xmin C.xmax C.numx.toNat p.1, boxCell64 C.ymin C.ymax C.numy.toNat p.2.1,
      boxCell64 C.zmin C.zmax C.numz.toNat p.2.2 with
  | some a, some b, some d => some (a, b, d)
  | _, _, _ => none

/-- One entry of `f_shell_highres` (cube2shell.py:138, 142-154). -/
noncomputable def highres64 (L : Lib) (C : CubeArgs) (f : Arr3 ℝ) (r : ℝ) (ang : ℝ × ℝ) :
    List (ℝ × ℝ × ℝ) → ℝ → Py ℝ
  | [], v => .ok v
  | c :: cs, v => match cellOf64 L C r ang c with
    | none => highres64 L C f r ang cs v
    | some (a, b, d) => do
      let v' ← f.get a b d
      highres64 L C f r ang cs v'

/-- `hp.UNSEEN`. -/
noncomputable def unseen64 : ℝ := F64.fl unseen

/-- healpy's test for a missing value: `abs(x - UNSEEN) <= 1e-8 + 1e-5*abs(UNSEEN)`. -/
def isBad64 (x : ℝ) : Prop :=
  |F64.sub x unseen64| ≤ F64.add (F64.fl 1e-8) (F64.mul (F64.fl 1e-5) |unseen64|)

/-- `hp.ud_grade` for one pixel of the coarse map (healpy), for finite values: `np.sum(m*good)/np.sum(good)`. -/
noncomputable def udGrade64 (t : SumTree) (vals : List ℝ) : ℝ :=
  open Classical in
  match vals with
  | [v] => v
  | vals =>
    let good := fun x : ℝ => if isBad64 x then (0:ℝ) else 1
    let n := (vals.filter fun x => decide (¬ isBad64 x)).length
    if n = 0 then unseen64
    else F64.div (t.sum fun k => F64.mul (vals.getD k 0) (good (vals.getD k 0))) (F64.ofInt n)

/-- `rbin_weights` (cube2shell.py:160). -/
noncomputable def shellWeights64 (L : Lib) (redges : List ℝ) : List ℝ :=
  List.zipWith (fun b a => F64.sub (L.pow b 3) (L.pow a 3)) redges.tail redges.dropLast

/-- `remap` (cube2shell.py:136-167) after `setup_cube` and `setup_polar`. A division by zero is NaN or infinite
(`none`). -/
noncomputable def remap64 (L : Lib) (O : Sums) (hp : Hp) (C : CubeArgs) (A : ShellArgs) (f : Arr3 ℝ) :
    Py (Arr2 (Option ℝ)) := do
  let redges := denseEdges64 A.rmin A.rmax A.numr.toNat A.rebinR.toNat
  let rmid := setupMids64 redges
  let npix ← nside2npix A.nside
  let npixHi ← nside2npix (A.nside*A.rebinShell)
  let hi ← Box2Ring.tabulate rmid.length npixHi (fun i q =>
    highres64 L C f (rmid.getD i 0) (hp.pix2ang (A.nside*A.rebinShell) q) (centres64 C A) 0) 0
  let rw := shellWeights64 L redges
  let sphere : Arr2 ℝ := ⟨rmid.length, npix, fun i p =>
    F64.mul (udGrade64 O.sub ((hp.children (A.nside*A.rebinShell) A.nside p).map (hi.val i))) (rw.getD i 0)⟩
  -- `reshape` of the weights to two dimensions
  let rw3 ← (⟨rw.length, 1, fun i _ => rw.getD i 0⟩ : Arr2 ℝ).reshape3 A.numr.toNat A.rebinR.toNat 1
  let s3 ← sphere.reshape3 A.numr.toNat A.rebinR.toNat npix
  return ⟨A.numr.toNat, npix, fun i p =>
    let w := O.weights.sum fun k => rw3 i k 0
    if w = 0 then none else some (F64.div (O.data.sum fun k => s3 i k p) w)⟩

end Magpie.DgCube64
