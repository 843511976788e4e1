import Verif.Model.Meth
import Verif.Model.Remap
import Verif.Model.Conversions

/-!
# What the two `Cube2Shell` classes have in common

`/repo/magpie/montecarlo/cube2shell.py` (MC) and `/repo/magpie/densegrid/cube2shell.py` (DG) have the
same `setup_cube`. Printing (`verbose`) is not modelled.
-/

namespace Magpie

/-- A 3d array. -/
structure Arr3 (α : Type) where
  n0 : ℕ
  n1 : ℕ
  n2 : ℕ
  val : ℕ → ℕ → ℕ → α

/-- `a[i, j, k]`; `IndexError` outside the array. -/
def Arr3.get {α : Type} (a : Arr3 α) (i j k : ℕ) : Py α :=
  if i < a.n0 ∧ j < a.n1 ∧ k < a.n2 then .ok (a.val i j k) else .error .indexError

namespace Cube
open Magpie.OneD Magpie.Remap

/-- `hp.UNSEEN` (healpy). -/
noncomputable def unseen : ℝ := -1.6375e30

/-- `hp.isnsideok(nside)` (healpy, `nest=False`). The upper limit `2**29` of healpy is not modelled, nor
the restriction to powers of two of older versions. -/
def isNsideOk (nside : ℤ) : Prop := 0 < nside

instance (nside : ℤ) : Decidable (isNsideOk nside) := by unfold isNsideOk; infer_instance

/-- `hp.nside2npix(nside)` (healpy). -/
def nside2npix (nside : ℤ) : Py ℕ := if isNsideOk nside then .ok (12*nside.toNat^2) else .error .valueError

/-- The attributes assigned by `setup_cube`. -/
structure Grid3 where
  xedges : List ℝ
  yedges : List ℝ
  zedges : List ℝ
  xmid : List ℝ
  ymid : List ℝ
  zmid : List ℝ
  dx : ℝ
  dy : ℝ
  dz : ℝ
  x3d : Arr3 ℝ
  y3d : Arr3 ℝ
  z3d : Arr3 ℝ

/-- Arguments of `setup_cube`. -/
structure CubeArgs where
  xmin : ℝ
  xmax : ℝ
  numx : ℤ
  ymin : ℝ
  ymax : ℝ
  numy : ℤ
  zmin : ℝ
  zmax : ℝ
  numz : ℤ

/-- `np.meshgrid(x, y, z)` (NumPy, default `indexing='xy'`): the first axis is `y`, the second `x`. -/
def meshgrid3 (x y z : List ℝ) : Arr3 ℝ × Arr3 ℝ × Arr3 ℝ :=
  (⟨y.length, x.length, z.length, fun _ j _ => x.getD j 0⟩,
   ⟨y.length, x.length, z.length, fun i _ _ => y.getD i 0⟩,
   ⟨y.length, x.length, z.length, fun _ _ k => z.getD k 0⟩)

/-- The values computed by `setup_cube` (MC:59-68, DG:59-68) when there is at least one bin along each
axis. -/
noncomputable def CubeArgs.grid (a : CubeArgs) : Grid3 :=
  let xedges := linspace a.xmin a.xmax (a.numx.toNat + 1)
  let yedges := linspace a.ymin a.ymax (a.numy.toNat + 1)
  let zedges := linspace a.zmin a.zmax (a.numz.toNat + 1)
  let xmid := mids xedges
  let ymid := mids yedges
  let zmid := mids zedges
  { xedges := xedges, yedges := yedges, zedges := zedges, xmid := xmid, ymid := ymid, zmid := zmid
    dx := xedges.getD 1 0 - xedges.getD 0 0
    dy := yedges.getD 1 0 - yedges.getD 0 0
    dz := zedges.getD 1 0 - zedges.getD 0 0
    x3d := (meshgrid3 xmid ymid zmid).1
    y3d := (meshgrid3 xmid ymid zmid).2.1
    z3d := (meshgrid3 xmid ymid zmid).2.2 }

/-- `setup_cube` (MC:57-68, DG:57-68). There is no check of `numz`: `np.linspace` raises `ValueError` for
a negative number of edges (line 61), and `zedges[1]` is an `IndexError` for less than two (line 67).
Simplified: the attributes that have been assigned before this exception are left as they were. -/
noncomputable def setupCube (a : CubeArgs) : Py Grid3 := do
  pyAssert (a.numx > 0)
  pyAssert (a.numy > 0)
  if a.numz + 1 < 0 then .error .valueError
  else if a.numz < 1 then .error .indexError
  else return a.grid

/-- The centre, once its length has been checked. -/
def center3 (c : List ℝ) : ℝ × ℝ × ℝ := (c.getD 0 0, c.getD 1 0, c.getD 2 0)

end Cube
end Magpie
