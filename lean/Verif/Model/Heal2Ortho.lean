import Verif.Model.DgBox2Ring
import Verif.Model.Cube2Shell
import Verif.Model.Usphere

/-!
# Model of `/repo/magpie/densegrid/heal2ortho.py`

The HEALPix pixelisation is a parameter: `ang2pix nside theta phi` is the pixel `hp.ang2pix(nside, theta,
phi)` of a direction.
-/

namespace Magpie.Ortho
open Magpie.Radial Magpie.OneD Magpie.Remap Magpie.Coords Magpie.Cube

/-- The attributes `xedges, yedges, xmid, ymid`. -/
structure Edges where
  xedges : List ℝ
  yedges : List ℝ
  xmid : List ℝ
  ymid : List ℝ

/-- The attributes assigned by `setup_box` from `x2d` to `rebin_yind`. -/
structure Grid where
  x2d : Arr2 ℝ
  y2d : Arr2 ℝ
  radius : ℝ
  z2d : Arr2 ℝ
  onsphere : Arr2 (Option ℝ)
  center : ℝ × ℝ
  rebinX : ℕ
  rebinY : ℕ
  rxedges : List ℝ
  rxmid : List ℝ
  ryedges : List ℝ
  rymid : List ℝ
  rx2d : Arr2 ℝ
  ry2d : Arr2 ℝ
  rz2d : Arr2 ℝ
  ronsphere : Arr2 ℝ
  rxind : List ℕ
  ryind : List ℕ

/-- A `Heal2Ortho` object (heal2ortho.py:14-42). `end_center` is never changed, see `endCenter`. -/
structure State where
  nside : Option ℤ
  edges : Option Edges
  dx : Option ℝ
  dy : Option ℝ
  grid : Option Grid
  pix : Option (List ℕ)

/-- `__init__` (heal2ortho.py:14-42). -/
def init : State := ⟨none, none, none, none, none, none⟩

/-- `end_center = [3.*np.pi/2., 0.]` (heal2ortho.py:28). -/
noncomputable def endCenter : ℝ × ℝ := (3*Real.pi/2, 0)

/-- `setup_map` (heal2ortho.py:53-54). -/
def setupMap (nside : ℤ) : Meth State Unit := do
  Meth.lift (pyAssert (isNsideOk nside))
  Meth.assign fun s => { s with nside := some nside }

/-- The arguments of `setup_box`; the rebin factors are taken to be natural numbers. -/
structure BoxArgs where
  xLength : ℝ
  xGrid : ℤ
  center : List ℝ
  yLength : Option ℝ
  yGrid : Option ℤ
  rebinX : ℕ
  rebinY : ℕ
  radius : ℝ

/-- `a.flatten()` (row-major). -/
def flatten {α : Type} (a : Arr2 α) : List α :=
  (List.range (a.rows*a.cols)).map fun k => a.val (k / a.cols) (k % a.cols)

/-- `ortho2cart(x2d, y2d, r=radius, fill_value=np.nan)` of two-dimensional arrays of the same shape, which
works element by element (conversions.py:146, 152-156). -/
noncomputable def ortho2cart2 (x y : Arr2 ℝ) (r : ℝ) : Arr2 (Option ℝ) :=
  ⟨x.rows, x.cols, fun i j => ortho2cart (x.val i j) (y.val i j) r none⟩

/-- The grids (heal2ortho.py:94-120). `onsphere` is `1`, and NaN where `z2d` is not finite;
`rebin_onsphere` is `1`, and `0` there. -/
noncomputable def mkGrid (e : Edges) (a : BoxArgs) : Grid :=
  let (x2d, y2d) := meshgridXY e.xmid e.ymid
  let z := ortho2cart2 x2d y2d a.radius
  let rxedges := linspace (e.xedges.getD 0 0) (e.xedges.getLastD 0) (a.rebinX*e.xmid.length + 1)
  let rxmid := mids rxedges
  let ryedges := linspace (e.yedges.getD 0 0) (e.yedges.getLastD 0) (a.rebinY*e.ymid.length + 1)
  let rymid := mids ryedges
  let (rx2d, ry2d) := meshgridXY rxmid rymid
  let rz := ortho2cart2 rx2d ry2d a.radius
  -- `rebin_yind, rebin_xind = np.meshgrid(np.arange(nx), np.arange(ny))`
  let yind : Arr2 ℕ := ⟨rymid.length, rxmid.length, fun _ j => j⟩
  let xind : Arr2 ℕ := ⟨rymid.length, rxmid.length, fun i _ => i⟩
  { x2d := x2d, y2d := y2d, radius := a.radius
    z2d := ⟨z.rows, z.cols, fun i j => (z.val i j).getD 0⟩
    onsphere := ⟨z.rows, z.cols, fun i j => (z.val i j).map fun _ => 1⟩
    center := (a.center.getD 0 0, a.center.getD 1 0)
    rebinX := a.rebinX, rebinY := a.rebinY
    rxedges := rxedges, rxmid := rxmid, ryedges := ryedges, rymid := rymid, rx2d := rx2d, ry2d := ry2d
    rz2d := ⟨rz.rows, rz.cols, fun i j => (rz.val i j).getD 0⟩
    ronsphere := ⟨rz.rows, rz.cols, fun i j => if (rz.val i j).isSome then 1 else 0⟩
    rxind := flatten xind
    ryind := flatten yind }

/-- An array without NaN, for `hp.ang2pix`, which raises `ValueError` for a NaN. -/
def finiteArr (a : List (Option ℝ)) : Py (List ℝ) :=
  match a.mapM id with
  | some l => .ok l
  | none => .error .valueError

variable (ang2pix : ℤ → ℝ → ℝ → ℕ)

/-- `hp.ang2pix(nside, theta, phi)` of arrays (healpy): `ValueError` for a NaN, and for a colatitude outside
`[0, pi]` (healpy allows for `1e-5` at the upper end); `TypeError` if `nside` is `None`. -/
noncomputable def ang2pixArr (nside : Option ℤ) (theta phi : List (Option ℝ)) : Py (List ℕ) := do
  let phi ← finiteArr phi
  let theta ← finiteArr theta
  if (theta.all fun t => decide (0 ≤ t ∧ t ≤ Real.pi + 1/100000)) = true then do
    let n ← need nside
    vzip (fun t p => ang2pix n t p) theta phi
  else .error .valueError

/-- The pixels read (heal2ortho.py:121-126). -/
noncomputable def skyPix (nside : Option ℤ) (g : Grid) : Py (List ℕ) := do
  let xx := flatten g.rx2d
  let yy := flatten g.ry2d
  let zz := flatten g.rz2d
  let (_, phi, theta) ← cart2sphereArr xx yy zz (0, 0, 0)
  -- `theta` is finite, see `Verif/Proof/Heal2Ortho.lean`
  let theta ← finiteArr theta
  let s ← shiftArr phi theta endCenter.1 endCenter.2 g.center.1 g.center.2
  ang2pixArr ang2pix nside s.theta s.phi

/-- `setup_box` (heal2ortho.py:81-126). Simplified: if `np.linspace` raises for a negative `y_grid + 1`, the
assignment of `xedges` is not kept. -/
noncomputable def setupBox (a : BoxArgs) : Meth State Unit := do
  Meth.lift (pyAssert (a.xGrid > 0))
  let yLength := a.yLength.getD a.xLength
  let yGrid := a.yGrid.getD a.xGrid
  Meth.lift (pyAssert (a.center.length = 2))
  Meth.lift (if yGrid + 1 < 0 then .error .valueError else .ok ())
  let xedges := linspace (-a.xLength/2) (a.xLength/2) (a.xGrid + 1).toNat
  let yedges := linspace (-yLength/2) (yLength/2) (yGrid + 1).toNat
  let e : Edges := ⟨xedges, yedges, mids xedges, mids yedges⟩
  Meth.assign fun s => { s with edges := some e }
  let dx ← Meth.lift (firstDiff e.xmid)
  Meth.assign fun s => { s with dx := some dx }
  let dy ← Meth.lift (firstDiff e.ymid)
  Meth.assign fun s => { s with dy := some dy }
  let g := mkGrid e a
  Meth.assign fun s => { s with grid := some g }
  let s ← Meth.self
  let pix ← Meth.lift (skyPix ang2pix s.nside g)
  Meth.assign fun s => { s with pix := some pix }

/-- `a[i, j] = v` for index arrays: the values are stored one after the other; `IndexError` for an index
outside the array, `ValueError` for different lengths. -/
def put {α : Type} (a : Arr2 α) : List ℕ → List ℕ → List α → Py (Arr2 α)
  | [], [], [] => .ok a
  | i :: is, j :: js, v :: vs =>
    if i < a.rows ∧ j < a.cols then
      put ⟨a.rows, a.cols, fun p q => if p = i ∧ q = j then v else a.val p q⟩ is js vs
    else .error .indexError
  | _, _, _ => .error .valueError

/-- `np.sum(np.sum(a.reshape(rows, rebin_x, len(rebin_x2d[0])), axis=1).reshape(rows, cols, rebin_y),
axis=2)` (heal2ortho.py:147-148). -/
noncomputable def downsum (a : Arr2 (Option ℝ)) (rows cols rebinX rebinY rcols : ℕ) :
    Py (Arr2 (Option ℝ)) := do
  let a3 ← a.reshape3 rows rebinX rcols
  let s : Arr2 (Option ℝ) := ⟨rows, rcols, fun i c => npSum ((List.range rebinX).map fun k => a3 i k c)⟩
  let s3 ← s.reshape3 rows cols rebinY
  return ⟨rows, cols, fun i j => npSum ((List.range rebinY).map fun k => s3 i j k)⟩

/-- `f_box[condition] /= weights_2d[condition]`, where the weights are not zero (heal2ortho.py:151-152). -/
noncomputable def divNonzero (x w : Option ℝ) : Option ℝ := if w ≠ some 0 then odiv x w else x

/-- `x * y` of floats. -/
noncomputable def omul2 (x y : Option ℝ) : Option ℝ := y.bind fun y => omul x y

/-- `_remap` (heal2ortho.py:142-154). Without a complete `setup_box` the model raises `TypeError`; what the
code does then is not modelled. `len(rebin_x2d[0])` is an `IndexError` for an array without rows. -/
noncomputable def remap1 (f : List (Option ℝ)) : Meth State (Arr2 (Option ℝ)) := do
  let s ← Meth.self
  let g ← Meth.lift (need s.grid)
  let pix ← Meth.lift (need s.pix)
  let vals ← Meth.lift (gather f pix)
  let zeros : Arr2 (Option ℝ) := ⟨g.rx2d.rows, g.rx2d.cols, fun _ _ => some 0⟩
  let hi ← Meth.lift (put zeros g.rxind g.ryind vals)
  let hi ← Meth.lift (hi.zip omul g.ronsphere)
  Meth.lift (if g.rx2d.rows = 0 ∨ g.x2d.rows = 0 then .error .indexError else .ok ())
  let fb ← Meth.lift (downsum hi g.x2d.rows g.x2d.cols g.rebinX g.rebinY g.rx2d.cols)
  let wt ← Meth.lift (Dg.downgrade ⟨g.ronsphere.rows, g.ronsphere.cols, fun i j => some (g.ronsphere.val i j)⟩
    g.x2d.rows g.x2d.cols g.rebinX g.rebinY g.ry2d.cols)
  let fb ← Meth.lift (fb.zip divNonzero wt)
  Meth.lift (fb.zip omul2 g.onsphere)

/-- `remap` (heal2ortho.py:175-179). -/
noncomputable def remap (f : List (Option ℝ)) (w : Option (List ℝ)) : Meth State (Arr2 (Option ℝ)) :=
  match w with
  | none => remap1 f
  | some w => do
    let fw ← Meth.lift (vzip omul f w)
    let a ← remap1 fw
    let b ← remap1 (w.map some)
    Meth.lift (a.zip odiv b)

/-- `x = np.nan; y = np.nan` where `z < 0` (heal2ortho.py:191-193, 195-197). -/
noncomputable def front (p : ℝ × ℝ × ℝ) : Option (ℝ × ℝ) := if p.2.2 < 0 then none else some (p.1, p.2.1)

/-- `transform` of scalars (heal2ortho.py:184-185, 188-193, 198). Before `setup_box` the attribute `center`
is `None`, and `center[0]` a `TypeError`. -/
noncomputable def transform (phi theta : ℝ) : Meth State (Option (ℝ × ℝ)) := do
  let s ← Meth.self
  let g ← Meth.lift (need s.grid)
  let q ← Meth.lift (shift phi theta g.center.1 g.center.2 endCenter.1 endCenter.2)
  return q.bind fun q => front (sphere2cart 1 q.1 q.2 (0, 0, 0))

/-- `transform` of arrays (heal2ortho.py:186-189, 194-198): the rows `(x, y)` and the final content of the
caller's `phi` array. A NaN direction gives a NaN position. -/
noncomputable def transformArr (phi theta : List ℝ) : Meth State (List (Option (ℝ × ℝ)) × List ℝ) := do
  let s ← Meth.self
  let g ← Meth.lift (need s.grid)
  let q ← Meth.lift (shiftArr phi theta g.center.1 g.center.2 endCenter.1 endCenter.2)
  let rows ← Meth.lift (vzip (fun p t => p.bind fun p => t.bind fun t => front (sphere2cart 1 p t (0, 0, 0)))
    q.phi q.theta)
  return (rows, q.callerPhi)

/-- `clean` (heal2ortho.py:201-203). -/
def clean : Meth State Unit := Meth.assign fun _ => init

end Magpie.Ortho
