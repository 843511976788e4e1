import Verif.Model.Cube2Shell
import Verif.Model.McBox2Ring
import Verif.Model.RandomsUsphere

/-!
# Model of `/repo/magpie/montecarlo/cube2shell.py`
-/

namespace Magpie.McCube
open Magpie.Radial Magpie.OneD Magpie.Remap Magpie.Randoms Magpie.Coords Magpie.Cube Magpie.Mc

/-- One entry of `ind_xs[i, j]`, `ind_ys[i, j]`, `ind_zs[i, j]` and `ind_ws[i, j]`. -/
structure Hit where
  ix : ℕ
  iy : ℕ
  iz : ℕ
  w : ℝ

/-- `ind_xs, ind_ys, ind_zs, ind_ws`; `objIdx` as for `Box2Ring`. -/
structure Weights where
  hits : ℕ → ℕ → List Hit
  objIdx : Bool

/-- The stored arrays, with their first two dimensions. -/
structure Stored where
  wt : Weights
  rows : ℕ
  cols : ℕ

/-- `nside, center`. -/
structure Shell where
  nside : ℤ
  center : ℝ × ℝ × ℝ

/-- The attributes of a `Cube2Shell` object (cube2shell.py:16-36). `edges` are `redges, rmid`. -/
structure State where
  cube : Option Grid3 := none
  edges : Option (List ℝ × List ℝ) := none
  dr : Option (Arg ℝ) := none
  shell : Option Shell := none
  weights : Option Stored := none

/-- `__init__` (cube2shell.py:14-36). -/
def init : State := {}

/-- `setup_cube` (cube2shell.py:57-68). -/
noncomputable def setupCube (a : CubeArgs) : Meth State Unit := do
  let g ← Meth.lift (Cube.setupCube a)
  Meth.assign fun s => { s with cube := some g }

/-- Arguments of `setup_polar_lin` and `setup_polar_log`. -/
structure ShellArgs where
  rmin : ℝ
  rmax : ℝ
  numr : ℤ
  nside : ℤ
  center : List ℝ := [0, 0, 0]

/-- The last three assertions (cube2shell.py:88-90 and 117-119). -/
noncomputable def shellChecks (a : ShellArgs) : Py Unit := do
  pyAssert (a.rmin < a.rmax)
  pyAssert (a.numr > 0)
  pyAssert (a.center.length = 3)

/-- `setup_polar_lin` (cube2shell.py:87-95). -/
noncomputable def setupPolarLin (a : ShellArgs) : Meth State Unit := do
  Meth.lift (pyAssert (a.rmin ≥ 0))
  Meth.lift (shellChecks a)
  let redges := linspace a.rmin a.rmax (a.numr.toNat + 1)
  Meth.assign fun s => { s with edges := some (redges, mids redges) }
  let dr ← Meth.lift (firstDiff (mids redges))
  Meth.assign fun s => { s with dr := some (.scalar dr), shell := some ⟨a.nside, center3 a.center⟩ }

/-- `redges` of `setup_polar_log` (cube2shell.py:120-124). -/
noncomputable def logEdges (a : ShellArgs) (addzero : Bool) : List ℝ :=
  if addzero = true then 0 :: logspace a.rmin a.rmax a.numr.toNat
  else logspace a.rmin a.rmax (a.numr.toNat + 1)

/-- `setup_polar_log` (cube2shell.py:116-128). -/
noncomputable def setupPolarLog (a : ShellArgs) (addzero : Bool) : Meth State Unit := do
  Meth.lift (pyAssert (a.rmin > 0))
  Meth.lift (shellChecks a)
  let redges := logEdges a addzero
  Meth.assign fun s => { s with
    edges := some (redges, mids redges)
    dr := some (.list (List.zipWith (fun b a => b - a) redges.tail redges.dropLast))
    shell := some ⟨a.nside, center3 a.center⟩ }

/-- The random points of one pixel of one shell (cube2shell.py:153-157): `ux`, `uy` are the variates of
`randoms_healpix_pixel`, `ur` those of `randoms_sphere_r`. A point with a coordinate that is NaN is
`none`. -/
noncomputable def randomPoints (rmin rmax : ℝ) (pix : ℕ) (sh : Shell) (ux uy ur : List ℝ) :
    Py (List (Option (ℝ × ℝ × ℝ))) := do
  let (phi, theta) ← randomsHealpixPixel ux uy pix sh.nside
  let r := randomsSphereR ur rmin rmax
  return List.zipWith (fun r pt => match r, pt with
    | some r, (some phi, some theta) => some (sphere2cart r phi theta sh.center)
    | _, _ => none) r (phi.zip theta)

/-- Bin of a point along the three axes; a NaN point is not counted. -/
noncomputable def binOf (hx hy hz : List ℝ) (pt : Option (ℝ × ℝ × ℝ)) : Option (ℕ × ℕ × ℕ) :=
  match pt with
  | none => none
  | some (x, y, z) => match histBin hx x, histBin hy y, histBin hz z with
    | some a, some b, some c => some (a, b, c)
    | _, _, _ => none

/-- `H` of cube2shell.py:158-159. -/
noncomputable def histCount (hx hy hz : List ℝ) (pts : List (Option (ℝ × ℝ × ℝ))) (c : ℕ × ℕ × ℕ) : ℕ :=
  (pts.filter fun pt => decide (binOf hx hy hz pt = some c)).length

/-- `ind_x`, `ind_y`, `ind_z`, `ind_w` of one pixel (cube2shell.py:158-164): `H[x, y, z]` is read in
row-major order, `ind_x` is its second index and `ind_y` its first. -/
noncomputable def pixelHits (hx hy hz : List ℝ) (mcSize : ℕ) (pts : List (Option (ℝ × ℝ × ℝ))) : List Hit :=
  let cells := (List.range (hx.length - 1)).flatMap fun a =>
    ((List.range (hy.length - 1)).flatMap fun b => (List.range (hz.length - 1)).map fun c => (b, c)).map
      fun bc => (a, bc)
  let condition := cells.filter fun c => decide (histCount hx hy hz pts c ≠ 0)
  condition.map fun c => ⟨c.2.1, c.1, c.2.2, (histCount hx hy hz pts c : ℝ)/mcSize⟩

/-- The uniform variates of one pixel: for `randoms_healpix_pixel` (two lists) and for
`randoms_sphere_r`. -/
structure Draw where
  ux : List ℝ
  uy : List ℝ
  ur : List ℝ

/-- `get_weights` (cube2shell.py:143-178). `draws i j` are the uniform variates for pixel `j` of shell
`i`, `mcSize` each. -/
noncomputable def getWeights (mcSize : ℕ) (draws : ℕ → ℕ → Draw) : Meth State Unit := do
  let s ← Meth.self
  let (redges, rmid) ← Meth.lift (need s.edges)
  let sh ← Meth.lift (need s.shell)
  let npix ← Meth.lift (nside2npix sh.nside)
  let g ← Meth.lift (need s.cube)
  let hits ← Meth.lift (Box2Ring.tabulate rmid.length npix (fun i j => do
    let d := draws i j
    let pts ← randomPoints (redges.getD i 0) (redges.getD (i+1) 0) j sh d.ux d.uy d.ur
    let hx ← histEdges g.xedges
    let hy ← histEdges g.yedges
    let hz ← histEdges g.zedges
    return pixelHits hx hy hz mcSize pts) [])
  let objIdx ← Meth.lift (pack ((List.range rmid.length).map fun i =>
    (List.range npix).map fun j => (hits.val i j).length))
  Meth.assign fun s => { s with weights := some ⟨⟨hits.val, objIdx⟩, rmid.length, npix⟩ }

/-- `a[ind_xs, ind_ys, ind_zs]`: arrays of Python objects are not accepted as indices
(`IndexError`). -/
def readHits {α : Type} (objIdx : Bool) (a : Arr3 α) (hits : List Hit) : Py (List α) :=
  if objIdx = true then .error .indexError else pyMap (fun h => a.get h.ix h.iy h.iz) hits

/-- One pixel of `remap` (cube2shell.py:202-213). -/
noncomputable def remapPixel (wt : Weights) (f : Arr3 (Option ℝ)) (w : Option (Arr3 ℝ)) (i j : ℕ) :
    Py (Option ℝ) :=
  let hits := wt.hits i j
  let ws := hits.map Hit.w
  match w with
  | none =>
    if ws.sum ≠ 0 then do
      let fs ← readHits wt.objIdx f hits
      return odiv (npSum (List.zipWith (fun w f => omul f w) ws fs)) (some ws.sum)
    else .ok (some unseen)
  | some w =>
    if ws.sum ≠ 0 then do
      let w1 ← readHits wt.objIdx w hits
      let fs ← readHits wt.objIdx f hits
      return odiv (npSum (List.zipWith omul fs (List.zipWith (· * ·) ws w1)))
        (some (List.zipWith (· * ·) ws w1).sum)
    else .ok (some unseen)

/-- One pixel of `remap`: `ind_ws[i, j]` is an `IndexError` if the weights are those of fewer shells or
pixels (cube2shell.py:203, 209). -/
noncomputable def storedPixel (st : Stored) (f : Arr3 (Option ℝ)) (w : Option (Arr3 ℝ)) (i j : ℕ) :
    Py (Option ℝ) :=
  if i < st.rows ∧ j < st.cols then remapPixel st.wt f w i j else .error .indexError

/-- `remap` (cube2shell.py:198-216); the shapes of `f` and `w` are not checked. -/
noncomputable def remap (f : Arr3 (Option ℝ)) (w : Option (Arr3 ℝ)) : Meth State (Arr2 (Option ℝ)) := do
  let s ← Meth.self
  let (_, rmid) ← Meth.lift (need s.edges)
  let sh ← Meth.lift (need s.shell)
  let npix ← Meth.lift (nside2npix sh.nside)
  let st ← Meth.lift (need s.weights)
  Meth.lift (Box2Ring.tabulate rmid.length npix (storedPixel st f w) none)

/-- `clean` (cube2shell.py:219-221). -/
def clean : Meth State Unit := Meth.assign fun _ => init

end Magpie.McCube
