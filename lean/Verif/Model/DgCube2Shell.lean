import Verif.Model.Cube2Shell
import Verif.Model.DgBox2Ring

/-!
# Model of `/repo/magpie/densegrid/cube2shell.py`

The HEALPix pixelisation is a parameter: `pix2ang nside pix` is `(theta, phi) = hp.pix2ang(nside, pix)`, and
`children nsideIn nsideOut pix` are the pixels of the fine map that `hp.ud_grade` averages. `ud_grade` needs
powers of two; what it does for other values of `nside` is not modelled. Printing (`verbose`) is not modelled.
-/

namespace Magpie.DgCube
open Magpie.Radial Magpie.OneD Magpie.Remap Magpie.Coords Magpie.Cube

/-- HEALPix functions. -/
structure Hp where
  pix2ang : ℤ → ℕ → ℝ × ℝ
  children : ℤ → ℤ → ℕ → List ℕ

/-- `nside, center, rebin_shell, rebin_r, centers, rebin_redges, rebin_rmid`. -/
structure Shell where
  nside : ℤ
  center : ℝ × ℝ × ℝ
  rebinShell : ℤ
  rebinR : ℕ
  centers : List (ℝ × ℝ × ℝ)
  rredges : List ℝ
  rrmid : List ℝ

/-- The attributes of a `Cube2Shell` object (cube2shell.py:16-37). `edges` are `redges, rmid`. -/
structure State where
  cube : Option Grid3 := none
  edges : Option (List ℝ × List ℝ) := none
  dr : Option ℝ := none
  shell : Option Shell := none

/-- `__init__` (cube2shell.py:14-37). -/
def init : State := {}

/-- `setup_cube` (cube2shell.py:57-68). -/
noncomputable def setupCube (a : CubeArgs) : Meth State Unit := do
  let g ← Meth.lift (Cube.setupCube a)
  Meth.assign fun s => { s with cube := some g }

/-- Arguments of `setup_polar`; the ranges `periodicx`, `periodicy`, `periodicz` are pairs of integers. -/
structure ShellArgs where
  rmin : ℝ
  rmax : ℝ
  numr : ℤ
  nside : ℤ
  center : List ℝ := [0, 0, 0]
  rebinShell : ℤ := 2
  rebinR : ℤ := 2
  perx : ℤ × ℤ := (0, 0)
  pery : ℤ × ℤ := (0, 0)
  perz : ℤ × ℤ := (0, 0)

/-- `range(p[0], p[1]+1)`. -/
def perRange (p : ℤ × ℤ) : List ℤ := (List.range (p.2 + 1 - p.1).toNat).map fun k : ℕ => p.1 + (k:ℤ)

/-- `edges[-1] - edges[0]`. -/
noncomputable def side (edges : List ℝ) : ℝ := edges.getLastD 0 - edges.getD 0 0

/-- `centers` (cube2shell.py:109-116). Without `setup_cube` the first passage of the loop is a
`TypeError`. -/
noncomputable def mkCenters (cube : Option Grid3) (a : ShellArgs) : Py (List (ℝ × ℝ × ℝ)) :=
  let c := center3 a.center
  let idx := (perRange a.perx).flatMap fun i => (perRange a.pery).flatMap fun j =>
    (perRange a.perz).map fun k => (i, j, k)
  if idx = [] then .ok []
  else do
    let g ← need cube
    return idx.map fun n => (c.1 + (n.1:ℝ)*side g.xedges, c.2.1 + (n.2.1:ℝ)*side g.yedges,
      c.2.2 + (n.2.2:ℝ)*side g.zedges)

/-- The assertions of `setup_polar` (cube2shell.py:94-101). -/
noncomputable def shellChecks (a : ShellArgs) : Py Unit := do
  pyAssert (a.rmin ≥ 0)
  pyAssert (a.rmin < a.rmax)
  pyAssert (a.numr > 0)
  pyAssert (a.center.length = 3)
  pyAssert (a.rebinShell ≥ 1)
  pyAssert (isNsideOk a.nside)
  pyAssert (isNsideOk (a.nside*a.rebinShell))
  pyAssert (a.rebinR ≥ 1)

/-- `setup_polar` (cube2shell.py:94-118). Simplified: if the loop over the centres raises, the attributes
assigned in lines 105-108 are left as they were. -/
noncomputable def setupPolar (a : ShellArgs) : Meth State Unit := do
  Meth.lift (shellChecks a)
  let redges := linspace a.rmin a.rmax (a.numr.toNat + 1)
  let rmid := mids redges
  Meth.assign fun s => { s with edges := some (redges, rmid) }
  let dr ← Meth.lift (firstDiff rmid)
  Meth.assign fun s => { s with dr := some dr }
  let s ← Meth.self
  let centers ← Meth.lift (mkCenters s.cube a)
  let rredges := linspace (redges.getD 0 0) (redges.getLastD 0) (a.rebinR.toNat*rmid.length + 1)
  Meth.assign fun s => { s with
    shell := some ⟨a.nside, center3 a.center, a.rebinShell, a.rebinR.toNat, centers, rredges, mids rredges⟩ }

/-- The cell of a point of the fine map, seen from one of the centres, if the point is in the cube
(cube2shell.py:143-153). -/
noncomputable def cellOf (g : Grid3) (r : ℝ) (ang : ℝ × ℝ) (c : ℝ × ℝ × ℝ) : Option (ℕ × ℕ × ℕ) :=
  let p := sphere2cart r ang.2 ang.1 c
  match Dg.cellIdx p.1 (g.xedges.getD 0 0) g.dx g.xmid.length,
      Dg.cellIdx p.2.1 (g.yedges.getD 0 0) g.dy g.ymid.length,
      Dg.cellIdx p.2.2 (g.zedges.getD 0 0) g.dz g.zmid.length with
  | some a, some b, some d => some (a, b, d)
  | _, _, _ => none

/-- One entry of `f_shell_highres` (cube2shell.py:138, 142-154): the centres are used one after the other, a
later one replaces the value of an earlier one. -/
noncomputable def highres (g : Grid3) (f : Arr3 (Option ℝ)) (r : ℝ) (ang : ℝ × ℝ) :
    List (ℝ × ℝ × ℝ) → Option ℝ → Py (Option ℝ)
  | [], v => .ok v
  | c :: cs, v => match cellOf g r ang c with
    | none => highres g f r ang cs v
    | some (a, b, d) => do
      let v' ← f.get a b d
      highres g f r ang cs v'

/-- `highres`; without centres the cube is not used. -/
noncomputable def entry (g : Option Grid3) (f : Arr3 (Option ℝ)) (r : ℝ) (ang : ℝ × ℝ) (cs : List (ℝ × ℝ × ℝ)) :
    Py (Option ℝ) :=
  match g with
  | none => .ok (some 0)
  | some g => highres g f r ang cs (some 0)

/-- healpy's test for a missing value: `abs(x - UNSEEN) <= 1e-8 + 1e-5*abs(UNSEEN)`. -/
def isBad (x : ℝ) : Prop := |x - unseen| ≤ 1e-8 + 1e-5 * |unseen|

/-- `hp.ud_grade` for one pixel of the coarse map (healpy). With the same `nside` the map is copied. Otherwise
the value is `np.sum(m*good)/np.sum(good)`, with `good` the finite values that are not missing, or `UNSEEN` if
there is none; `m*good` is NaN where `m` is NaN. -/
noncomputable def udGrade (vals : List (Option ℝ)) : Option ℝ :=
  open Classical in
  match vals with
  | [v] => v
  | vals =>
    let good := (vals.filterMap id).filter fun x => decide (¬ isBad x)
    if good = [] then some unseen
    else if none ∈ vals then none
    else some (good.sum/good.length)

/-- `remap` (cube2shell.py:136-167). -/
noncomputable def remap (hp : Hp) (f : Arr3 (Option ℝ)) : Meth State (Arr2 (Option ℝ)) := do
  let s ← Meth.self
  let sh ← Meth.lift (need s.shell)
  let (_, rmid) ← Meth.lift (need s.edges)
  let npix ← Meth.lift (nside2npix sh.nside)
  let npixHi ← Meth.lift (nside2npix (sh.nside*sh.rebinShell))
  let g ← Meth.lift (if sh.rrmid = [] ∨ sh.centers = [] then .ok none else (need s.cube).map some)
  let hi ← Meth.lift (Box2Ring.tabulate sh.rrmid.length npixHi (fun i q =>
    entry g f (sh.rrmid.getD i 0) (hp.pix2ang (sh.nside*sh.rebinShell) q) sh.centers) none)
  let sphere : Arr2 (Option ℝ) := ⟨sh.rrmid.length, npix, fun i p =>
    udGrade ((hp.children (sh.nside*sh.rebinShell) sh.nside p).map (hi.val i))⟩
  let rw := List.zipWith (fun b a => b^3 - a^3) sh.rredges.tail sh.rredges.dropLast
  let sphere : Arr2 (Option ℝ) := ⟨sphere.rows, sphere.cols, fun i p => omul (sphere.val i p) (rw.getD i 0)⟩
  -- `reshape` of the weights to two dimensions
  let rw3 ← Meth.lift ((⟨rw.length, 1, fun i _ => some (rw.getD i 0)⟩ : Arr2 (Option ℝ)).reshape3
    rmid.length sh.rebinR 1)
  let s3 ← Meth.lift (sphere.reshape3 rmid.length sh.rebinR npix)
  return ⟨rmid.length, npix, fun i p =>
    odiv (npSum ((List.range sh.rebinR).map fun k => s3 i k p))
      (npSum ((List.range sh.rebinR).map fun k => rw3 i k 0))⟩

/-- `clean` (cube2shell.py:170-172). -/
def clean : Meth State Unit := Meth.assign fun _ => init

end Magpie.DgCube
