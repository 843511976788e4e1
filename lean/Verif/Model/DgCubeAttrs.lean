import Verif.Model.ObjectCalls

/-!
# The attributes of `/repo/magpie/densegrid/cube2shell.py`, one by one

`Verif/Model/DgCube2Shell.lean` keeps attributes that are assigned together in one record. Here each attribute is
assigned by itself, in the order of the code, so that the object after an exception is exact.
-/

namespace Magpie.DgCubeAttrs
open Magpie.Radial Magpie.OneD Magpie.Remap Magpie.Cube Magpie.DgCube

/-- The attributes of a `Cube2Shell` object (cube2shell.py:16-37); `grids` are `x3d, y3d, z3d`. -/
structure Attrs where
  xedges : Option (List ℝ) := none
  yedges : Option (List ℝ) := none
  zedges : Option (List ℝ) := none
  xmid : Option (List ℝ) := none
  ymid : Option (List ℝ) := none
  zmid : Option (List ℝ) := none
  dx : Option ℝ := none
  dy : Option ℝ := none
  dz : Option ℝ := none
  grids : Option (Arr3 ℝ × Arr3 ℝ × Arr3 ℝ) := none
  redges : Option (List ℝ) := none
  nside : Option ℤ := none
  rmid : Option (List ℝ) := none
  dr : Option ℝ := none
  center : Option (ℝ × ℝ × ℝ) := none
  rebinShell : Option ℤ := none
  rebinR : Option ℕ := none
  centers : Option (List (ℝ × ℝ × ℝ)) := none
  rredges : Option (List ℝ) := none
  rrmid : Option (List ℝ) := none

/-- `__init__` (cube2shell.py:14-37). -/
def init : Attrs := {}

/-- `np.linspace(lo, hi, num)` (NumPy): `ValueError` for a negative number of samples. -/
noncomputable def linspaceZ (lo hi : ℝ) (num : ℤ) : Py (List ℝ) :=
  if num < 0 then .error .valueError else .ok (linspace lo hi num.toNat)

/-- `setup_cube` (cube2shell.py:57-68). -/
noncomputable def setupCube (a : CubeArgs) : Meth Attrs Unit := do
  Meth.lift (pyAssert (a.numx > 0))
  Meth.lift (pyAssert (a.numy > 0))
  let xe ← Meth.lift (linspaceZ a.xmin a.xmax (a.numx + 1))
  Meth.assign fun s => { s with xedges := some xe }
  let ye ← Meth.lift (linspaceZ a.ymin a.ymax (a.numy + 1))
  Meth.assign fun s => { s with yedges := some ye }
  let ze ← Meth.lift (linspaceZ a.zmin a.zmax (a.numz + 1))
  Meth.assign fun s => { s with zedges := some ze }
  Meth.assign fun s => { s with xmid := some (mids xe) }
  Meth.assign fun s => { s with ymid := some (mids ye) }
  Meth.assign fun s => { s with zmid := some (mids ze) }
  let dx ← Meth.lift (firstDiff xe)
  Meth.assign fun s => { s with dx := some dx }
  let dy ← Meth.lift (firstDiff ye)
  Meth.assign fun s => { s with dy := some dy }
  let dz ← Meth.lift (firstDiff ze)
  Meth.assign fun s => { s with dz := some dz }
  Meth.assign fun s => { s with grids := some (meshgrid3 (mids xe) (mids ye) (mids ze)) }

/-- `self.xedges[-1]-self.xedges[0]` (cube2shell.py:113-115). -/
noncomputable def sideOf (edges : Option (List ℝ)) : Py ℝ := do
  let l ← need edges
  if l = [] then .error .indexError else return side l

/-- `centers` (cube2shell.py:109-115). -/
noncomputable def mkCenters (s : Attrs) (a : ShellArgs) : Py (List (ℝ × ℝ × ℝ)) :=
  let c := center3 a.center
  let idx := (perRange a.perx).flatMap fun i => (perRange a.pery).flatMap fun j =>
    (perRange a.perz).map fun k => (i, j, k)
  if idx = [] then .ok []
  else do
    let lx ← sideOf s.xedges
    let ly ← sideOf s.yedges
    let lz ← sideOf s.zedges
    return idx.map fun n => (c.1 + (n.1:ℝ)*lx, c.2.1 + (n.2.1:ℝ)*ly, c.2.2 + (n.2.2:ℝ)*lz)

/-- `setup_polar` (cube2shell.py:94-118). -/
noncomputable def setupPolar (a : ShellArgs) : Meth Attrs Unit := do
  Meth.lift (shellChecks a)
  let redges := linspace a.rmin a.rmax (a.numr.toNat + 1)
  Meth.assign fun s => { s with redges := some redges }
  let rmid := mids redges
  Meth.assign fun s => { s with rmid := some rmid }
  let dr ← Meth.lift (firstDiff rmid)
  Meth.assign fun s => { s with dr := some dr }
  Meth.assign fun s => { s with nside := some a.nside }
  Meth.assign fun s => { s with center := some (center3 a.center) }
  Meth.assign fun s => { s with rebinShell := some a.rebinShell }
  Meth.assign fun s => { s with rebinR := some a.rebinR.toNat }
  let s ← Meth.self
  let centers ← Meth.lift (mkCenters s a)
  Meth.assign fun s => { s with centers := some centers }
  let rredges := linspace (redges.getD 0 0) (redges.getLastD 0) (a.rebinR.toNat*rmid.length + 1)
  Meth.assign fun s => { s with rredges := some rredges }
  Meth.assign fun s => { s with rrmid := some (mids rredges) }

/-- The attributes of the cube as one record, if all have been assigned (cube2shell.py:16-27). -/
def Attrs.cube (s : Attrs) : Option Grid3 := do
  let g ← s.grids
  return { xedges := ← s.xedges, yedges := ← s.yedges, zedges := ← s.zedges, xmid := ← s.xmid, ymid := ← s.ymid
           zmid := ← s.zmid, dx := ← s.dx, dy := ← s.dy, dz := ← s.dz, x3d := g.1, y3d := g.2.1, z3d := g.2.2 }

/-- The attributes of the shells as one record, if all have been assigned (cube2shell.py:29-37). -/
def Attrs.shell (s : Attrs) : Option Shell := do
  return { nside := ← s.nside, center := ← s.center, rebinShell := ← s.rebinShell, rebinR := ← s.rebinR
           centers := ← s.centers, rredges := ← s.rredges, rrmid := ← s.rrmid }

/-- The object as in `Verif/Model/DgCube2Shell.lean`. -/
def Attrs.view (s : Attrs) : DgCube.State where
  cube := s.cube
  edges := do return (← s.redges, ← s.rmid)
  dr := s.dr
  shell := s.shell

/-- `remap` (cube2shell.py:136-167): as `DgCube.remap`, and an `IndexError` in line 146 if `zedges` is empty. An
attribute that has not been assigned is a `TypeError` wherever it is used. `xedges` and `yedges` are never empty. -/
noncomputable def remap (hp : Hp) (f : Arr3 (Option ℝ)) : Meth Attrs (Arr2 (Option ℝ)) := fun s =>
  match s.view.shell, s.view.edges with
  | some sh, some _ =>
    if sh.rrmid ≠ [] ∧ sh.centers ≠ [] ∧ s.zedges = some [] then (.error .indexError, s)
    else ((DgCube.remap hp f s.view).1, s)
  | _, _ => (.error .typeError, s)

/-- `clean` (cube2shell.py:170-172). -/
def clean : Meth Attrs Unit := Meth.assign fun _ => init

/-- One call. -/
noncomputable def call (hp : Hp) : Call → Attrs → Out × Attrs
  | .cube a => (setupCube a).call .unit
  | .polar a => (setupPolar a).call .unit
  | .remap f => (remap hp f).call .arr
  | .clean => clean.call .unit

end Magpie.DgCubeAttrs
