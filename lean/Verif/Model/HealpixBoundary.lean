import Verif.Model.HealpixIndex

/-!
# Model of `/repo/magpie/pixel/healpix_boundary.py`
-/

namespace Magpie.Healpix

/-- `_healpix_get_delta` (healpix_boundary.py:6-19). -/
noncomputable def getDelta (nside : ℤ) : ℝ := Real.pi/(4*nside)

/-- `x, y = x[::-1], y[::-1]` if `reverse`. -/
def revIf (reverse : Bool) (xy : List ℝ × List ℝ) : List ℝ × List ℝ :=
  if reverse = true then (xy.1.reverse, xy.2.reverse) else xy

/-- `_healpix_top_left` (healpix_boundary.py:22-50). -/
noncomputable def topLeft (p nside : ℤ) (steps : ℕ) (reverse : Bool) : Py (List ℝ × List ℝ) := do
  let (xp, yp) ← pix2xy p nside
  let delta := getDelta nside
  let x := linspace (xp-delta) xp steps
  let y := x.map fun x => x - xp + delta + yp
  return revIf reverse (x, y)

/-- `_healpix_top_right` (healpix_boundary.py:53-81). -/
noncomputable def topRight (p nside : ℤ) (steps : ℕ) (reverse : Bool) : Py (List ℝ × List ℝ) := do
  let (xp, yp) ← pix2xy p nside
  let delta := getDelta nside
  let x := linspace xp (xp+delta) steps
  let y := x.map fun x => -x + xp + delta + yp
  return revIf reverse (x, y)

/-- `_healpix_bot_left` (healpix_boundary.py:84-112). -/
noncomputable def botLeft (p nside : ℤ) (steps : ℕ) (reverse : Bool) : Py (List ℝ × List ℝ) := do
  let (xp, yp) ← pix2xy p nside
  let delta := getDelta nside
  let x := linspace (xp-delta) xp steps
  let y := x.map fun x => -x + xp - delta + yp
  return revIf reverse (x, y)

/-- `_healpix_bot_right` (healpix_boundary.py:115-143). -/
noncomputable def botRight (p nside : ℤ) (steps : ℕ) (reverse : Bool) : Py (List ℝ × List ℝ) := do
  let (xp, yp) ← pix2xy p nside
  let delta := getDelta nside
  let x := linspace xp (xp+delta) steps
  let y := x.map fun x => x - xp - delta + yp
  return revIf reverse (x, y)

/-- `healpix_boundary_top` (healpix_boundary.py:146-175); `int(steps/2)` is
`steps / 2` for `steps ≥ 0`. -/
noncomputable def boundaryTop (p nside : ℤ) (steps : ℕ) (reverse : Bool) :
    Py (List ℝ × List ℝ) := do
  let sizeLeft := steps / 2
  let sizeRight := steps - sizeLeft
  let (xl, yl) ← topLeft p nside sizeLeft false
  let (xr, yr) ← topRight p nside sizeRight false
  return revIf reverse (xl ++ xr, yl ++ yr)

/-- `healpix_boundary_bot` (healpix_boundary.py:178-207). -/
noncomputable def boundaryBot (p nside : ℤ) (steps : ℕ) (reverse : Bool) :
    Py (List ℝ × List ℝ) := do
  let sizeLeft := steps / 2
  let sizeRight := steps - sizeLeft
  let (xl, yl) ← botLeft p nside sizeLeft false
  let (xr, yr) ← botRight p nside sizeRight false
  return revIf reverse (xl ++ xr, yl ++ yr)

/-- `healpix_boundary` (healpix_boundary.py:210-240). -/
noncomputable def boundary (p nside : ℤ) (steps : ℕ) (reverse : Bool) :
    Py (List ℝ × List ℝ) := do
  let sizeTop := steps / 2
  let sizeBot := steps - sizeTop
  let (xt, yt) ← boundaryTop p nside sizeTop false
  let (xb, yb) ← boundaryBot p nside sizeBot true
  return revIf reverse (xt ++ xb, yt ++ yb)

end Magpie.Healpix
