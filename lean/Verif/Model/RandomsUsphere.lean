import Verif.Model.HealpixBoundary
import Verif.Model.HealpixCoords

/-!
# Model of `/repo/magpie/randoms/usphere.py`

The uniform variates of `np.random.random_sample` are arguments.
-/

namespace Magpie.Randoms
open Magpie.Healpix

/-- `randoms_usphere` (randoms/usphere.py:8-45) with variates `uPhi`, `uTheta`;
returns `(phi, theta)`, a NaN `theta` is `none`. -/
noncomputable def randomsUsphere (uPhi uTheta : List ℝ) (phiMin phiMax thetaMin thetaMax : ℝ) :
    List ℝ × List (Option ℝ) :=
  let phi := uPhi.map fun u => phiMin + (phiMax - phiMin)*u
  let theta := uTheta.map fun u =>
    npArccos (Real.cos thetaMin - (Real.cos thetaMin - Real.cos thetaMax)*u)
  (phi, theta)

/-- `_randoms_healpix_xy` (randoms/usphere.py:112-144) with variates `ux`, `uy`. -/
noncomputable def randomsHealpixXY (ux uy : List ℝ) (p nside : ℤ) :
    Py (List ℝ × List ℝ) := do
  let delta := getDelta nside
  let (xp, yp) ← pix2xy p nside
  let xrand : List ℝ := List.replicate ux.length 0
  let yrand : List ℝ := List.replicate ux.length 0
  -- lines 137-139
  let cond := whereIdx (fun u => decide (u ≤ 1/2)) ux
  let uc ← gather ux cond
  let xrand ← scatter xrand cond (uc.map fun u => xp + delta*(Real.sqrt (2*u) - 1))
  let xc ← gather xrand cond
  let vc ← gather uy cond
  let yrand ← scatter yrand cond
    (List.zipWith (fun x v => 2*(x - xp + delta)*v + (-x + xp - delta + yp)) xc vc)
  -- lines 140-142
  let cond := whereIdx (fun u => decide (u > 1/2)) ux
  let uc ← gather ux cond
  let xrand ← scatter xrand cond (uc.map fun u => xp + delta*(1 - Real.sqrt (2*(1-u))))
  let xc ← gather xrand cond
  let vc ← gather uy cond
  let yrand ← scatter yrand cond
    (List.zipWith (fun x v => 2*(-x + xp + delta)*v + (x - xp - delta + yp)) xc vc)
  -- line 143
  let xrand := xrand.map fun x => fmod x (2*Real.pi)
  return (xrand, yrand)

/-- `randoms_healpix_pixel` (randoms/usphere.py:147-168). -/
noncomputable def randomsHealpixPixel (ux uy : List ℝ) (p nside : ℤ) :
    Py (List (Option ℝ) × List (Option ℝ)) := do
  let (xrand, yrand) ← randomsHealpixXY ux uy p nside
  xy2angArr xrand yrand

end Magpie.Randoms
