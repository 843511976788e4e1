import Verif.Model.Conversions64

/-!
# Model of `/repo/magpie/randoms/{polar,sphere,usphere}.py` in binary64

The functions of `Verif/Model/RandomsBasic.lean` and `Verif/Model/RandomsUsphere.lean` again, each
arithmetic operation rounded.  `np.cos`, `np.arccos` and the powers with exponents other than 2 come
from the C library and are parameters.  `x**2.` is taken to round to nearest (see
`Verif/Model/Conversions64.lean`).
-/

namespace Magpie.Randoms64
open Magpie.Coords64

/-- `(hi - lo)*u + lo` and `lo + (hi - lo)*u` (polar.py:34, usphere.py:43); also the radicand of
polar.py:33 and sphere.py:27. -/
noncomputable def spread (lo hi u : ℝ) : ℝ := F64.add (F64.mul (F64.sub hi lo) u) lo

/-- `randoms_polar` (polar.py:30-35): `(r, phi)`, a NaN radius is `none`. -/
noncomputable def randomsPolar (uR uPhi : List ℝ) (rMin rMax phiMin phiMax : ℝ) :
    List (Option ℝ) × List ℝ :=
  let r := uR.map fun u => F64.sqrt (spread (sqr rMin) (sqr rMax) u)
  let phi := uPhi.map fun u => spread phiMin phiMax u
  (r, phi)

/-- `randoms_usphere` (usphere.py:40-45): `(phi, theta)`, a NaN `theta` is `none`. -/
noncomputable def randomsUsphere (M : Libm) (cos : ℝ → ℝ) (uPhi uTheta : List ℝ)
    (phiMin phiMax thetaMin thetaMax : ℝ) : List ℝ × List (Option ℝ) :=
  let phi := uPhi.map fun u => spread phiMin phiMax u
  let theta := uTheta.map fun u =>
    arccos M (F64.sub (cos thetaMin) (F64.mul (F64.sub (cos thetaMin) (cos thetaMax)) u))
  (phi, theta)

/-- `randoms_sphere_r` (sphere.py:25-28); `pow x y` is the C library's for `x ≥ 0`, for a negative base and the
exponent `1./3.` it is NaN (`none`). -/
noncomputable def randomsSphereR (pow : ℝ → ℝ → ℝ) (uR : List ℝ) (rMin rMax : ℝ) : List (Option ℝ) :=
  uR.map fun u =>
    let s := spread (pow rMin 3) (pow rMax 3) u
    if 0 ≤ s then some (pow s (F64.div 1 3)) else none

end Magpie.Randoms64
