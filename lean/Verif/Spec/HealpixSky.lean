import Verif.Spec.Healpix
import Mathlib.Analysis.SpecialFunctions.Sqrt
import Mathlib.Algebra.Order.Floor.Ring

/-!
# The HEALPix projection and the sky region of a pixel

Directions are given as longitude and cosine of the colatitude, `(phi, z)`; the solid angle of a set of
directions is its area in these coordinates (`d phi d z = sin theta d theta d phi`).
-/

namespace Magpie.Spec
open Real

/-- The HEALPix projection of the sphere to the plane (Górski et al. 2005; Calabretta & Roukema 2007): an
equal-area cylindrical projection of the belt `|z| ≤ 2/3`; in the caps, each quarter of longitudes is squeezed
towards its middle. -/
noncomputable def project (phi z : ℝ) : ℝ × ℝ :=
  if |z| ≤ 2/3 then (phi, 3*π/8*z)
  else
    let sigma := 2 - √(3*(1 - |z|))
    let phit := phi - π/2*⌊phi/(π/2)⌋
    (phi - (sigma - 1)*(phit - π/4), (if z < 0 then -1 else 1)*(π/4*sigma))

/-- The directions with longitudes in `[0, 2 pi)` whose projection is in the diamond with centre `c`, up to
whole turns. -/
def SkyPixel (N : ℤ) (c : ℝ × ℝ) : Set (ℝ × ℝ) :=
  {v | (0 ≤ v.1 ∧ v.1 < 2*π) ∧ (-1 < v.2 ∧ v.2 < 1) ∧
    ∃ t : ℤ, InDiamond N c ((project v.1 v.2).1 + 2*π*t) (project v.1 v.2).2}

end Magpie.Spec
