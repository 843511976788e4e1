import Verif.Model.Heal2Polar
import Verif.Spec.Heal2Ortho

/-!
# Polar caps and boxes on the sky
-/

namespace Magpie.HealSky
open Magpie.Spec Magpie.Ortho Magpie.Box2Ring Real

/-- A call returns normally. -/
def Returns {α S : Type} (r : Py α × S) : Prop := ∃ out, r.1 = .ok out

/-- The arguments of `setup_polar_cap` are valid: what the documentation asks for, with at least two bins
along each axis. -/
structure CapValid (A : PolarArgs) (c : ℝ × ℝ) : Prop where
  alpha : 0 ≤ A.rmin ∧ A.rmin < A.rmax
  beta : 0 ≤ A.pmin ∧ A.pmin < A.pmax ∧ A.pmax ≤ 2*π
  numr : 2 ≤ A.numr
  nump : 2 ≤ A.nump
  center : A.center = [c.1, c.2]

/-- The arguments of `setup_box` are valid. -/
structure BoxValid (A : HealPolar.BoxArgs) (c : ℝ × ℝ) : Prop where
  x : 0 ≤ A.xLength ∧ A.xLength ≤ 2*π
  y : ∀ l, A.yLength = some l → 0 ≤ l ∧ l ≤ π
  xGrid : 2 ≤ A.xGrid
  yGrid : ∀ n, A.yGrid = some n → 2 ≤ n
  center : A.center = [c.1, c.2]

/-- The direction `d` is at angular distance `alpha` from the centre `c`, at the position angle `beta`,
counted from the south to the east. -/
def CapAt (c : ℝ × ℝ) (alpha beta : ℝ) (d : ℝ × ℝ) : Prop :=
  dir d.1 d.2 = cos alpha • dir c.1 c.2
    + sin alpha • (cos beta • (-north c.1 c.2) + sin beta • east c.1)

/-- The direction `d` has longitude `x` and latitude `y` in the coordinates whose origin is the centre `c`, and
whose equator and pole are turned by the angle `alpha` from the east and the north there. -/
def BoxAt (c : ℝ × ℝ) (alpha x y : ℝ) (d : ℝ × ℝ) : Prop :=
  dir d.1 d.2 = (cos x*cos y) • dir c.1 c.2
    + (sin x*cos y) • (cos alpha • east c.1 + sin alpha • north c.1 c.2)
    + sin y • (-sin alpha • east c.1 + cos alpha • north c.1 c.2)

end Magpie.HealSky
