import Verif.Spec.McBox2Ring

/-!
# Polar grids turned by whole sectors
-/

namespace Magpie.Spec
open Magpie.Box2Ring

/-- The same rings and sectors with `phi_shift` larger by `k` sectors. -/
noncomputable def turnBy (k : ℤ) (A : PolarArgs) : PolarArgs :=
  { A with phiShift := A.phiShift + k*((A.pmax - A.pmin)/A.nump) }

/-- Sector `i` of the grid turned by `k` sectors is sector `i'` of the grid; `t` is a number of full turns, which
is zero unless the grid is a full circle. -/
def SameSector (A : PolarArgs) (k : ℤ) (i i' : ℕ) : Prop :=
  ∃ t : ℤ, (i':ℤ) = i + k + t*A.nump ∧ (t = 0 ∨ A.pmax - A.pmin = 2*Real.pi)

/-- `turnBy` for both kinds of grid of the Monte Carlo class. -/
noncomputable def turnGrid (k : ℤ) : Mc.Grid → Mc.Grid
  | .lin A => .lin (turnBy k A)
  | .log A z => .log (turnBy k A) z

end Magpie.Spec
