import Verif.Model.Heal2Ortho
import Verif.Spec.Box2Ring
import Verif.Spec.Sphere

/-!
# The orthographic view of the sky

The sphere seen from outside: `x` to the east, `y` to the north.
-/

namespace Magpie.Ortho
open Magpie.Spec

/-- Unit vector to the east, i.e. to larger longitudes. -/
noncomputable def east (phi : ℝ) : Fin 3 → ℝ := ![-Real.sin phi, Real.cos phi, 0]

/-- Unit vector to the north, i.e. to smaller colatitudes. -/
noncomputable def north (phi theta : ℝ) : Fin 3 → ℝ :=
  ![-Real.cos phi * Real.cos theta, -Real.sin phi * Real.cos theta, Real.sin theta]

/-- The arguments are valid: at least two pixels along each axis, a positive radius and a centre on the sky
(a colatitude of `np.pi` is below the real number π). -/
structure Valid (A : BoxArgs) (c : ℝ × ℝ) : Prop where
  xGrid : 2 ≤ A.xGrid
  yGrid : 2 ≤ A.yGrid.getD A.xGrid
  center : A.center = [c.1, c.2]
  radius : 0 < A.radius
  phi : 0 ≤ c.1 ∧ c.1 ≤ 2*Real.pi
  theta : 0 ≤ c.2 ∧ c.2 < Real.pi

/-- Number of columns. -/
def nx (A : BoxArgs) : ℕ := A.xGrid.toNat
/-- Number of rows. -/
def ny (A : BoxArgs) : ℕ := (A.yGrid.getD A.xGrid).toNat

/-- Centre of cell `(n, q)` (row, column) of the grid `mx × my` times as fine as the output grid. -/
noncomputable def point (A : BoxArgs) (mx my n q : ℕ) : ℝ × ℝ :=
  (midAt (-A.xLength/2) (A.xLength/2) (mx*nx A) q,
   midAt (-A.yLength.getD A.xLength/2) (A.yLength.getD A.xLength/2) (my*ny A) n)

/-- The point of the plane is in the disc of the sphere. -/
def OnSphere (R : ℝ) (p : ℝ × ℝ) : Prop := p.1^2 + p.2^2 < R^2

noncomputable instance (R : ℝ) (p : ℝ × ℝ) : Decidable (OnSphere R p) := Classical.propDecidable _

/-- The direction `(phi, theta)` is seen at the point `p` in the view of a sphere of radius `R` with centre
`c`: `p` is the offset to the east and north of the centre, and the direction is in the hemisphere around
it. -/
def SeenAt (R : ℝ) (c p : ℝ × ℝ) (d : ℝ × ℝ) : Prop :=
  R • dir d.1 d.2 = p.1 • east c.1 + p.2 • north c.1 c.2 + √(R^2 - p.1^2 - p.2^2) • dir c.1 c.2

/-- The direction `(phi, theta)` is the one on the rim of the view with centre `c` towards the point `p`. -/
def OnRim (c p : ℝ × ℝ) (d : ℝ × ℝ) : Prop :=
  √(p.1^2 + p.2^2) • dir d.1 d.2 = p.1 • east c.1 + p.2 • north c.1 c.2

/-- The sum of `g` over the dense points in output pixel `(i, j)` that are on the sphere. -/
noncomputable def discSum (A : BoxArgs) (m : ℕ) (g : ℕ → ℕ → ℝ) (i j : ℕ) : ℝ :=
  ∑ k ∈ Finset.range m, ∑ l ∈ Finset.range m,
    if OnSphere A.radius (point A m m (i*m + k) (j*m + l)) then g (i*m + k) (j*m + l) else 0

end Magpie.Ortho
