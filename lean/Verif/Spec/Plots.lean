import Verif.Model.Plots
import Verif.Spec.Heal2Ortho

/-!
# What the plots should show
-/

namespace Magpie.Plots
open Magpie.Spec Magpie.Ortho Magpie.Radial Matrix

/-- Where the map of a sphere of radius `R` with centre `c` shows the direction `(phi, theta)`: at its offset to the
east and north of the centre, and nowhere if it is in the opposite hemisphere. For a direction seen at a point of the
disc this is the point (`C90_position`). -/
noncomputable def position (R : ℝ) (c : ℝ × ℝ) (phi theta : ℝ) : Option (ℝ × ℝ) :=
  if dir phi theta ⬝ᵥ dir c.1 c.2 < 0 then none
  else some (R*(dir phi theta ⬝ᵥ east c.1), R*(dir phi theta ⬝ᵥ north c.1 c.2))

/-- The meridian of longitude `phi`, at 100 colatitudes from pole to pole. -/
noncomputable def meridian (R : ℝ) (c : ℝ × ℝ) (phi : ℝ) : List (Option (ℝ × ℝ)) :=
  (List.range 100).map fun (j : ℕ) => position R c phi (j*Real.pi/99)

/-- The parallel of colatitude `theta`, at 100 longitudes all around. -/
noncomputable def parallel (R : ℝ) (c : ℝ × ℝ) (theta : ℝ) : List (Option (ℝ × ℝ)) :=
  (List.range 100).map fun (j : ℕ) => position R c (j*(2*Real.pi)/99) theta

/-- The rectangle `(left, right, bottom, top)` in which `imshow` with `origin='lower'` and the given extent shows
entry `(i, j)` of a map with `rows` rows and `cols` columns. -/
noncomputable def imCell (rows cols : ℕ) (x0 x1 y0 y1 : ℝ) (i j : ℕ) : ℝ × ℝ × ℝ × ℝ :=
  (x0 + (x1 - x0)*j/cols, x0 + (x1 - x0)*(j + 1)/cols, y0 + (y1 - y0)*i/rows, y0 + (y1 - y0)*(i + 1)/rows)

/-- The direction is inside the edges of the map. -/
def InMap (A : BoxArgs) (p : ℝ × ℝ) : Prop :=
  |p.1| ≤ A.xLength/2 ∧ |p.2| ≤ A.yLength.getD A.xLength/2

noncomputable instance (A : BoxArgs) (p : ℝ × ℝ) : Decidable (InMap A p) := Classical.propDecidable _

/-- The labels to be drawn: one for each pair of a text and a direction which is inside the map. -/
noncomputable def labels (A : BoxArgs) (c : ℝ × ℝ) (ax : Target) (rot : ℝ × ℝ → Option (Option ℝ))
    (l : List (List Char × ℝ × ℝ)) : List Cmd :=
  l.filterMap fun q => (position A.radius c q.2.1 q.2.2).bind fun p =>
    if InMap A p then some (.text ax p.1 p.2 q.1 (rot p)) else none

/-- The number with these decimal digits after the point. -/
noncomputable def decVal : List ℕ → ℝ
  | [] => 0
  | x :: l => (x + decVal l)/10

end Magpie.Plots
