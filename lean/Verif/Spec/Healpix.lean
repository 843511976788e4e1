import Mathlib.Data.Int.Basic
import Mathlib.Algebra.Order.Field.Basic
import Mathlib.Analysis.SpecialFunctions.Trigonometric.Basic

/-!
# Independent specification of the HEALPix RING layout

Górski et al. 2005: a map of resolution `N` has `4N-1` rings, numbered from the
north; ring `i` has `4i` pixels in the north cap (`i ≤ N`), `4N` in the belt and
`4(4N-i)` in the south cap (`i ≥ 3N`).
-/

namespace Magpie.Spec

/-- Number of pixels of ring `i`. -/
def ringLen (N i : ℤ) : ℤ :=
  if i ≤ N then 4*i else if i < 3*N then 4*N else 4*(4*N - i)

/-- `(i, j)` names a pixel: ring `1..4N-1`, place `1..ringLen`. -/
def ValidRing (N i j : ℤ) : Prop :=
  1 ≤ i ∧ i ≤ 4*N - 1 ∧ 1 ≤ j ∧ j ≤ ringLen N i

/-- `p` is a pixel number of the map. -/
def ValidPix (N p : ℤ) : Prop := 0 ≤ p ∧ p < 12*N^2

/-- North-to-south, then along the ring. -/
def lexLt (a b : ℤ × ℤ) : Prop := a.1 < b.1 ∨ (a.1 = b.1 ∧ a.2 < b.2)

end Magpie.Spec

namespace Magpie.Spec

/-- Cosine of the colatitude of ring `i` (Górski et al. 2005, eqs. 4, 8 and the
mirror symmetry). -/
noncomputable def centreZ (N i : ℤ) : ℝ :=
  if i < N then 1 - (i:ℝ)^2/(3*(N:ℝ)^2)
  else if i ≤ 3*N then 4/3 - 2*(i:ℝ)/(3*(N:ℝ))
  else -(1 - ((4*N - i : ℤ):ℝ)^2/(3*(N:ℝ)^2))

/-- Longitude of pixel `j` of ring `i` (same reference, eqs. 5, 9, with the
longitude origin used by the reference library's `pix2ang_ring`): in the belt
rings with `i - N` even start at half a step, the others at zero. -/
noncomputable def centrePhi (N i j : ℤ) : ℝ :=
  if i < N then ((j:ℝ) - 1/2) * Real.pi/(2*i)
  else if i ≤ 3*N then
    ((j:ℝ) - (if (i - N) % 2 = 0 then 1/2 else 1)) * Real.pi/(2*N)
  else ((j:ℝ) - 1/2) * Real.pi/(2*((4*N - i : ℤ) : ℝ))

/-- Half diagonal of a pixel in the healpix plane. -/
noncomputable def halfDiag (N : ℤ) : ℝ := Real.pi/(4*N)

/-- `(x, y)` lies in the open diamond of centre `c`. -/
def InDiamond (N : ℤ) (c : ℝ × ℝ) (x y : ℝ) : Prop := |x - c.1| + |y - c.2| < halfDiag N

/-- Solid angle per pixel: `4π` shared by `12 N^2` pixels. -/
noncomputable def pixArea (N : ℤ) : ℝ := 4*Real.pi/(12*(N:ℝ)^2)

end Magpie.Spec

namespace Magpie.Spec

/-- Two pixels (as star-index pairs) of the plane touch: their unit squares
share an edge or a corner. -/
def Touch (a b : ℤ × ℤ) : Prop := a ≠ b ∧ |a.1 - b.1| ≤ 1 ∧ |a.2 - b.2| ≤ 1

/-- A pixel away from the border of its `N × N` facet. -/
def FacetInterior (N : ℤ) (a : ℤ × ℤ) : Prop :=
  0 < a.1 % N ∧ a.1 % N < N - 1 ∧ 0 < a.2 % N ∧ a.2 % N < N - 1

end Magpie.Spec
