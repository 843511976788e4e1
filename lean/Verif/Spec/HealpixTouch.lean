import Verif.Spec.Healpix
import Mathlib.Analysis.SpecialFunctions.Sqrt
import Mathlib.Analysis.SpecialFunctions.Trigonometric.Basic

/-!
# Which HEALPix pixels touch on the sphere

A map of resolution `N` is cut into facets of `N × N` pixels. In star indices `(i, j)` facet `(a, b)` holds the
pixels with `a N ≤ i < (a+1) N` and `b N ≤ j < (b+1) N`; it is on the map if `b - a` is 1 (north), 0 (belt) or
-1 (south). `j - i` grows to the north, `i + j` to the east. Adding `4 N` to both indices is a full turn.
-/

namespace Magpie.Spec
open Real

/-- The facet of a pixel. -/
def facet (N : ℤ) (a : ℤ × ℤ) : ℤ × ℤ := (a.1/N, a.2/N)

/-- The pixel is in a facet of the map. -/
def OnMap (N : ℤ) (a : ℤ × ℤ) : Prop := |(facet N a).2 - (facet N a).1| ≤ 1

/-- The two pairs of star indices name the same pixel: they differ by whole turns. -/
def SamePix (N : ℤ) (a b : ℤ × ℤ) : Prop := ∃ n : ℤ, b = (a.1 + 4*N*n, a.2 + 4*N*n)

/-- The direction with longitude `phi` and cosine of the colatitude `z`. -/
noncomputable def dirOf (phi z : ℝ) : ℝ × ℝ × ℝ := (√(1 - z^2)*cos phi, √(1 - z^2)*sin phi, z)

/-- The direction of the lattice point `c` of facet `f` (the HEALPix projection, Górski et al. 2005): with
`t = c.2 - c.1` the height and `s = c.1 + c.2` the place along the ring, the belt `|t| ≤ N` is projected
linearly; in the caps the part of a ring of the facet, `2 (2N - |t|)` wide, takes up a quarter turn. -/
noncomputable def starDir (N : ℤ) (f c : ℤ × ℤ) : ℝ × ℝ × ℝ :=
  let t : ℝ := c.2 - c.1
  let s : ℝ := c.1 + c.2
  if |c.2 - c.1| ≤ N then dirOf (π/4*((s - N)/N)) (2*t/(3*N))
  else if N < c.2 - c.1 then
    dirOf (π/4*(2*f.1 + 1 + (s - (2*f.1 + 2)*N)/(2*N - t))) (1 - (2*N - t)^2/(3*N^2))
  else dirOf (π/4*(2*f.2 + 1 + (s - (2*f.2 + 2)*N)/(2*N + t))) (-(1 - (2*N + t)^2/(3*N^2)))

/-- `c` is one of the four corners of the pixel `a`. -/
def Corner (a c : ℤ × ℤ) : Prop := (c.1 = a.1 ∨ c.1 = a.1 + 1) ∧ (c.2 = a.2 ∨ c.2 = a.2 + 1)

/-- Two different pixels touch on the sphere: a corner of the one has the same direction as a corner of the
other. -/
def SkyTouch (N : ℤ) (a b : ℤ × ℤ) : Prop :=
  ¬ SamePix N a b ∧ ∃ c d, Corner a c ∧ Corner b d ∧ starDir N (facet N a) c = starDir N (facet N b) d

end Magpie.Spec
