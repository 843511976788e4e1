import Verif.Spec.Box2Ring
import Verif.Spec.Grids64
import Verif.Model.DgRemap64

/-!
# Accuracy of the C library's cosine and sine
-/

namespace Magpie.Spec

/-- Cosine and sine of angles up to `2^10` are at most `2^-52` off, less than one unit in the last place of `1`. -/
structure TrigNear (L : Dg64.Trig) : Prop where
  cos : ∀ p, IsDouble p → |p| ≤ 2^10 → |L.cos p - Real.cos p| ≤ 1/2^52
  sin : ∀ p, IsDouble p → |p| ≤ 2^10 → |L.sin p - Real.sin p| ≤ 1/2^52

end Magpie.Spec

namespace Magpie.Dg64
open Magpie.Spec Magpie.Box2Ring

/-- Every order adds each of `m` entries once. -/
structure Orders.For (O : Orders) (m : ℕ) : Prop where
  rows : O.rows.leaves.Perm (List.range m)
  cols : O.cols.leaves.Perm (List.range m)
  areaRows : O.areaRows.leaves.Perm (List.range m)
  areaCols : O.areaCols.leaves.Perm (List.range m)

/-- How far from the point meant the box may be read along one axis: `2^-44` of the sizes involved and twice the
margin at the cell boundaries. -/
noncomputable def reach (rmax centre lo hi : ℝ) (num : ℕ) : ℝ := (rmax + |centre|)/2^44 + 2*cellMargin lo hi num

/-- The square of a ring's outer radius less that of its inner radius. -/
noncomputable def ringSize (A : PolarArgs) (j : ℕ) : ℝ :=
  edgeAt A.rmin A.rmax A.numr.toNat (j+1)^2 - edgeAt A.rmin A.rmax A.numr.toNat j^2

/-- Arguments that pass the assertions and fit the floating point numbers: all four ranges can be divided, the cells of
the box are at least twice as wide as the margin at their boundaries, the shift is at most `16`, the outermost radius
is at least `2^-200`, and no ring is smaller than the `2^40`-th part of `m` discs. -/
structure Fits (B : BoxArgs) (A : PolarArgs) (m : ℕ) : Prop where
  box : BoxOk B
  polar : PolarOk A
  x : Divisible B.xmin B.xmax B.numx.toNat
  xwide : 2*cellMargin B.xmin B.xmax B.numx.toNat ≤ (B.xmax - B.xmin)/B.numx.toNat
  y : Divisible B.ymin B.ymax B.numy.toNat
  ywide : 2*cellMargin B.ymin B.ymax B.numy.toNat ≤ (B.ymax - B.ymin)/B.numy.toNat
  r : Divisible A.rmin A.rmax (m*A.numr.toNat)
  p : Divisible A.pmin A.pmax (m*A.nump.toNat)
  shift : |A.phiShift| ≤ 16
  large : (2:ℝ)^(-200 : ℤ) ≤ A.rmax
  rings : ∀ j < A.numr.toNat, m*A.rmax^2 ≤ 2^40*ringSize A j

end Magpie.Dg64
