import Verif.Spec.McLimit

/-!
# The mean of a map over a ring
-/

namespace Magpie.Mc
open Magpie.Box2Ring Magpie.Spec Magpie.Radial MeasureTheory

/-- Ring `j` of a polar grid: the points between two neighbouring radii, in the range of angles of the grid. -/
noncomputable def Grid.ring (G : Grid) (j : ℕ) : Set (ℝ × ℝ) :=
  Sector (G.args.center.getD 0 0, G.args.center.getD 1 0) (G.rEdge j) (G.rEdge (j+1))
    (G.args.pmin + G.args.phiShift) (G.args.pmax + G.args.phiShift)

/-- The integral over ring `j` of the map with value `v b a` in column `a`, row `b` of the box and 0 outside, divided
by the area of the ring. -/
noncomputable def ringMean (B : BoxArgs) (G : Grid) (v : ℕ → ℕ → ℝ) (j : ℕ) : ℝ :=
  (∑ a ∈ Finset.range B.numx.toNat, ∑ b ∈ Finset.range B.numy.toNat,
    v b a*(volume (G.ring j ∩ {pt | InPixel B pt a b})).toReal)/(volume (G.ring j)).toReal

end Magpie.Mc
