import Verif.Spec.McBox2Ring
import Verif.Spec.Sector
import Mathlib.Probability.Independence.Basic

/-!
# What the Monte Carlo remapping estimates
-/

namespace Magpie.Mc
open Magpie.Box2Ring Magpie.Spec Magpie.Radial MeasureTheory ProbabilityTheory

/-- The part of the plane covered by polar pixel `(i, j)`. -/
noncomputable def Grid.pixel (G : Grid) (i j : ℕ) : Set (ℝ × ℝ) :=
  Sector (G.args.center.getD 0 0, G.args.center.getD 1 0) (G.rEdge j) (G.rEdge (j+1))
    (G.pEdge i + G.args.phiShift) (G.pEdge (i+1) + G.args.phiShift)

/-- The area that polar pixel `(i, j)` has in common with column `a`, row `b` of the box. -/
noncomputable def commonArea (B : BoxArgs) (G : Grid) (i j a b : ℕ) : ℝ :=
  (volume (G.pixel i j ∩ {pt | InPixel B pt a b})).toReal

/-- The sum over the box pixels of `w b a` times the area in common with polar pixel `(i, j)`. -/
noncomputable def areaSum (B : BoxArgs) (G : Grid) (w : ℕ → ℕ → ℝ) (i j : ℕ) : ℝ :=
  ∑ a ∈ Finset.range B.numx.toNat, ∑ b ∈ Finset.range B.numy.toNat, w b a*commonArea B G i j a b

/-- The number of box pixels that have an area in common with polar pixel `(i, j)`. -/
noncomputable def overlaps (B : BoxArgs) (G : Grid) (i j : ℕ) : ℕ :=
  {c : ℕ × ℕ | 0 < commonArea B G i j c.1 c.2}.ncard

/-- `n` variates for each polar pixel: the first `n` of a sequence of pairs. -/
def drawsOf (u : ℕ → ℕ → ℕ → ℝ × ℝ) (n i j : ℕ) : List ℝ × List ℝ :=
  ((List.range n).map fun (k : ℕ) => (u i j k).1, (List.range n).map fun (k : ℕ) => (u i j k).2)

/-- The variates of each polar pixel are independent pairs of independent uniform numbers. -/
structure Random {Ω : Type} [MeasurableSpace Ω] (P : Measure Ω) (U : Ω → ℕ → ℕ → ℕ → ℝ × ℝ) : Prop where
  meas : ∀ i j k, Measurable fun ω => U ω i j k
  law : ∀ i j k, Measure.map (fun ω => U ω i j k) P = unif2
  indep : ∀ i j, Pairwise fun k l => IndepFun (fun ω => U ω i j k) (fun ω => U ω i j l) P

/-- The weight of a box pixel; 1 without weights. -/
def wOf (w : Option (Arr2 ℝ)) (b a : ℕ) : ℝ := match w with
  | none => 1
  | some w => w.val b a

/-- The mean over the box pixels that polar pixel `(i, j)` overlaps of `v`, weighted by the common area times
the weight of the box pixel. -/
noncomputable def areaMean (B : BoxArgs) (G : Grid) (w : Option (Arr2 ℝ)) (v : ℕ → ℕ → ℝ) (i j : ℕ) : ℝ :=
  areaSum B G (fun b a => wOf w b a*v b a) i j/areaSum B G (wOf w) i j

end Magpie.Mc
