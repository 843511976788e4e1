import Verif.Spec.Box2Ring
import Verif.Spec.McBox2Ring

/-!
# Specification for C136: missing values in the data

A missing value (NaN) in the data is `none`.
-/

namespace Magpie.Missing
open Magpie Magpie.Radial Magpie.Box2Ring Magpie.Spec

/-- The point is in a box cell with a missing value. -/
def InHole (B : BoxArgs) (f : Arr2 (Option ℝ)) (pt : ℝ × ℝ) : Prop :=
  ∃ a b, InCell B.xmin B.xmax B.numx.toNat a pt.1 ∧ InCell B.ymin B.ymax B.numy.toNat b pt.2 ∧ f.val b a = none

/-- The same for the Monte Carlo remap, whose last column and row include their upper edge. -/
def InHoleMc (B : BoxArgs) (f : Arr2 (Option ℝ)) (pt : ℝ × ℝ) : Prop :=
  ∃ a b, Mc.InPixel B pt a b ∧ f.val b a = none

/-- The point is in the closed polar pixel: ring `j`, angular sector `i`. -/
def InSector (A : PolarArgs) (i j : ℕ) (pt : ℝ × ℝ) : Prop :=
  ∃ r p, edgeAt A.rmin A.rmax A.numr.toNat j ≤ r ∧ r ≤ edgeAt A.rmin A.rmax A.numr.toNat (j+1) ∧
    edgeAt A.pmin A.pmax A.nump.toNat i ≤ p ∧ p ≤ edgeAt A.pmin A.pmax A.nump.toNat (i+1) ∧
    pt = (r*Real.cos (p + A.phiShift) + A.center.getD 0 0, r*Real.sin (p + A.phiShift) + A.center.getD 1 0)

/-- The data have the same value in every box cell with a point of the polar pixel. -/
def AgreeNear (B : BoxArgs) (A : PolarArgs) (i j : ℕ) (f g : Arr2 (Option ℝ)) : Prop :=
  ∀ pt a b, InSector A i j pt → InCell B.xmin B.xmax B.numx.toNat a pt.1 →
    InCell B.ymin B.ymax B.numy.toNat b pt.2 → f.val b a = g.val b a

/-- The data with `0` for missing values. -/
def filled (f : Arr2 (Option ℝ)) (b a : ℕ) : ℝ := (f.val b a).getD 0

end Magpie.Missing
