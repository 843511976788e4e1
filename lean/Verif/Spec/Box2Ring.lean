import Verif.Model.Box2Ring
import Verif.Spec.Grids

/-!
# Regular grids, and the arguments of the `Box2Ring` methods
-/

namespace Magpie.Spec

/-- Edge `k` of the division of `[lo, hi]` into `n` equal cells. -/
noncomputable def edgeAt (lo hi : ℝ) (n k : ℕ) : ℝ := lo + k*((hi - lo)/n)

/-- Centre of cell `k` of the division of `[lo, hi]` into `n` equal cells. -/
noncomputable def midAt (lo hi : ℝ) (n k : ℕ) : ℝ := (edgeAt lo hi n k + edgeAt lo hi n (k+1))/2

/-- `x` is in cell `k` of the division of `[lo, hi]` into `n` equal cells, which do not contain their
upper edge. -/
def InCell (lo hi : ℝ) (n k : ℕ) (x : ℝ) : Prop :=
  k < n ∧ edgeAt lo hi n k ≤ x ∧ x < edgeAt lo hi n (k+1)

/-- Like `InCell`, but the last cell contains its upper edge. -/
def InBin (lo hi : ℝ) (n k : ℕ) (x : ℝ) : Prop :=
  k < n ∧ edgeAt lo hi n k ≤ x ∧ (x < edgeAt lo hi n (k+1) ∨ (k + 1 = n ∧ x = hi))

end Magpie.Spec

namespace Magpie.Box2Ring

/-- The assertions of `setup_box` hold and the box has a positive size. -/
structure BoxOk (B : BoxArgs) : Prop where
  numx : 0 < B.numx
  numy : 0 < B.numy
  hx : B.xmin < B.xmax
  hy : B.ymin < B.ymax

/-- The assertions of `setup_polar` (and `setup_polar_lin`) hold. -/
structure PolarOk (A : PolarArgs) : Prop where
  rmin : 0 ≤ A.rmin
  r : A.rmin < A.rmax
  numr : 0 < A.numr
  pmin : 0 ≤ A.pmin
  pmin2 : A.pmin < 2*Real.pi
  p : A.pmin < A.pmax
  pmax : 0 < A.pmax
  pmax2 : A.pmax ≤ 2*Real.pi
  nump : 0 < A.nump
  center : A.center.length = 2

end Magpie.Box2Ring

namespace Magpie.Dg
open Magpie.Box2Ring Magpie.Spec

/-- The point is in the box. -/
def InBox (B : BoxArgs) (pt : ℝ × ℝ) : Prop :=
  B.xmin ≤ pt.1 ∧ pt.1 < B.xmax ∧ B.ymin ≤ pt.2 ∧ pt.2 < B.ymax

/-- The value `g` is what the grid with values `v` has at the point `(x, y)`; it is `0` outside. -/
def Reads (B : BoxArgs) (v : ℕ → ℕ → ℝ) (pt : ℝ × ℝ) (g : ℝ) : Prop :=
  (∀ a b, InCell B.xmin B.xmax B.numx.toNat a pt.1 → InCell B.ymin B.ymax B.numy.toNat b pt.2 →
    g = v b a) ∧
  ((¬ ∃ a b, InCell B.xmin B.xmax B.numx.toNat a pt.1 ∧ InCell B.ymin B.ymax B.numy.toNat b pt.2) →
    g = 0)

/-- The point at the centre of cell `(n, q)` of the grid `m` times as fine as the polar grid. -/
noncomputable def densePoint (A : PolarArgs) (mr mp n q : ℕ) : ℝ × ℝ :=
  let r := midAt A.rmin A.rmax (mr*A.numr.toNat) q
  let p := midAt A.pmin A.pmax (mp*A.nump.toNat) n + A.phiShift
  (r*Real.cos p + A.center.getD 0 0, r*Real.sin p + A.center.getD 1 0)

/-- The area of cell `(n, q)` of that grid. -/
noncomputable def denseArea (A : PolarArgs) (mr mp n q : ℕ) : ℝ :=
  sectorArea (edgeAt A.rmin A.rmax (mr*A.numr.toNat) q) (edgeAt A.rmin A.rmax (mr*A.numr.toNat) (q+1))
    (edgeAt A.pmin A.pmax (mp*A.nump.toNat) n) (edgeAt A.pmin A.pmax (mp*A.nump.toNat) (n+1))

/-- The sum over the dense cells in polar pixel `(i, j)` of area times `g`. -/
noncomputable def areaSum (A : PolarArgs) (m : ℕ) (g : ℕ → ℕ → ℝ) (i j : ℕ) : ℝ :=
  ∑ k ∈ Finset.range m, ∑ l ∈ Finset.range m, denseArea A m m (i*m + k) (j*m + l)*g (i*m + k) (j*m + l)

end Magpie.Dg
