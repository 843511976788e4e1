import Verif.Model.HealpixCoords
import Mathlib.Analysis.SpecialFunctions.Complex.Arg

/-!
# Model of `/repo/magpie/coords/conversions.py`

`np.arctan2(y, x)` is the argument of `x + i y` (zero at the origin; signed zeros are not
modelled).  Scalars and one-dimensional arrays are separate branches in the code and separate
definitions here.
-/

namespace Magpie.Coords
open Magpie.Healpix

/-- `np.arctan2(y, x)`. -/
noncomputable def arctan2 (y x : ℝ) : ℝ := Complex.arg ⟨x, y⟩

/-- Elementwise operation on two arrays: `ValueError` when the shapes differ (the broadcasting
of one-element arrays is not modelled). -/
def vzip {α β γ : Type*} (f : α → β → γ) (a : List α) (b : List β) : Py (List γ) :=
  if a.length = b.length then .ok (List.zipWith f a b) else .error .valueError

/-- Scalar branch of `cart2polar` (conversions.py:23-27, 31). -/
noncomputable def cart2polar (x y : ℝ) (c : ℝ × ℝ) : ℝ × ℝ :=
  let r := Real.sqrt ((x - c.1)^2 + (y - c.2)^2)
  let phi := arctan2 (y - c.2) (x - c.1)
  let phi := if phi < 0 then phi + 2*Real.pi else phi
  (r, phi)

/-- Array branch of `cart2polar` (conversions.py:23-24, 28-31). -/
noncomputable def cart2polarArr (x y : List ℝ) (c : ℝ × ℝ) : Py (List ℝ × List ℝ) := do
  let r ← vzip (fun x y => Real.sqrt ((x - c.1)^2 + (y - c.2)^2)) x y
  let phi ← vzip (fun x y => arctan2 (y - c.2) (x - c.1)) x y
  let cond := whereIdx (fun p => decide (p < 0)) phi
  let pc ← gather phi cond
  let phi ← scatter phi cond (pc.map fun p => p + 2*Real.pi)
  return (r, phi)

/-- `polar2cart` (conversions.py:53-55), scalar. -/
noncomputable def polar2cart (r phi : ℝ) (c : ℝ × ℝ) : ℝ × ℝ :=
  (r*Real.cos phi + c.1, r*Real.sin phi + c.2)

/-- Scalar branch of `cart2sphere` (conversions.py:79-87, 94); a NaN `theta` is `none`. -/
noncomputable def cart2sphere (x y z : ℝ) (c : ℝ × ℝ × ℝ) : ℝ × ℝ × Option ℝ :=
  let r := Real.sqrt ((x - c.1)^2 + (y - c.2.1)^2 + (z - c.2.2)^2)
  let phi := arctan2 (y - c.2.1) (x - c.1)
  let phi := if phi < 0 then phi + 2*Real.pi else phi
  let theta := if r ≠ 0 then npArccos ((z - c.2.2)/r) else some 0
  (r, phi, theta)

/-- Array branch of `cart2sphere` (conversions.py:79-80, 88-94). -/
noncomputable def cart2sphereArr (x y z : List ℝ) (c : ℝ × ℝ × ℝ) :
    Py (List ℝ × List ℝ × List (Option ℝ)) := do
  let r ← vzip (fun x y => (x - c.1)^2 + (y - c.2.1)^2) x y
  let r ← vzip (fun s z => Real.sqrt (s + (z - c.2.2)^2)) r z
  let phi ← vzip (fun x y => arctan2 (y - c.2.1) (x - c.1)) x y
  let cond := whereIdx (fun p => decide (p < 0)) phi
  let pc ← gather phi cond
  let phi ← scatter phi cond (pc.map fun p => p + 2*Real.pi)
  let theta : List (Option ℝ) := List.replicate phi.length (some 0)
  let cond := whereIdx (fun s => decide (s ≠ 0)) r
  let zc ← gather z cond
  let rc ← gather r cond
  let theta ← scatter theta cond (List.zipWith (fun z r => npArccos ((z - c.2.2)/r)) zc rc)
  return (r, phi, theta)

/-- `sphere2cart` (conversions.py:116-124), scalar. -/
noncomputable def sphere2cart (r phi theta : ℝ) (c : ℝ × ℝ × ℝ) : ℝ × ℝ × ℝ :=
  let x := r * Real.cos phi * Real.sin theta
  let y := r * Real.sin phi * Real.sin theta
  let z := r * Real.cos theta
  (x + c.1, y + c.2.1, z + c.2.2)

/-- Scalar branch of `ortho2cart` (conversions.py:146-151, 156); `none` is NaN, the default
fill value. -/
noncomputable def ortho2cart (x y r : ℝ) (fill : Option ℝ) : Option ℝ :=
  let xy := x^2 + y^2
  if xy < r^2 then npSqrt (r^2 - xy) else fill

/-- Array branch of `ortho2cart` (conversions.py:146, 152-156). -/
noncomputable def ortho2cartArr (x y : List ℝ) (r : ℝ) (fill : Option ℝ) :
    Py (List (Option ℝ)) := do
  let xy ← vzip (fun x y => x^2 + y^2) x y
  let z : List (Option ℝ) := List.replicate x.length fill
  let cond := whereIdx (fun s => decide (s < r^2)) xy
  let xc ← gather xy cond
  scatter z cond (xc.map fun s => npSqrt (r^2 - s))

end Magpie.Coords
