import Verif.Model.Conversions
import Verif.Model.Float64

/-!
# Model of `/repo/magpie/coords/conversions.py` and `usphere_phi_shift` in binary64

The functions of `Verif/Model/Conversions.lean` and `Verif/Model/Usphere.lean` again, each
arithmetic operation rounded.  `np.arctan2` and `np.arccos` come from the C library, whose results
need not be the nearest floats: they are parameters here.  `x**2.` is one multiplication, as NumPy
computes it for arrays; for Python scalars it is the C library's `pow`, taken to round to nearest
(simplification).  Signed zeros are not modelled.
-/

namespace Magpie.Coords64
open Magpie.Healpix Magpie.Coords

/-- The C library's functions of angles. -/
structure Libm where
  /-- `np.arctan2(y, x)`. -/
  atan2 : ℝ → ℝ → ℝ
  /-- `np.arccos(q)` for `|q| ≤ 1`. -/
  acos : ℝ → ℝ

/-- `np.pi`. -/
noncomputable def pi : ℝ := F64.fl Real.pi

/-- `2.*np.pi`. -/
noncomputable def twoPi : ℝ := F64.mul 2 pi

/-- `x**2.`. -/
noncomputable def sqr (x : ℝ) : ℝ := F64.mul x x

/-- `np.arccos(q)`: NaN (`none`) outside `[-1, 1]`. -/
noncomputable def arccos (M : Libm) (q : ℝ) : Option ℝ :=
  if -1 ≤ q ∧ q ≤ 1 then some (M.acos q) else none

/-- Scalar branch of `cart2polar` (conversions.py:23-27, 31); a NaN is `none`. -/
noncomputable def cart2polar (M : Libm) (x y : ℝ) (c : ℝ × ℝ) : Option ℝ × ℝ :=
  let r := F64.sqrt (F64.add (sqr (F64.sub x c.1)) (sqr (F64.sub y c.2)))
  let phi := M.atan2 (F64.sub y c.2) (F64.sub x c.1)
  let phi := if phi < 0 then F64.add phi twoPi else phi
  (r, phi)

/-- `theta = np.arccos((z-center[2])/r)` where `r != 0.`, which NaN is, and `0.` elsewhere
(conversions.py:84-87, 91-93). -/
noncomputable def colat (M : Libm) (dz : ℝ) (r : Option ℝ) : Option ℝ :=
  match r with
  | none => none
  | some r => if r ≠ 0 then arccos M (F64.div dz r) else some 0

/-- Scalar branch of `cart2sphere` (conversions.py:79-87, 94). -/
noncomputable def cart2sphere (M : Libm) (x y z : ℝ) (c : ℝ × ℝ × ℝ) :
    Option ℝ × ℝ × Option ℝ :=
  let r := F64.sqrt (F64.add (F64.add (sqr (F64.sub x c.1)) (sqr (F64.sub y c.2.1)))
    (sqr (F64.sub z c.2.2)))
  let phi := M.atan2 (F64.sub y c.2.1) (F64.sub x c.1)
  let phi := if phi < 0 then F64.add phi twoPi else phi
  (r, phi, colat M (F64.sub z c.2.2) r)

/-- Array branch of `cart2sphere` (conversions.py:79-80, 88-94). -/
noncomputable def cart2sphereArr (M : Libm) (x y z : List ℝ) (c : ℝ × ℝ × ℝ) :
    Py (List (Option ℝ) × List ℝ × List (Option ℝ)) := do
  let r ← vzip (fun x y => F64.add (sqr (F64.sub x c.1)) (sqr (F64.sub y c.2.1))) x y
  let r ← vzip (fun s z => F64.sqrt (F64.add s (sqr (F64.sub z c.2.2)))) r z
  let phi ← vzip (fun x y => M.atan2 (F64.sub y c.2.1) (F64.sub x c.1)) x y
  let cond := whereIdx (fun p => decide (p < 0)) phi
  let pc ← gather phi cond
  let phi ← scatter phi cond (pc.map fun p => F64.add p twoPi)
  let theta : List (Option ℝ) := List.replicate phi.length (some 0)
  let cond := whereIdx (fun s => decide (s ≠ some 0)) r
  let zc ← gather z cond
  let rc ← gather r cond
  let theta ← scatter theta cond
    (List.zipWith (fun z r => r.bind fun r => arccos M (F64.div (F64.sub z c.2.2) r)) zc rc)
  return (r, phi, theta)

/-- Scalar branch of `ortho2cart` (conversions.py:146-151, 156). -/
noncomputable def ortho2cart (x y r : ℝ) (fill : Option ℝ) : Option ℝ :=
  let xy := F64.add (sqr x) (sqr y)
  if xy < sqr r then F64.sqrt (F64.sub (sqr r) xy) else fill

/-- Array branch of `ortho2cart` (conversions.py:146, 152-156). -/
noncomputable def ortho2cartArr (x y : List ℝ) (r : ℝ) (fill : Option ℝ) :
    Py (List (Option ℝ)) := do
  let xy ← vzip (fun x y => F64.add (sqr x) (sqr y)) x y
  let z : List (Option ℝ) := List.replicate x.length fill
  let cond := whereIdx (fun s => decide (s < sqr r)) xy
  let xc ← gather xy cond
  scatter z cond (xc.map fun s => F64.sqrt (F64.sub (sqr r) s))

/-- Scalar branch of `usphere_phi_shift` (usphere.py:100-105, 112-117). -/
noncomputable def phiShift (phi dphi : ℝ) : Py ℝ := do
  pyAssert (dphi > F64.mul (-2) pi ∧ dphi < twoPi)
  let p := F64.add phi dphi
  return if p > twoPi then F64.sub p twoPi else if p < 0 then F64.add p twoPi else p

/-- Array branch of `usphere_phi_shift` (usphere.py:100-110, 117). -/
noncomputable def phiShiftArr (phi : List ℝ) (dphi : ℝ) : Py (List ℝ) := do
  pyAssert (dphi > F64.mul (-2) pi ∧ dphi < twoPi)
  let phi := phi.map fun p => F64.add p dphi
  let cond := whereIdx (fun p => decide (p > twoPi)) phi
  let pc ← gather phi cond
  let phi ← scatter phi cond (pc.map fun p => F64.sub p twoPi)
  let cond := whereIdx (fun p => decide (p < 0)) phi
  let pc ← gather phi cond
  let phi ← scatter phi cond (pc.map fun p => F64.add p twoPi)
  return phi

end Magpie.Coords64
