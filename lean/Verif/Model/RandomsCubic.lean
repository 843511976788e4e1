import Verif.Model.RandomsBasic
import Verif.Spec.Spline

/-!
# Model of `/repo/magpie/randoms/pdf.py` with the default `kind='cubic'`

`scipy.interpolate.interp1d` with `kind='cubic'` calls `make_interp_spline` with `k = 3` and no boundary conditions,
which is the cubic spline with "not-a-knot" ends. The spline is a parameter, of which is assumed that it is that spline
(`Spec/Spline.lean`; `C124_unique` proves that there is exactly one).
-/

namespace Magpie.Randoms
open Magpie.OneD Magpie.Polar

/-- What is assumed of SciPy's spline: for four or more points with increasing abscissas it is the cubic spline
through the points with "not-a-knot" ends. -/
def IsCubicSpline (spline : List ℝ → List ℝ → ℝ → ℝ) : Prop :=
  ∀ xs ys : List ℝ, 4 ≤ xs.length → ys.length = xs.length → xs.Pairwise (· < ·) →
    Spec.NotAKnot xs.length (fun i => xs.getD i 0) (fun i => ys.getD i 0) (spline xs ys)

variable (spline : List ℝ → List ℝ → ℝ → ℝ)

open Classical in
/-- `interpolate.interp1d(xp, fp, kind='cubic')` (pdf.py:60) and its call on one number (pdf.py:61). `ValueError` for
lists of different lengths and for fewer than four points; the points are sorted by abscissa, and equal abscissas are a
`ValueError`; so is a number outside the range of the abscissas. NaN is not modelled. -/
noncomputable def interp1dCubic (xp fp : List ℝ) : Py (ℝ → Py ℝ) := do
  if xp.length ≠ fp.length then .error .valueError
  else if xp.length < 4 then .error .valueError
  else
    let z := (xp.zip fp).mergeSort fun a b => decide (a.1 ≤ b.1)
    let xs := z.map Prod.fst
    let ys := z.map Prod.snd
    if xs.Pairwise (· < ·) then do
      let lo ← pyGet xs 0
      let hi ← pyLast xs
      return fun u => if u < lo ∨ hi < u then .error .valueError else .ok (spline xs ys u)
    else .error .valueError

/-- `randoms_cdf` (pdf.py:58-62) with `kind='cubic'`. -/
noncomputable def randomsCdfCubic (x cdf u : List ℝ) : Py (List ℝ) := do
  cdfAssert (cdf.map some)
  let interpCdf ← interp1dCubic spline cdf x
  pyMap interpCdf u

/-- `randoms_pdf` (pdf.py:85-87) with `kind='cubic'`. A CDF with NaN entries fails the check in `randoms_cdf`. -/
noncomputable def randomsPdfCubic (xmid pdf u : List ℝ) : Py (List ℝ) := do
  let (x, cdf, _) ← pdf2cdf xmid pdf
  cdfAssert cdf
  match cdf.mapM id with
  | none => .error .assertionError
  | some c => randomsCdfCubic spline x c u

end Magpie.Randoms
