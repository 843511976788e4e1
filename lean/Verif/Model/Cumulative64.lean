import Verif.Model.RandomsCubic
import Verif.Model.Grids64
import Verif.Model.Conversions64
import Verif.Model.Remap64

/-!
# Model of `/repo/magpie/randoms/pdf.py` and `/repo/magpie/polar/radial.py` in binary64

The functions of `Verif/Model/RandomsBasic.lean`, `Verif/Model/RandomsCubic.lean` and `Verif/Model/Radial.lean` again,
each arithmetic operation rounded. Simplification: no overflow and no signed zeros.
-/

namespace Magpie.Cumul64
open Magpie Magpie.OneD Magpie.Polar Magpie.Grids64

/-- The sums of `np.cumsum` after the first, which is `acc`. -/
noncomputable def running (acc : ℝ) : List ℝ → List ℝ
  | [] => []
  | x :: l => F64.add acc x :: running (F64.add acc x) l

/-- `np.cumsum`: one addition after the other. -/
noncomputable def cumsum64 : List ℝ → List ℝ
  | [] => []
  | x :: l => x :: running x l

/-- `a/b` on floats; NaN or infinite (`none`) for `b = 0`. -/
noncomputable def fdiv64 (a b : ℝ) : Option ℝ := if b = 0 then none else some (F64.div a b)

/-- `pdf2cdf` (pdf.py:26-35), as `Randoms.pdf2cdf`. -/
noncomputable def pdf2cdf64 (xmid pdf : List ℝ) : Py (List ℝ × List (Option ℝ) × List (Option ℝ)) := do
  let x1 ← pyGet xmid 1
  let x0 ← pyGet xmid 0
  let dx := F64.sub x1 x0
  let xl ← pyLast xmid
  let x := linspace64 (F64.sub x0 (F64.mul (1/2) dx)) (F64.add xl (F64.mul (1/2) dx)) (xmid.length + 1)
  let cs := (cumsum64 pdf).map fun s => F64.mul s dx
  let cdf : List ℝ := List.replicate x.length 0
  let cdf ← assignFrom cdf 1 cs
  let m ← Randoms.npMax cdf
  let normpdf := pdf.map fun p => fdiv64 p m
  let cdf := cdf.map fun c => fdiv64 c m
  return (x, cdf, normpdf)

/-- One value of `np.interp` (pdf.py:60-61 with `kind='linear'`), as `Randoms.interpLinear`. `fused` if the compiler
of NumPy joins the last multiplication and addition into one operation. -/
noncomputable def interpLinear64 (fused : Bool) (xp fp : List ℝ) (u : ℝ) : Py ℝ := do
  let lo ← pyGet xp 0
  let hi ← pyLast xp
  if u < lo ∨ hi < u then .error .valueError
  else
    let j := (xp.takeWhile fun x => decide (x ≤ u)).length - 1
    let xj ← pyGet xp j
    let fj ← pyGet fp j
    if j + 1 = xp.length ∨ xj = u then return fj
    else
      let xk ← pyGet xp (j+1)
      let fk ← pyGet fp (j+1)
      return Remap64.madd fused fj (F64.div (F64.sub fk fj) (F64.sub xk xj)) (F64.sub u xj)

/-- `randoms_cdf` (pdf.py:58-62) with `kind='linear'`. -/
noncomputable def randomsCdfLinear64 (fused : Bool) (x cdf u : List ℝ) : Py (List ℝ) := do
  Randoms.cdfAssert (cdf.map some)
  pyMap (interpLinear64 fused cdf x) u

/-- `randoms_pdf` (pdf.py:85-87) with the default `kind='cubic'`: the table is computed in binary64. Simplification: the
spline itself (SciPy) is exact. -/
noncomputable def randomsPdfCubic64 (spline : List ℝ → List ℝ → ℝ → ℝ) (xmid pdf u : List ℝ) : Py (List ℝ) := do
  let (x, cdf, _) ← pdf2cdf64 xmid pdf
  Randoms.cdfAssert cdf
  match cdf.mapM id with
  | none => .error .assertionError
  | some c => Randoms.randomsCdfCubic spline x c u

/-! ## radial.py -/

/-- `area = np.pi*(redges[1:]**2. - redges[:-1]**2.)` (radial.py:23); `x**2.` is `x*x` in NumPy. -/
noncomputable def ringArea64 (redges : List ℝ) : List ℝ :=
  List.zipWith (fun a b => F64.mul Coords64.pi (F64.sub (F64.mul b b) (F64.mul a a))) redges.dropLast redges.tail

/-- `a*b` for two arrays, as `Radial.vmul`. -/
noncomputable def vmul64 (a b : List ℝ) : Py (List ℝ) :=
  if a.length = b.length then .ok (List.zipWith F64.mul a b) else .error .valueError

/-- `out = np.zeros(len(redges)); out[1:] = np.cumsum(x)` (radial.py:25-26, 28-30), as `Radial.runningSum`. -/
noncomputable def runningSum64 (redges x : List ℝ) : List ℝ :=
  if redges.length = 0 then [] else 0 :: cumsum64 x

/-- `cumulative_radial` (radial.py:23-35). -/
noncomputable def cumulativeRadial64 (redges f : List ℝ) (sigma : Option (List ℝ)) :
    Py (List ℝ × Option (List (Option ℝ))) := do
  let area := ringArea64 redges
  let fArea ← vmul64 area f
  let cf := runningSum64 redges fArea
  match sigma with
  | none => return (cf, none)
  | some sigma =>
    let as ← vmul64 area sigma
    let cv := runningSum64 redges (as.map fun t => F64.mul t t)
    return (cf, some (cv.map F64.sqrt))

end Magpie.Cumul64
