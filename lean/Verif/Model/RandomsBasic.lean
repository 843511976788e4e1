import Verif.Model.RandomsUsphere
import Verif.Model.OneD
import Verif.Model.Radial
import Verif.Model.PolarRotate
import Mathlib.Analysis.SpecialFunctions.Pow.Real

/-!
# Model of `/repo/magpie/randoms/{cart,polar,sphere,pdf,subsample}.py`

The uniform variates of `np.random.random_sample(n)` are an argument: a list of `n` numbers.
-/

namespace Magpie.Randoms
open Magpie.OneD Magpie.Polar

/-! ## polar.py, sphere.py -/

/-- `randoms_polar` (polar.py:30-35): `(r, phi)`, a NaN radius is `none`. -/
noncomputable def randomsPolar (uR uPhi : List ℝ) (rMin rMax phiMin phiMax : ℝ) :
    List (Option ℝ) × List ℝ :=
  let r := uR.map fun u => npSqrt ((rMax^2 - rMin^2)*u + rMin^2)
  let phi := uPhi.map fun u => (phiMax - phiMin)*u + phiMin
  (r, phi)

/-- `x**(1./3.)` on a float: NaN (`none`) for a negative base. -/
noncomputable def npCbrt (x : ℝ) : Option ℝ := if 0 ≤ x then some (x ^ ((1:ℝ)/3)) else none

/-- `randoms_sphere_r` (sphere.py:25-28). -/
noncomputable def randomsSphereR (uR : List ℝ) (rMin rMax : ℝ) : List (Option ℝ) :=
  uR.map fun u => npCbrt ((rMax^3 - rMin^3)*u + rMin^3)

/-- `randoms_sphere` (sphere.py:68-70): `(r, phi, theta)`. -/
noncomputable def randomsSphere (uR uPhi uTheta : List ℝ)
    (rMin rMax phiMin phiMax thetaMin thetaMax : ℝ) : List (Option ℝ) × List ℝ × List (Option ℝ) :=
  let r := randomsSphereR uR rMin rMax
  let (phi, theta) := randomsUsphere uPhi uTheta phiMin phiMax thetaMin thetaMax
  (r, phi, theta)

/-! ## cart.py -/

section
variable {K : Type} [Field K] [LinearOrder K]

/-- `randoms_1d` (cart.py:21-22): the result is called `xrands`, the returned name `xrand` is
defined nowhere. -/
def randoms1d (u : List K) (xmin xmax : K) : Py (List K) := do
  let _xrands := u.map fun u => (xmax - xmin)*u + xmin
  .error .nameError

/-- `randoms_2d` (cart.py:42-44); the upper limit of `x` is `mins[0]`. -/
def randoms2d (ux uy mins maxs : List K) : Py (List K × List K) := do
  let x0 ← pyGet mins 0
  let x1 ← pyGet mins 0
  let xrands ← randoms1d ux x0 x1
  let y0 ← pyGet mins 1
  let y1 ← pyGet maxs 1
  let yrands ← randoms1d uy y0 y1
  return (xrands, yrands)

/-- `randoms_3d` (cart.py:64-67). -/
def randoms3d (ux uy uz mins maxs : List K) : Py (List K × List K × List K) := do
  let x0 ← pyGet mins 0
  let x1 ← pyGet mins 0
  let xrands ← randoms1d ux x0 x1
  let y0 ← pyGet mins 1
  let y1 ← pyGet maxs 1
  let yrands ← randoms1d uy y0 y1
  let z0 ← pyGet mins 2
  let z1 ← pyGet maxs 2
  let zrands ← randoms1d uz z0 z1
  return (xrands, yrands, zrands)

/-! ## pdf.py -/

/-- `np.max`; `ValueError` for an empty array. -/
def npMax : List K → Py K
  | [] => .error .valueError
  | x :: l => .ok (l.foldl max x)

/-- `pdf2cdf` (pdf.py:26-35) with `return_normpdf = True`: `(x, cdf, normpdf)`. Without it the last
entry is left out. An assignment of a `pdf` of the wrong length is a `ValueError` (NumPy would
accept a `pdf` of length one for any `xmid`; not modelled). -/
def pdf2cdf (xmid pdf : List K) : Py (List K × List (Option K) × List (Option K)) := do
  let x1 ← pyGet xmid 1
  let x0 ← pyGet xmid 0
  let dx := x1 - x0
  let xl ← pyLast xmid
  let x := linspace (x0 - dx/2) (xl + dx/2) (xmid.length + 1)
  let cs := (Radial.cumsum 0 pdf).map (· * dx)
  let cdf : List K := List.replicate x.length 0
  let cdf ← assignFrom cdf 1 cs
  let m ← npMax cdf
  let normpdf := pdf.map fun p => fdiv p m
  let cdf := cdf.map fun c => fdiv c m
  return (x, cdf, normpdf)

/-- One value of `np.interp(u, xp, fp)` for `xp` not decreasing: with `j` the last position with
`xp[j] <= u`, it is `fp[j]` if `j` is the last position or `xp[j] = u`, otherwise
`(fp[j+1]-fp[j])/(xp[j+1]-xp[j])*(u-xp[j]) + fp[j]`. A `u` outside `[xp[0], xp[-1]]` is a
`ValueError` (raised by `scipy.interpolate.interp1d`). -/
def interpLinear (xp fp : List K) (u : K) : Py K := do
  let lo ← pyGet xp 0
  let hi ← pyLast xp
  if u < lo ∨ hi < u then .error .valueError
  else
    let j := (xp.takeWhile fun x => decide (x ≤ u)).length - 1
    let xj ← pyGet xp j
    let fj ← pyGet fp j
    if j + 1 = xp.length ∨ xj = u then return fj
    else
      let xk ← pyGet xp (j+1)
      let fk ← pyGet fp (j+1)
      return (fk - fj)/(xk - xj)*(u - xj) + fj

/-- The check of `randoms_cdf` (pdf.py:58); NaN entries are `none`. -/
def cdfAssert (cdf : List (Option K)) : Py Unit := do
  let c0 ← pyGet cdf 0
  let c1 ← pyLast cdf
  pyAssert (c0 = some 0 ∧ c1 = some 1)

/-- `randoms_cdf` (pdf.py:58-62) for `kind='linear'`, where `interp1d` is `np.interp`. The
default `kind='cubic'` is in `Model/RandomsCubic.lean`. -/
def randomsCdfLinear (x cdf u : List K) : Py (List K) := do
  cdfAssert (cdf.map some)
  pyMap (interpLinear cdf x) u

/-- `randoms_pdf` (pdf.py:85-87) for `kind='linear'`. A CDF with NaN entries fails the check in
`randoms_cdf`. -/
def randomsPdfLinear (xmid pdf u : List K) : Py (List K) := do
  let (x, cdf, _) ← pdf2cdf xmid pdf
  cdfAssert cdf
  match cdf.mapM id with
  | none => .error .assertionError
  | some c => randomsCdfLinear x c u

end

/-! ## subsample.py -/

/-- What is assumed of `np.argsort`: the result lists every position once, in an order in which the
values do not decrease. Which of several equal values comes first is left open. -/
def IsArgsort {K : Type} [LinearOrder K] (argsort : List K → List ℕ) : Prop :=
  ∀ u, (argsort u).Perm (List.range u.length) ∧
    List.Pairwise (fun i j => ∀ a b, u[i]? = some a → u[j]? = some b → a ≤ b) (argsort u)

section
variable {α K : Type} [Field K] [LinearOrder K] (argsort : List K → List ℕ)

/-- `shuffle` (subsample.py:12-14). -/
def shuffle (u : List K) (sample : List α) : Py (List α) :=
  gather sample (argsort u)

/-- `random_draw` (subsample.py:33-37). -/
def randomDraw (u : List K) (sample : List α) (size : ℤ) : Py (List α) := do
  pyAssert (size < sample.length)
  gather sample (sliceTo (argsort u) size)

/-- `random_prob_draw` (subsample.py:57-69) with an array `prob`; the variates of the second call
are given as a function of the number requested. Comparison and division of arrays of different
lengths is a `ValueError`. -/
def randomProbDraw (u : List K) (u2 : ℕ → List K) (sample : List α) (prob : List K)
    (size : Option ℤ) : Py (List α) := do
  match size with
  | none =>
    if u.length ≠ prob.length then .error .valueError
    else
      let cond := whereIdx (fun x => decide (x.1 ≤ x.2)) (u.zip prob)
      let randsamp ← gather sample cond
      shuffle argsort (u2 randsamp.length) randsamp
  | some size =>
    pyAssert (size < sample.length)
    pyAssert ((prob.any fun p => decide (p ≤ 0)) = false)
    if u.length ≠ prob.length then .error .valueError
    else
      let uw := List.zipWith (· / ·) u prob
      let randsamp ← gather sample (sliceTo (argsort uw) size)
      shuffle argsort (u2 randsamp.length) randsamp

variable [FloorRing K]

/-- `stochastic_integer_weights` of a scalar (subsample.py:87-91, 97). -/
def stochInt (u w : K) : K :=
  if u < (⌈w⌉ : K) - w then (⌊w⌋ : K) else (⌈w⌉ : K)

/-- `stochastic_integer_weights` of an array (subsample.py:92-97). -/
def stochIntArr (u w : List K) : Py (List K) := do
  let si := w.map fun w => (⌈w⌉ : K)
  let cond := whereIdx (fun x => decide (x.1 < x.2.1 - x.2.2)) (u.zip (si.zip w))
  let wc ← gather w cond
  scatter si cond (wc.map fun w => (⌊w⌋ : K))

/-- `stochastic_binary_weights` of a scalar (subsample.py:115-119, 123). -/
def stochBin (u w : K) : K :=
  let si := stochInt u w
  if si > 1 then 1 else si

/-- `stochastic_binary_weights` of an array (subsample.py:115-116, 120-123). -/
def stochBinArr (u w : List K) : Py (List K) := do
  let si ← stochIntArr u w
  let cond := whereIdx (fun x => decide (x > 1)) si
  scatter si cond (cond.map fun _ => 1)

end

end Magpie.Randoms
