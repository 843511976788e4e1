import Verif.Model.Radial

/-!
# Model of `cumulative_radial` in `/repo/magpie/polar/radial.py`, and of the errors of `polar2radial` in
`/repo/magpie/polar/polar2radial.py`, for missing values

The same code as in `Verif/Model/Radial.lean`; the profile and the errors are floats that may be NaN (`none`).
-/

namespace Magpie.Radial
open Magpie.OneD

/-- `x + y` for floats that may be NaN. -/
def oplus {K : Type} [Field K] (x y : Option K) : Option K := x.bind fun x => y.map fun y => x + y

/-- `np.cumsum`; after the first NaN all sums are NaN. -/
def cumsumN {K : Type} [Field K] (acc : Option K) : List (Option K) → List (Option K)
  | [] => []
  | x :: l => oplus acc x :: cumsumN (oplus acc x) l

/-- `a*b` for two arrays, as in `vmul` (radial.py:24, 29). -/
noncomputable def vmulN (a : List ℝ) (b : List (Option ℝ)) : Py (List (Option ℝ)) :=
  if a.length = b.length then .ok (List.zipWith (fun a b => b.map fun b => a*b) a b) else .error .valueError

/-- `out = np.zeros(len(redges)); out[1:] = np.cumsum(x)` (radial.py:25-26, 28-30); `x` has one entry less than `redges`. -/
noncomputable def runningSumN (redges : List ℝ) (x : List (Option ℝ)) : List (Option ℝ) :=
  if redges.length = 0 then [] else some 0 :: cumsumN (some 0) x

/-- `cumulative_radial` (radial.py:23-35): the profile and, if given, the errors. -/
noncomputable def cumulativeRadialN (redges : List ℝ) (f : List (Option ℝ)) (sigma : Option (List (Option ℝ))) :
    Py (List (Option ℝ) × Option (List (Option ℝ))) := do
  let area := ringArea redges
  let fArea ← vmulN area f
  let cf := runningSumN redges fArea
  match sigma with
  | none => return (cf, none)
  | some sigma =>
    let as ← vmulN area sigma
    let cv := runningSumN redges (as.map fun o => o.map (·^2))
    return (cf, some (cv.map osqrt))

/-- The radial error of `polar2radial` (polar2radial.py:68-70, 74-76), for errors that may be NaN; otherwise as
`polar2radialSigma`. -/
noncomputable def polar2radialSigmaN (f : Arr2 (Option ℝ)) (area2d : Arr2 ℝ) (pixarea : ℝ)
    (sigma : Arr2 (Option ℝ)) (w : Option (Arr2 ℝ)) : Py (List (Option ℝ)) :=
  match w with
  | none => do
    let t ← area2d.zip (fun a s => (fdiv pixarea a).bind fun q => s.map fun s => q*s^2) sigma
    return t.sum0.map fun s => osqrt (odiv s (some ((f.rows : ℝ)^2)))
  | some w => do
    let ws ← w.zip (fun w s => s.map fun s => w*s) sigma
    let t ← area2d.zip (fun a s => (fdiv pixarea a).bind fun q => s.map fun s => q*s^2) ws
    return List.zipWith (fun s n => osqrt (odiv s (n.map (·^2)))) t.sum0
      (Arr2.sum0 ⟨w.rows, w.cols, fun i j => some (w.val i j)⟩)

end Magpie.Radial
