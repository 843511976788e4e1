import Verif.Np
import Verif.Model.OneD
import Mathlib.Analysis.SpecialFunctions.Trigonometric.Basic

/-!
# Model of `/repo/magpie/polar/polar2radial.py` and `/repo/magpie/polar/radial.py`
-/

namespace Magpie.Radial
open Finset Magpie.OneD

/-- A rectangular array with `rows × cols` entries; other values of `val` have no meaning. -/
structure Arr2 (α : Type) where
  rows : ℕ
  cols : ℕ
  val : ℕ → ℕ → α

/-- Elementwise operation. `ValueError` for different shapes (NumPy would also accept shapes with a
side of length one; not modelled). -/
def Arr2.zip {α β γ : Type} (f : α → β → γ) (a : Arr2 α) (b : Arr2 β) : Py (Arr2 γ) :=
  if a.rows = b.rows ∧ a.cols = b.cols then .ok ⟨a.rows, a.cols, fun i j => f (a.val i j) (b.val i j)⟩
  else .error .valueError

/-- `np.sum(a, axis=0)` of an array of floats. -/
def Arr2.sum0 {K : Type} [Field K] [LinearOrder K] (a : Arr2 (Option K)) : List (Option K) :=
  (List.range a.cols).map fun j => npSum ((List.range a.rows).map fun i => a.val i j)

/-- `get_polar_area2d` (polar2radial.py:15-18); `π x dp/(2π)` is computed as written. -/
noncomputable def getPolarArea2d (redges pedges : List ℝ) : Py (Arr2 ℝ) :=
  match pedges with
  | p0 :: p1 :: ps =>
    let dp := p1 - p0
    let area := List.zipWith (fun a b => Real.pi*(b^2 - a^2)*dp/(2*Real.pi)) redges.dropLast redges.tail
    .ok ⟨(p0 :: p1 :: ps).length - 1, area.length, fun _ j => area.getD j 0⟩
  | _ => .error .indexError

/-- `get_pixarea` (polar2radial.py:36-37). -/
def getPixarea {K : Type} [Field K] (xedges yedges : List K) : Py K :=
  match xedges, yedges with
  | x0 :: x1 :: _, y0 :: y1 :: _ => .ok ((x1 - x0)*(y1 - y0))
  | _, _ => .error .indexError

/-- The radial mean of `polar2radial` (polar2radial.py:65-67, 71-73). The data may contain NaN
(`none`). -/
def polar2radial {K : Type} [Field K] [LinearOrder K] (f : Arr2 (Option K)) (w : Option (Arr2 K)) :
    Py (List (Option K)) :=
  match w with
  | none => .ok (f.sum0.map fun s => odiv s (some (f.rows : K)))
  | some w => do
    let fw ← f.zip omul w
    return List.zipWith odiv fw.sum0 (Arr2.sum0 ⟨w.rows, w.cols, fun i j => some (w.val i j)⟩)

/-- The radial error of `polar2radial` (polar2radial.py:68-70, 74-76). `pixarea/area2d` is NaN or
infinite where the area is zero. -/
noncomputable def polar2radialSigma (f : Arr2 (Option ℝ)) (area2d : Arr2 ℝ) (pixarea : ℝ)
    (sigma : Arr2 ℝ) (w : Option (Arr2 ℝ)) : Py (List (Option ℝ)) :=
  match w with
  | none => do
    let t ← area2d.zip (fun a s => (fdiv pixarea a).map (· * s^2)) sigma
    return t.sum0.map fun s => osqrt (odiv s (some ((f.rows : ℝ)^2)))
  | some w => do
    let ws ← w.zip (· * ·) sigma
    let t ← area2d.zip (fun a s => (fdiv pixarea a).map (· * s^2)) ws
    return List.zipWith (fun s n => osqrt (odiv s (n.map (·^2)))) t.sum0
      (Arr2.sum0 ⟨w.rows, w.cols, fun i j => some (w.val i j)⟩)

/-- `np.cumsum`. -/
def cumsum {K : Type} [Field K] (acc : K) : List K → List K
  | [] => []
  | x :: l => (acc + x) :: cumsum (acc + x) l

/-- `area = np.pi*(redges[1:]**2. - redges[:-1]**2.)` (radial.py:23). -/
noncomputable def ringArea (redges : List ℝ) : List ℝ :=
  List.zipWith (fun a b => Real.pi*(b^2 - a^2)) redges.dropLast redges.tail

/-- `a*b` for two arrays; `ValueError` for different lengths (NumPy would also accept length one; not
modelled). -/
noncomputable def vmul (a b : List ℝ) : Py (List ℝ) :=
  if a.length = b.length then .ok (List.zipWith (· * ·) a b) else .error .valueError

/-- `out = np.zeros(len(redges)); out[1:] = np.cumsum(x)` (radial.py:25-26, 28-30); `x` has one
entry less than `redges`. For an empty `redges` both sides are empty. -/
noncomputable def runningSum (redges x : List ℝ) : List ℝ :=
  if redges.length = 0 then [] else 0 :: cumsum 0 x

/-- `cumulative_radial` (radial.py:23-35): the profile and, if given, the errors. -/
noncomputable def cumulativeRadial (redges f : List ℝ) (sigma : Option (List ℝ)) :
    Py (List ℝ × Option (List (Option ℝ))) := do
  let area := ringArea redges
  let fArea ← vmul area f
  let cf := runningSum redges fArea
  match sigma with
  | none => return (cf, none)
  | some sigma =>
    let as ← vmul area sigma
    let cv := runningSum redges (as.map (·^2))
    return (cf, some (cv.map npSqrt))

end Magpie.Radial
