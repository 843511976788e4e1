import Verif.Model.Conversions
import Mathlib.LinearAlgebra.CrossProduct
import Mathlib.LinearAlgebra.Matrix.NonsingularInverse

/-!
# Model of `/repo/magpie/coords/usphere.py` and `usphere_util.py`
-/

namespace Magpie.Coords
open Magpie.Healpix Matrix

/-- `usphere_area` (usphere_util.py:24-37). -/
noncomputable def usphereArea (phiMin phiMax thetaMin thetaMax : ℝ) : Py ℝ := do
  pyAssert (phiMin ≥ 0 ∧ phiMin < 2*Real.pi)
  pyAssert (phiMax > 0 ∧ phiMax ≤ 2*Real.pi)
  pyAssert (phiMin ≠ phiMax)
  pyAssert (thetaMin ≥ 0 ∧ thetaMin < Real.pi)
  pyAssert (thetaMax > 0 ∧ thetaMax ≤ Real.pi)
  pyAssert (thetaMin ≠ thetaMax)
  return (phiMax - phiMin)*(Real.cos thetaMin - Real.cos thetaMax)

/-- `sphere2lonlat` (usphere_util.py:54-55). -/
noncomputable def sphere2lonlat (theta : ℝ) : ℝ := Real.pi/2 - theta

/-- `lonlat2sphere` (usphere_util.py:71-72). -/
noncomputable def lonlat2sphere (theta : ℝ) : ℝ := Real.pi/2 - theta

/-- `np.array([x, y, z])`. -/
def vec3 (p : ℝ × ℝ × ℝ) : Fin 3 → ℝ := ![p.1, p.2.1, p.2.2]

/-- The assertions of `usphere_rotate` (usphere.py:32-41). -/
noncomputable def rotateChecks (phiEnd thetaEnd phiStart thetaStart : ℝ) : Py Unit := do
  pyAssert (phiStart ≠ phiEnd ∨ thetaStart ≠ thetaEnd)
  pyAssert (phiStart ≥ 0 ∧ phiStart ≤ 2*Real.pi)
  pyAssert (phiEnd ≥ 0 ∧ phiEnd ≤ 2*Real.pi)
  pyAssert (thetaStart ≥ 0 ∧ thetaStart ≤ Real.pi)
  pyAssert (thetaEnd ≥ 0 ∧ thetaEnd ≤ Real.pi)

/-- The matrices of `usphere_rotate` (usphere.py:43-63): `(T, Rn)`; `none` when the
normalisation of `n` is a division by zero (the matrices and everything computed from them are
then NaN). -/
noncomputable def rotateMats (phiEnd thetaEnd phiStart thetaStart : ℝ) :
    Option (Matrix (Fin 3) (Fin 3) ℝ × Matrix (Fin 3) (Fin 3) ℝ) :=
  let u := vec3 (sphere2cart 1 phiStart thetaStart (0, 0, 0))
  let v := vec3 (sphere2cart 1 phiEnd thetaEnd (0, 0, 0))
  let n := u ⨯₃ v
  let norm := Real.sqrt ((n 0)^2 + (n 1)^2 + (n 2)^2)
  if norm = 0 then none
  else
    let n := fun i => n i / norm
    let t := n ⨯₃ u
    let alpha := arctan2 (v ⬝ᵥ t) (v ⬝ᵥ u)
    let Rn := !![Real.cos alpha, -Real.sin alpha, 0; Real.sin alpha, Real.cos alpha, 0; 0, 0, 1]
    let T := !![u 0, t 0, n 0; u 1, t 1, n 1; u 2, t 2, n 2]
    some (T, Rn)

/-- `T.dot(Rn.dot(invT.dot(pos)))` (usphere.py:63, 74).  `np.linalg.inv` is the matrix
inverse; it raises for a singular matrix, which does not happen here (`T` is orthogonal,
see `Verif/Proof/Usphere.lean`). -/
noncomputable def applyRot (m : Matrix (Fin 3) (Fin 3) ℝ × Matrix (Fin 3) (Fin 3) ℝ)
    (pos : Fin 3 → ℝ) : Fin 3 → ℝ :=
  m.1.mulVec (m.2.mulVec ((m.1)⁻¹.mulVec pos))

/-- Scalar branch of `usphere_rotate` (usphere.py:31-81): `(phi_new, theta_new)`, `none` is
NaN. -/
noncomputable def rotate (phi theta phiEnd thetaEnd phiStart thetaStart : ℝ) :
    Py (Option (ℝ × ℝ)) := do
  rotateChecks phiEnd thetaEnd phiStart thetaStart
  match rotateMats phiEnd thetaEnd phiStart thetaStart with
  | none => return none
  | some m =>
    let newPos := applyRot m (vec3 (sphere2cart 1 phi theta (0, 0, 0)))
    match cart2sphere (newPos 0) (newPos 1) (newPos 2) (0, 0, 0) with
    | (_, _, none) => return none
    | (_, phiNew, some thetaNew) => return some (phiNew, thetaNew)

/-- Array branch of `usphere_rotate` (usphere.py:31-81): lists of `phi_new` and `theta_new`. For an
empty array line 78 builds a one-dimensional array, and `new_pos[:, 0]` is an `IndexError`. -/
noncomputable def rotateArr (phi theta : List ℝ) (phiEnd thetaEnd phiStart thetaStart : ℝ) :
    Py (List (Option ℝ) × List (Option ℝ)) := do
  rotateChecks phiEnd thetaEnd phiStart thetaStart
  let pos ← vzip (fun p t => vec3 (sphere2cart 1 p t (0, 0, 0))) phi theta
  if pos.isEmpty then .error .indexError
  match rotateMats phiEnd thetaEnd phiStart thetaStart with
  | none => return (List.replicate pos.length none, List.replicate pos.length none)
  | some m =>
    let newPos := pos.map (applyRot m)
    let (_, phiNew, thetaNew) ← cart2sphereArr (newPos.map fun q => q 0) (newPos.map fun q => q 1)
      (newPos.map fun q => q 2) (0, 0, 0)
    return (phiNew.map some, thetaNew)

/-- Scalar branch of `usphere_phi_shift` (usphere.py:100-105, 112-117). -/
noncomputable def phiShift (phi dphi : ℝ) : Py ℝ := do
  pyAssert (dphi > -2*Real.pi ∧ dphi < 2*Real.pi)
  let p := phi + dphi
  return if p > 2*Real.pi then p - 2*Real.pi else if p < 0 then p + 2*Real.pi else p

/-- Array branch of `usphere_phi_shift` (usphere.py:100-110, 117).  `phi_new` *is* the caller's
array (line 104), so the list returned is at the same time the final content of the caller's
array. -/
noncomputable def phiShiftArr (phi : List ℝ) (dphi : ℝ) : Py (List ℝ) := do
  pyAssert (dphi > -2*Real.pi ∧ dphi < 2*Real.pi)
  let phi := phi.map fun p => p + dphi
  let cond := whereIdx (fun p => decide (p > 2*Real.pi)) phi
  let pc ← gather phi cond
  let phi ← scatter phi cond (pc.map fun p => p - 2*Real.pi)
  let cond := whereIdx (fun p => decide (p < 0)) phi
  let pc ← gather phi cond
  let phi ← scatter phi cond (pc.map fun p => p + 2*Real.pi)
  return phi

/-- The assertions of `usphere_shift` (usphere.py:148-155). -/
noncomputable def shiftChecks (phiStart thetaStart phiEnd thetaEnd : ℝ) : Py Unit := do
  pyAssert (phiStart ≥ 0 ∧ phiStart ≤ 2*Real.pi)
  pyAssert (phiEnd ≥ 0 ∧ phiEnd ≤ 2*Real.pi)
  pyAssert (thetaStart ≥ 0 ∧ thetaStart ≤ Real.pi)
  pyAssert (thetaEnd ≥ 0 ∧ thetaEnd ≤ Real.pi)

/-- `usphere_shift` on scalars (usphere.py:148-166). -/
noncomputable def shift (phi theta phiStart thetaStart phiEnd thetaEnd : ℝ) :
    Py (Option (ℝ × ℝ)) := do
  shiftChecks phiStart thetaStart phiEnd thetaEnd
  let newPhi ← phiShift phi (phiEnd - phiStart)
  if thetaStart ≠ thetaEnd then
    rotate newPhi theta phiEnd thetaEnd phiEnd thetaStart
  else
    return some (newPhi, theta)

/-- `usphere_spin` on scalars (usphere.py:193-207); NaN is propagated by every step. -/
noncomputable def spin (phi theta phiCenter thetaCenter alpha : ℝ) : Py (Option (ℝ × ℝ)) := do
  pyAssert (phiCenter ≥ 0 ∧ phiCenter ≤ 2*Real.pi)
  pyAssert (thetaCenter ≥ 0 ∧ thetaCenter ≤ Real.pi)
  pyAssert (alpha ≥ 0 ∧ alpha ≤ 2*Real.pi)
  match ← shift phi theta phiCenter thetaCenter phiCenter 0 with
  | none =>
    -- NaN in, NaN out: only the checks of the remaining calls can still raise
    pyAssert (alpha > -2*Real.pi ∧ alpha < 2*Real.pi)
    return none
  | some (newPhi, newTheta) =>
    let newPhi ← phiShift newPhi alpha
    shift newPhi newTheta phiCenter 0 phiCenter thetaCenter

/-- Result of an array call: returned arrays, and the final content of the `phi` array the caller
passed in (the `theta` array is only read). -/
structure SkyArr where
  phi : List (Option ℝ)
  theta : List (Option ℝ)
  callerPhi : List ℝ

/-- `usphere_shift` on arrays (usphere.py:148-166). `new_phi = phi` (line 159) is not a copy, and
`usphere_phi_shift` works in place, so the caller's array holds the shifted longitudes
afterwards; `usphere_rotate` returns fresh arrays. -/
noncomputable def shiftArr (phi theta : List ℝ) (phiStart thetaStart phiEnd thetaEnd : ℝ) :
    Py SkyArr := do
  shiftChecks phiStart thetaStart phiEnd thetaEnd
  let newPhi ← phiShiftArr phi (phiEnd - phiStart)
  if thetaStart ≠ thetaEnd then
    let (p, t) ← rotateArr newPhi theta phiEnd thetaEnd phiEnd thetaStart
    return ⟨p, t, newPhi⟩
  else
    return ⟨newPhi.map some, theta.map some, newPhi⟩

/-- `usphere_spin` on arrays (usphere.py:193-207).  When `theta_center = 0` the first
`usphere_shift` returns the caller's own array, which the later steps keep changing in place;
otherwise it returns a fresh array. A NaN stays NaN through the later steps. -/
noncomputable def spinArr (phi theta : List ℝ) (phiCenter thetaCenter alpha : ℝ) : Py SkyArr := do
  pyAssert (phiCenter ≥ 0 ∧ phiCenter ≤ 2*Real.pi)
  pyAssert (thetaCenter ≥ 0 ∧ thetaCenter ≤ Real.pi)
  pyAssert (alpha ≥ 0 ∧ alpha ≤ 2*Real.pi)
  let s1 ← shiftArr phi theta phiCenter thetaCenter phiCenter 0
  match s1.phi.mapM id, s1.theta.mapM id with
  | some p, some t =>
    let p2 ← phiShiftArr p alpha
    let s2 ← shiftArr p2 t phiCenter 0 phiCenter thetaCenter
    return ⟨s2.phi, s2.theta, if thetaCenter ≠ 0 then s1.callerPhi else s2.callerPhi⟩
  | _, _ =>
    pyAssert (alpha > -2*Real.pi ∧ alpha < 2*Real.pi)
    return ⟨List.replicate phi.length none, List.replicate phi.length none, s1.callerPhi⟩

end Magpie.Coords
