import Verif.Model.HealpixIndex
import Mathlib.Analysis.SpecialFunctions.Trigonometric.Inverse

/-!
# Model of `/repo/magpie/coords/healpix.py`
-/

namespace Magpie.Healpix

/-- `np.arccos`: NaN (`none`) outside `[-1, 1]`. -/
noncomputable def npArccos (z : ℝ) : Option ℝ :=
  if -1 ≤ z ∧ z ≤ 1 then some (Real.arccos z) else none

/-- `np.sign`. -/
noncomputable def npSign (x : ℝ) : ℝ := if x < 0 then -1 else if x = 0 then 0 else 1

/-- Scalar branch of `healpix_xy2ang` (coords/healpix.py:21-35, 56): returns
`(phi, theta)`. -/
noncomputable def xy2ang (healx healy : ℝ) : ℝ × Option ℝ :=
  if |healy| ≤ Real.pi/4 then
    let z := 8*healy/(3*Real.pi)
    let theta := npArccos z
    let phi := healx
    (phi, theta)
  else
    let sigz := 4*healy/Real.pi
    let z := npSign sigz*(1-(1/3)*(2-|sigz|)^2)
    let theta := npArccos z
    let siga := |sigz|-1
    let k : ℝ := ⌊2*healx/Real.pi⌋
    let phi := if siga = 1 then 0 else (healx - (Real.pi/4)*siga*(2*k+1)) / (1-siga)
    (phi, theta)

/-- Array branch of `healpix_xy2ang` (coords/healpix.py:36-56). `none` in
`phi` would be a division by zero. -/
noncomputable def xy2angArr (healx healy : List ℝ) : Py (List (Option ℝ) × List (Option ℝ)) := do
  let phi : List (Option ℝ) := List.replicate healx.length (some 0)
  let theta : List (Option ℝ) := List.replicate healx.length (some 0)
  -- lines 38-41
  let cond := whereIdx (fun y => decide (|y| ≤ Real.pi/4)) healy
  let yc ← gather healy cond
  let xc ← gather healx cond
  let z := yc.map fun y => 8*y/(3*Real.pi)
  let theta ← scatter theta cond (z.map npArccos)
  let phi ← scatter phi cond (xc.map some)
  -- lines 42-47
  let cond := whereIdx (fun y => decide (|y| > Real.pi/4)) healy
  let yc ← gather healy cond
  let xc ← gather healx cond
  let sigz := yc.map fun y => 4*y/Real.pi
  let z := sigz.map fun s => npSign s*(1-(1/3)*(2-|s|)^2)
  let theta ← scatter theta cond (z.map npArccos)
  let siga := sigz.map fun s => |s|-1
  let k : List ℝ := xc.map fun x => (⌊2*x/Real.pi⌋ : ℝ)
  -- lines 48-55
  if siga.any (fun a => decide (a = 1)) = false then
    let phi ← scatter phi cond
      (List.zipWith (fun (xk : ℝ × ℝ) a => fdiv (xk.1 - (Real.pi/4)*a*(2*xk.2+1)) (1-a))
        (List.zip xc k) siga)
    return (phi, theta)
  else
    let c1 := whereIdx (fun a => decide (a = 1)) siga
    let cc1 ← gather cond c1
    let phi ← scatter phi cc1 (List.replicate cc1.length (some 0))
    let c2 := whereIdx (fun a => decide (a ≠ 1)) siga
    let cc2 ← gather cond c2
    let x2 ← gather healx cc2
    let a2 ← gather siga c2
    let k2 ← gather k c2
    let phi ← scatter phi cc2
      (List.zipWith (fun (xk : ℝ × ℝ) a => fdiv (xk.1 - (Real.pi/4)*a*(2*xk.2+1)) (1-a))
        (List.zip x2 k2) a2)
    return (phi, theta)

/-- Scalar branch of `healpix_ang2xy` (coords/healpix.py:76-86, 100): returns
`(healx, healy)`.  The `elif abs(z) > 2/3` is the negation of the `if`. -/
noncomputable def ang2xy (phi theta : ℝ) : ℝ × ℝ :=
  let z := Real.cos theta
  if |z| ≤ 2/3 then
    (phi, (3*Real.pi/8)*Real.cos theta)
  else
    let sigz := npSign z*(2 - Real.sqrt (3*(1-|z|)))
    let phit := fmod phi (Real.pi/2)
    let siga := |sigz| - 1
    (phi - siga*(phit - Real.pi/4), Real.pi * sigz / 4)

/-- Array branch of `healpix_ang2xy` (coords/healpix.py:87-100). -/
noncomputable def ang2xyArr (phi theta : List ℝ) : Py (List ℝ × List ℝ) := do
  let z := theta.map Real.cos
  let healx : List ℝ := List.replicate phi.length 0
  let healy : List ℝ := List.replicate theta.length 0
  let cond := whereIdx (fun z => decide (|z| ≤ 2/3)) z
  let pc ← gather phi cond
  let healx ← scatter healx cond pc
  let tc ← gather theta cond
  let healy ← scatter healy cond (tc.map fun t => (3*Real.pi/8)*Real.cos t)
  let cond := whereIdx (fun z => decide (|z| > 2/3)) z
  let zc ← gather z cond
  let pc ← gather phi cond
  let sigz := zc.map fun z => npSign z*(2 - Real.sqrt (3*(1-|z|)))
  let phit := pc.map fun p => fmod p (Real.pi/2)
  let siga := sigz.map fun s => |s| - 1
  let healx ← scatter healx cond
    (List.zipWith (fun (pp : ℝ × ℝ) a => pp.1 - a*(pp.2 - Real.pi/4)) (List.zip pc phit) siga)
  let healy ← scatter healy cond (sigz.map fun s => Real.pi * s / 4)
  return (healx, healy)

end Magpie.Healpix
