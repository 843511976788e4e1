import Verif.Model.Usphere
import Verif.Model.Meth

/-!
# Model of `/repo/magpie/densegrid/pointofview.py`

The methods take arrays (as documented); `transform1` and `reverse1` are the same methods called with
numbers. A NaN sky position cannot occur in them (see `Verif/Proof/PointOfView.lean`); where the code would
go on with one, the model returns NaN.
-/

namespace Magpie.Pov
open Magpie.Coords Magpie.Healpix

/-- Attributes (pointofview.py:10-17). `theta_point_towards` may be NaN (inner `none`). -/
structure State where
  camera : Option (ℝ × ℝ × ℝ)
  point : Option (ℝ × ℝ × ℝ)
  display : Option ℝ
  phiPt : Option ℝ
  thetaPt : Option (Option ℝ)
  spin : Option ℝ

/-- `__init__` (pointofview.py:10-17). -/
def init : State := ⟨none, none, none, none, none, none⟩

/-- `setup` (pointofview.py:34-40). -/
noncomputable def setup (camera point : ℝ × ℝ × ℝ) (display spin : ℝ) : Meth State Unit :=
  Meth.assign fun _ =>
    let s := cart2sphere point.1 point.2.1 point.2.2 camera
    ⟨some camera, some point, some display, some s.2.1, some s.2.2, some spin⟩

/-- Elementwise operation on three arrays. -/
def vzip3 {α β γ δ : Type} (f : α → β → γ → δ) (a : List α) (b : List β) (c : List γ) : Py (List δ) := do
  let ab ← vzip Prod.mk a b
  vzip (fun p z => f p.1 p.2 z) ab c

/-- Arrays without NaN. -/
def finite (a : List (Option ℝ)) : Option (List ℝ) := a.mapM id

/-- `if theta_point_towards != pi/2: phi, theta = usphere_rotate(phi, theta, phi_point_towards, ..)`
(pointofview.py:65-66, 108-109), from colatitude `a` to `b`, one of which is
`theta_point_towards`. -/
noncomputable def tilt (phi : List ℝ) (theta : List (Option ℝ)) (phiPt : ℝ) (thetaPt : Option ℝ)
    (a b : Option ℝ) : Py (List (Option ℝ) × List (Option ℝ)) :=
  if thetaPt ≠ some (Real.pi/2) then
    match a, b, finite theta with
    | some a, some b, some theta => rotateArr phi theta phiPt b phiPt a
    | some _, some _, none => .ok (phi.map fun _ => none, phi.map fun _ => none)
    | _, _, _ => .error .assertionError
  else .ok (phi.map some, theta)

/-- `if spin != 0: phi, theta = usphere_spin(phi, theta, 0, pi/2, spin)` (pointofview.py:68-69,
105-106). -/
noncomputable def turn (phi : List ℝ) (theta : List ℝ) (spin : ℝ) : Py (List (Option ℝ) × List (Option ℝ)) :=
  if spin ≠ 0 then do
    let s ← spinArr phi theta 0 (Real.pi/2) spin
    return (s.phi, s.theta)
  else .ok (phi.map some, theta.map some)

/-- `sphere2cart` of arrays (conversions.py:116-124), with a centre. -/
noncomputable def sphere2cartArr (r phi theta : List ℝ) (c : ℝ × ℝ × ℝ) :
    Py (List (ℝ × ℝ × ℝ)) :=
  vzip3 (fun r p t => sphere2cart r p t c) r phi theta

/-- One row of the result of `transform`; `none` is NaN or infinite. -/
abbrev Row := Option (ℝ × ℝ) × ℝ

/-- `f = display/dx; bx = dy*f; by = dz*f; dist = sqrt(dx**2 + dy**2 + dz**2)`
(pointofview.py:71-75); the `condition` of line 72 is not used. -/
noncomputable def perspective (display : ℝ) (d : ℝ × ℝ × ℝ) : Row :=
  ((fdiv display d.1).map fun f => (d.2.1*f, d.2.2*f), Real.sqrt (d.1^2 + d.2.1^2 + d.2.2^2))

/-- `transform` (pointofview.py:64-76): the rows `((bx, by), dist)`. Before `setup` the attribute
`camera` is `None`, and `center[0]` is a `TypeError`. -/
noncomputable def transform (x y z : List ℝ) : Meth State (List Row) := do
  let s ← Meth.self
  let camera ← Meth.lift (need s.camera)
  let display ← Meth.lift (need s.display)
  let phiPt ← Meth.lift (need s.phiPt)
  let thetaPt ← Meth.lift (need s.thetaPt)
  let spin ← Meth.lift (need s.spin)
  let (r, phi, theta) ← Meth.lift (cart2sphereArr x y z camera)
  let (phi, theta) ← Meth.lift (tilt phi theta phiPt thetaPt thetaPt (some (Real.pi/2)))
  match finite phi, finite theta with
  | some phi, some theta =>
    let phi ← Meth.lift (phiShiftArr phi (-phiPt))
    let (phi, theta) ← Meth.lift (turn phi theta spin)
    match finite phi, finite theta with
    | some phi, some theta =>
      let d ← Meth.lift (sphere2cartArr r phi theta (0, 0, 0))
      return d.map (perspective display)
    | _, _ => return r.map fun r => (none, r)
  | _, _ => return r.map fun r => (none, r)

/-- `dx = dist / sqrt(1 + (1/display**2)*(bx**2 + by**2)); f = display/dx; dy = bx/f; dz = by/f`
(pointofview.py:100-103). For `dist = 0` the quotient `f` is infinite and `dy = dz = 0`. -/
noncomputable def unproject (display bx by' dist : ℝ) : ℝ × ℝ × ℝ :=
  let dx := dist / Real.sqrt (1 + (1/display^2)*(bx^2 + by'^2))
  if dx = 0 then (dx, 0, 0)
  else
    let f := display/dx
    (dx, bx/f, by'/f)

/-- `reverse` (pointofview.py:100-111): the rows `(x, y, z)`. `1./(display**2.)` of Python floats
raises `ZeroDivisionError` for `display = 0`. -/
noncomputable def reverse (bx by' dist : List ℝ) : Meth State (List (Option (ℝ × ℝ × ℝ))) := do
  let s ← Meth.self
  let display ← Meth.lift (need s.display)
  let camera ← Meth.lift (need s.camera)
  let phiPt ← Meth.lift (need s.phiPt)
  let thetaPt ← Meth.lift (need s.thetaPt)
  let spin ← Meth.lift (need s.spin)
  let _ ← Meth.lift (if display = 0 then .error .zeroDivisionError else .ok ())
  let d ← Meth.lift (vzip3 (unproject display) bx by' dist)
  let (r, phi, theta) ← Meth.lift (cart2sphereArr (d.map fun q => q.1) (d.map fun q => q.2.1)
    (d.map fun q => q.2.2) (0, 0, 0))
  match finite theta with
  | some theta =>
    let (phi, theta) ← Meth.lift (turn phi theta (-spin))
    match finite phi with
    | some phi =>
      let phi ← Meth.lift (phiShiftArr phi phiPt)
      let (phi, theta) ← Meth.lift (tilt phi theta phiPt thetaPt (some (Real.pi/2)) thetaPt)
      match finite phi, finite theta with
      | some phi, some theta =>
        let p ← Meth.lift (sphere2cartArr r phi theta camera)
        return p.map some
      | _, _ => return r.map fun _ => none
    | none => return r.map fun _ => none
  | none => return r.map fun _ => none

/-- `tilt` for a number (pointofview.py:65-66, 108-109). -/
noncomputable def tilt1 (phi : ℝ) (theta : Option ℝ) (phiPt : ℝ) (thetaPt : Option ℝ) (a b : Option ℝ) :
    Py (Option (ℝ × ℝ)) :=
  if thetaPt ≠ some (Real.pi/2) then
    match a, b, theta with
    | some a, some b, some theta => rotate phi theta phiPt b phiPt a
    | some _, some _, none => .ok none
    | _, _, _ => .error .assertionError
  else .ok (theta.map fun theta => (phi, theta))

/-- `turn` for a number (pointofview.py:68-69, 105-106). -/
noncomputable def turn1 (phi theta spin : ℝ) : Py (Option (ℝ × ℝ)) :=
  if spin ≠ 0 then Coords.spin phi theta 0 (Real.pi/2) spin else .ok (some (phi, theta))

/-- `transform` called with numbers (pointofview.py:64-76): the scalar branches of the functions of
`coords`. `np.where` of a number (line 72) is allowed up to NumPy 2.0, with a warning. -/
noncomputable def transform1 (x y z : ℝ) : Meth State Row := do
  let s ← Meth.self
  let camera ← Meth.lift (need s.camera)
  let display ← Meth.lift (need s.display)
  let phiPt ← Meth.lift (need s.phiPt)
  let thetaPt ← Meth.lift (need s.thetaPt)
  let spin ← Meth.lift (need s.spin)
  let (r, phi, theta) := cart2sphere x y z camera
  let q ← Meth.lift (tilt1 phi theta phiPt thetaPt thetaPt (some (Real.pi/2)))
  match q with
  | none => return (none, r)
  | some (phi, theta) =>
    let phi ← Meth.lift (phiShift phi (-phiPt))
    let q ← Meth.lift (turn1 phi theta spin)
    match q with
    | none => return (none, r)
    | some (phi, theta) => return perspective display (sphere2cart r phi theta (0, 0, 0))

/-- `reverse` called with numbers (pointofview.py:100-111). -/
noncomputable def reverse1 (bx by' dist : ℝ) : Meth State (Option (ℝ × ℝ × ℝ)) := do
  let s ← Meth.self
  let display ← Meth.lift (need s.display)
  let camera ← Meth.lift (need s.camera)
  let phiPt ← Meth.lift (need s.phiPt)
  let thetaPt ← Meth.lift (need s.thetaPt)
  let spin ← Meth.lift (need s.spin)
  let _ ← Meth.lift (if display = 0 then .error .zeroDivisionError else .ok ())
  let d := unproject display bx by' dist
  let (r, phi, theta) := cart2sphere d.1 d.2.1 d.2.2 (0, 0, 0)
  match theta with
  | none => return none
  | some theta =>
    let q ← Meth.lift (turn1 phi theta (-spin))
    match q with
    | none => return none
    | some (phi, theta) =>
      let phi ← Meth.lift (phiShift phi phiPt)
      let q ← Meth.lift (tilt1 phi (some theta) phiPt thetaPt (some (Real.pi/2)) thetaPt)
      match q with
      | none => return none
      | some (phi, theta) => return some (sphere2cart r phi theta camera)

/-- `clean` (pointofview.py:114-116). -/
def clean : Meth State Unit := Meth.assign fun _ => init

end Magpie.Pov
