import Verif.Model.Radial
import Verif.Model.Box2Ring
import Verif.Model.Cube2Shell

/-!
# Words used by property C135: larger data never give a smaller map
-/

namespace Magpie.Spec
open Magpie Magpie.Radial

/-- Two floats are both NaN, or the first is at most the second. -/
def Below : Option ℝ → Option ℝ → Prop
  | none, none => True
  | some x, some y => x ≤ y
  | _, _ => False

/-- Two arrays of the same shape, the first below the second. -/
def BelowArr (f g : Arr2 (Option ℝ)) : Prop :=
  (g.rows = f.rows ∧ g.cols = f.cols) ∧ ∀ i j, i < f.rows → j < f.cols → Below (f.val i j) (g.val i j)

/-- The same in three dimensions. -/
def BelowArr3 (f g : Arr3 (Option ℝ)) : Prop :=
  (g.n0 = f.n0 ∧ g.n1 = f.n1 ∧ g.n2 = f.n2) ∧
    ∀ i j k, i < f.n0 → j < f.n1 → k < f.n2 → Below (f.val i j k) (g.val i j k)

/-- Two calls: both raise the same exception, or they return arrays of the same shape, the first below the second. -/
def BelowCalls (x y : Py (Arr2 (Option ℝ))) : Prop :=
  match x, y with
  | .ok p, .ok q => BelowArr p q
  | .error e, .error e' => e = e'
  | _, _ => False

/-- Two calls of `polar2radial`: both raise the same exception, or the first profile is below the second, with the same
errors and the same effect on the caller's weights. -/
def BelowProfiles (x y : Py Box2Ring.Radial) : Prop :=
  match x, y with
  | .ok p, .ok q => List.Forall₂ Below p.f q.f ∧ q.sigma = p.sigma ∧ q.callerW = p.callerW
  | .error e, .error e' => e = e'
  | _, _ => False

end Magpie.Spec
