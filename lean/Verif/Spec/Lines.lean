import Verif.Spec.PointOfView

/-!
# Straight lines in space and in the view
-/

namespace Magpie.Spec

/-- The point that divides the way from `p` to `q` in the ratio `t : 1 - t`. -/
def onLine (p q : ℝ × ℝ × ℝ) (t : ℝ) : ℝ × ℝ × ℝ :=
  ((1-t)*p.1 + t*q.1, (1-t)*p.2.1 + t*q.2.1, (1-t)*p.2.2 + t*q.2.2)

/-- The same in the plane of the view. -/
def onLine2 (b b' : ℝ × ℝ) (u : ℝ) : ℝ × ℝ := ((1-u)*b.1 + u*b'.1, (1-u)*b.2 + u*b'.2)

/-- The point reached from `p` after `t` steps `w`. -/
def steps (p w : ℝ × ℝ × ℝ) (t : ℝ) : ℝ × ℝ × ℝ := (p.1 + t*w.1, p.2.1 + t*w.2.1, p.2.2 + t*w.2.2)

end Magpie.Spec
