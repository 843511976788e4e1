import Verif.Spec.Sphere

/-!
# Perspective projection
-/

namespace Magpie.Spec
open Matrix

/-- The vector from `c` to `q`. -/
def rel (c q : ℝ × ℝ × ℝ) : Fin 3 → ℝ := ![q.1 - c.1, q.2.1 - c.2.1, q.2.2 - c.2.2]

/-- A point is in front of a camera at `camera` looking at `point`. -/
def InFront (camera point q : ℝ × ℝ × ℝ) : Prop := 0 < rel camera q ⬝ᵥ rel camera point

/-- The frame of an upright camera: `n` is the viewing direction, `h` is horizontal and
perpendicular to it, `v` completes them to a right-handed orthonormal frame and points upwards. -/
structure CameraFrame (camera point : ℝ × ℝ × ℝ) (n h v : Fin 3 → ℝ) : Prop where
  view : ∃ t : ℝ, 0 < t ∧ rel camera point = t • n
  nn : n ⬝ᵥ n = 1
  hh : h ⬝ᵥ h = 1
  nh : n ⬝ᵥ h = 0
  horizontal : h 2 = 0
  hand : v = n ⨯₃ h
  up : 0 ≤ v 2

end Magpie.Spec
