import Mathlib.Data.Real.Basic
import Mathlib.Data.List.Nodup

/-!
# Rectangles and boxes
-/

namespace Magpie.Spec

/-- `(x, y)` is on the boundary of the rectangle `[xmin, xmax] × [ymin, ymax]`. -/
def OnRect {K : Type} [LinearOrder K] (xmin xmax ymin ymax x y : K) : Prop :=
  xmin ≤ x ∧ x ≤ xmax ∧ ymin ≤ y ∧ y ≤ ymax ∧ (x = xmin ∨ x = xmax ∨ y = ymin ∨ y = ymax)

/-- An edge of a box: the axis it is parallel to, and on which side (`true` is the maximum) it lies
in the two other coordinates. -/
inductive BoxEdge where
  | alongX (y z : Bool) | alongY (x z : Bool) | alongZ (x y : Bool)
  deriving DecidableEq

/-- The corner at the start (`false`) and end (`true`) of an edge, by its sides in x, y, z. -/
def BoxEdge.corner : BoxEdge → Bool → Bool × Bool × Bool
  | .alongX y z, e => (e, y, z)
  | .alongY x z, e => (x, e, z)
  | .alongZ x y, e => (x, y, e)

/-- The twelve edges. -/
def allBoxEdges : List BoxEdge :=
  [.alongX false false, .alongX true false, .alongY false false, .alongY true false,
   .alongX false true, .alongX true true, .alongY false true, .alongY true true,
   .alongZ false false, .alongZ true false, .alongZ false true, .alongZ true true]

theorem allBoxEdges_complete : allBoxEdges.Nodup ∧ allBoxEdges.length = 12 ∧
    ∀ e : BoxEdge, e ∈ allBoxEdges := by
  refine ⟨by decide, rfl, ?_⟩
  rintro (⟨_|_, _|_⟩ | ⟨_|_, _|_⟩ | ⟨_|_, _|_⟩) <;> decide

/-- Position of a corner of the box with opposite corners `lo` and `hi`. -/
def cornerPos (lo hi : ℝ × ℝ × ℝ) (c : Bool × Bool × Bool) : ℝ × ℝ × ℝ :=
  (if c.1 then hi.1 else lo.1, if c.2.1 then hi.2.1 else lo.2.1, if c.2.2 then hi.2.2 else lo.2.2)

/-- The point at fraction `t` of the way from `p` to `q`. -/
def lerp (p q : ℝ × ℝ × ℝ) (t : ℝ) : ℝ × ℝ × ℝ :=
  (p.1 + t*(q.1 - p.1), p.2.1 + t*(q.2.1 - p.2.1), p.2.2 + t*(q.2.2 - p.2.2))

/-- `p` is strictly inside the box. -/
def Inside (lo hi p : ℝ × ℝ × ℝ) : Prop :=
  lo.1 < p.1 ∧ p.1 < hi.1 ∧ lo.2.1 < p.2.1 ∧ p.2.1 < hi.2.1 ∧ lo.2.2 < p.2.2 ∧ p.2.2 < hi.2.2

/-- A corner is hidden from `center` if the line of sight passes through the inside of the box. -/
def Hidden (lo hi center corner : ℝ × ℝ × ℝ) : Prop :=
  ∃ t : ℝ, 0 ≤ t ∧ t ≤ 1 ∧ Inside lo hi (lerp center corner t)

end Magpie.Spec
