import Verif.Model.Conversions

/-!
# Model of `/repo/magpie/pixel/basic_shapes.py`

`steps` is a non-negative integer, so `int(steps/4)` is `steps / 4`.
-/

namespace Magpie.Shapes
open Magpie.Coords

section
variable {K : Type} [Field K]

/-- `get_square` (basic_shapes.py:27-48). -/
def getSquare (xmin xmax ymin ymax : K) (steps : ℕ) : Py (List K × List K) := do
  pyAssert (steps % 4 = 0 ∧ steps > 0)
  let steps1 := steps / 4
  let ones (c : K) : List K := List.replicate steps1 c
  -- lines 33-35
  let xx := linspace xmin xmax steps1
  let yy := ones ymin
  let (x, y) := (xx, yy)
  -- lines 36-39
  let xx := ones xmax
  let yy := linspace ymin ymax steps1
  let x := x ++ xx
  let y := y ++ yy
  -- lines 40-43
  let xx := linspace xmax xmin steps1
  let yy := ones ymax
  let x := x ++ xx
  let y := y ++ yy
  -- lines 44-47
  let xx := ones xmin
  let yy := linspace ymax ymin steps1
  let x := x ++ xx
  let y := y ++ yy
  return (x, y)

end

/-- `coords.polar2cart` (conversions.py:53-55) on arrays. -/
noncomputable def polar2cartArr (r phi : List ℝ) (c : ℝ × ℝ) : Py (List ℝ × List ℝ) := do
  let x ← vzip (fun r phi => (polar2cart r phi c).1) r phi
  let y ← vzip (fun r phi => (polar2cart r phi c).2) r phi
  return (x, y)

/-- `get_arc` (basic_shapes.py:73-76). -/
noncomputable def getArc (radius phimin phimax : ℝ) (c : ℝ × ℝ) (steps : ℕ) :
    Py (List ℝ × List ℝ) :=
  let phi := linspace phimin phimax steps
  let r := List.replicate steps radius
  polar2cartArr r phi c

/-- `get_disc` (basic_shapes.py:103-105). -/
noncomputable def getDisc (rmin rmax phimin phimax : ℝ) (c : ℝ × ℝ) (steps : ℕ) :
    Py (List ℝ × List ℝ) := do
  let (r, phi) ← getSquare rmin rmax phimin phimax steps
  polar2cartArr r phi c

/-- One row of each of the arrays `x`, `y`, `z` of `get_box`. -/
abbrev Seg := List ℝ × List ℝ × List ℝ

/-- Limits `xmin, xmax, ymin, ymax, zmin, zmax` of a box. -/
structure BoxLim where
  (xmin xmax ymin ymax zmin zmax : ℝ)

/-- The twelve rows of `x`, `y`, `z` (basic_shapes.py:142-156). -/
noncomputable def boxSegs (b : BoxLim) (steps1 : ℕ) : List Seg :=
  let xmin := List.replicate steps1 b.xmin
  let xmax := List.replicate steps1 b.xmax
  let ymin := List.replicate steps1 b.ymin
  let ymax := List.replicate steps1 b.ymax
  let zmin := List.replicate steps1 b.zmin
  let zmax := List.replicate steps1 b.zmax
  let x := linspace b.xmin b.xmax steps1
  let y := linspace b.ymin b.ymax steps1
  let z := linspace b.zmin b.zmax steps1
  [(x, ymin, zmin), (x, ymax, zmin), (xmin, y, zmin), (xmax, y, zmin),
   (x, ymin, zmax), (x, ymax, zmax), (xmin, y, zmax), (xmax, y, zmax),
   (xmin, ymin, z), (xmax, ymin, z), (xmin, ymax, z), (xmax, ymax, z)]

/-- `corners` (basic_shapes.py:158-161). -/
def boxCorners (b : BoxLim) : List (ℝ × ℝ × ℝ) :=
  [(b.xmin, b.ymin, b.zmin), (b.xmin, b.ymin, b.zmax), (b.xmin, b.ymax, b.zmin),
   (b.xmin, b.ymax, b.zmax), (b.xmax, b.ymin, b.zmin), (b.xmax, b.ymin, b.zmax),
   (b.xmax, b.ymax, b.zmin), (b.xmax, b.ymax, b.zmax)]

/-- Entry of `remove_corner` for one corner (basic_shapes.py:164-173). -/
noncomputable def removeCorner (b : BoxLim) (center corner : ℝ × ℝ × ℝ) : Bool :=
  let t := linspace (0:ℝ) 1 100
  let pts := t.map fun t => (t*(corner.1 - center.1) + center.1,
    t*(corner.2.1 - center.2.1) + center.2.1, t*(corner.2.2 - center.2.2) + center.2.2)
  let condition := whereIdx (fun p : ℝ × ℝ × ℝ => decide (p.1 > b.xmin) && decide (p.1 < b.xmax)
    && decide (p.2.1 > b.ymin) && decide (p.2.1 < b.ymax)
    && decide (p.2.2 > b.zmin) && decide (p.2.2 < b.zmax)) pts
  if condition.length = 0 then false else true

/-- `np.argmin`: position of the first smallest entry; `best` is the smallest so far, found at
`ib`. -/
noncomputable def argminFrom (best : ℝ) (ib i : ℕ) : List ℝ → ℕ
  | [] => ib
  | x :: l => if x < best then argminFrom x i (i+1) l else argminFrom best ib (i+1) l

/-- `np.argmin` (of an array that is not empty). -/
noncomputable def argmin : List ℝ → ℕ
  | [] => 0
  | x :: l => argminFrom x 0 1 l

/-- `remove_corner[np.argmin(dist)]` (basic_shapes.py:180-183) for one end point of a line. -/
noncomputable def removeAt (b : BoxLim) (center p : ℝ × ℝ × ℝ) : Bool :=
  let corners := boxCorners b
  let dist := corners.map fun c =>
    Real.sqrt ((c.1 - p.1)^2 + (c.2.1 - p.2.1)^2 + (c.2.2 - p.2.2)^2)
  (corners.map (removeCorner b center)).getD (argmin dist) false

/-- `get_box` (basic_shapes.py:139-196). Every row has `steps1 ≥ 1` entries, so the reads of the
first and last entry do not fail. -/
noncomputable def getBox (b : BoxLim) (steps : ℕ) (returnNearest : Bool) (center : ℝ × ℝ × ℝ) :
    Py (List Seg) := do
  pyAssert (steps % 12 = 0 ∧ steps > 0)
  let steps1 := steps / 12
  let segs := boxSegs b steps1
  if returnNearest = true then
    return segs.filter fun s =>
      let p1 := (s.1.headD 0, s.2.1.headD 0, s.2.2.headD 0)
      let p2 := (s.1.getLastD 0, s.2.1.getLastD 0, s.2.2.getLastD 0)
      !(removeAt b center p1 || removeAt b center p2)
  else return segs

end Magpie.Shapes
