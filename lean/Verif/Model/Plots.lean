import Verif.Model.Heal2Ortho
import Verif.Model.Shapes

/-!
# Model of `/repo/magpie/plots/ortho.py` and `/repo/magpie/plots/shapes.py`

Drawing is modelled by the sequence of matplotlib calls made so far (`Cmd`). The branches `if ax is None` differ
only in the figure drawn on, which is a part of the call. The optional arguments handed on to matplotlib
(`cmap`, `color`, `ha`, ...) are not modelled.
-/

namespace Magpie.Plots
open Magpie.Cube Magpie.Coords Magpie.Radial

/-- The axes drawn on: those of `ax`, or the current ones of `plt` for `None`. -/
abbrev Target := Option ℕ

/-- A matplotlib call. NaN is `none`. -/
inductive Cmd where
  /-- `plot(x, y)` -/
  | plot (ax : Target) (rows : List (Option (ℝ × ℝ)))
  /-- `imshow(dmap, origin='lower', extent=[x0, x1, y0, y1])` -/
  | imshow (ax : Target) (dmap : Arr2 (Option ℝ)) (x0 x1 y0 y1 : ℝ)
  /-- `text(x, y, s)` or `text(x, y, s, rotation=rotation)` -/
  | text (ax : Target) (x y : ℝ) (s : List Char) (rotation : Option (Option ℝ))
  | xticks (ax : Target) (ticks labels : List ℝ)
  | yticks (ax : Target) (ticks labels : List ℝ)
  | xlim (ax : Target) (a b : ℝ)
  | ylim (ax : Target) (a b : ℝ)
  | axisOff (ax : Target)

/-- A `PlotOrtho` object (ortho.py:13-21) is the `Heal2Ortho` object it was made from; with it goes the record of
the matplotlib calls. -/
structure State where
  ortho : Ortho.State
  drawn : List Cmd

/-- A call of a method of `self.heal2ortho`. -/
def onOrtho {α : Type} (m : Meth Ortho.State α) : Meth State α := fun s =>
  ((m s.ortho).1, { s with ortho := (m s.ortho).2 })

/-- A matplotlib call. -/
def draw (c : Cmd) : Meth State Unit := Meth.assign fun s => { s with drawn := s.drawn ++ [c] }

/-- `self.heal2ortho.xedges[0]`, `xedges[-1]`, `yedges[0]`, `yedges[-1]`: `TypeError` before `setup_box`. The
arrays have at least one element after it unless `y_grid = -1` (`IndexError`). -/
def limits : Meth State (ℝ × ℝ × ℝ × ℝ) := do
  let s ← Meth.self
  let e ← Meth.lift (need s.ortho.edges)
  Meth.lift (if e.xedges = [] ∨ e.yedges = [] then .error .indexError else .ok ())
  return (e.xedges.getD 0 0, e.xedges.getLastD 0, e.yedges.getD 0 0, e.yedges.getLastD 0)

/-- `imshow` (ortho.py:38-45); the object returned for `returncb` is not modelled. -/
def imshow (dmap : Arr2 (Option ℝ)) (ax : Target) : Meth State Unit := do
  let (x0, x1, y0, y1) ← limits
  draw (.imshow ax dmap x0 x1 y0 y1)

/-- `int(a/d)` for floats: `ZeroDivisionError` for `d = 0`. -/
noncomputable def intDiv (a d : ℝ) : Py ℤ :=
  if d = 0 then .error .zeroDivisionError else .ok (trunc (a/d))

/-- `np.linspace(0., b, nlines + 1)`: `ValueError` for a negative number of samples (ortho.py:72, 74, 134, 136). -/
noncomputable def gridLine (b : ℝ) (nlines : ℤ) : Py (List ℝ) :=
  if nlines + 1 < 0 then .error .valueError else .ok (linspace 0 b (nlines + 1).toNat)

/-- The loop of `plot_grid` over the meridians (ortho.py:76-84). `transform` changes the array `phi`, which is not
used again. -/
noncomputable def meridians (ax : Target) : List ℝ → Meth State Unit
  | [] => pure ()
  | v :: vs => do
    let points := 100
    let phi := List.replicate points v
    let theta := linspace 0 Real.pi points
    let (rows, _) ← onOrtho (Ortho.transformArr phi theta)
    draw (.plot ax rows)
    meridians ax vs

/-- The loop of `plot_grid` over the parallels (ortho.py:86-94). -/
noncomputable def parallels (ax : Target) : List ℝ → Meth State Unit
  | [] => pure ()
  | v :: vs => do
    let points := 100
    let theta := List.replicate points v
    let phi := linspace 0 (2*Real.pi) points
    let (rows, _) ← onOrtho (Ortho.transformArr phi theta)
    draw (.plot ax rows)
    parallels ax vs

/-- `plot_grid` (ortho.py:69-94). `zeropoint` and `shift` are not used by the code. -/
noncomputable def plotGrid (dtheta : ℝ) (dphi : Option ℝ) (ax : Target) : Meth State Unit := do
  let dphi := dphi.getD dtheta
  let nlines ← Meth.lift (intDiv 360 dphi)
  let phiGrid ← Meth.lift (gridLine (2*Real.pi) nlines)
  let nlines ← Meth.lift (intDiv 180 dtheta)
  let thetaGrid ← Meth.lift (gridLine Real.pi nlines)
  meridians ax phiGrid.dropLast
  parallels ax thetaGrid.dropLast

/-! ### Labels -/

/-- `np.round(x)` to the nearest integer, ties to even. -/
noncomputable def rint (x : ℝ) : ℤ :=
  if Int.fract x < 1/2 then ⌊x⌋
  else if 1/2 < Int.fract x then ⌊x⌋ + 1
  else if ⌊x⌋ % 2 = 0 then ⌊x⌋ else ⌊x⌋ + 1

/-- The `d` digits after the point of a number with the digits `m` (less than `10^d`). -/
def fracDigits : ℕ → ℕ → List Char
  | 0, _ => []
  | d + 1, m => fracDigits d (m / 10) ++ [Nat.digitChar (m % 10)]

/-- The digits after the point as `str` prints them: no zeros at the end, but at least one digit. -/
def stripZeros (l : List Char) : List Char :=
  match (l.reverse.dropWhile (· == '0')).reverse with
  | [] => ['0']
  | l => l

/-- `str` of the float `k/10^d` in the range where it is printed without an exponent; the sign of a negative zero
is not modelled. -/
def decStr (k : ℤ) (d : ℕ) : List Char :=
  (if k < 0 then ['-'] else []) ++ Nat.toDigits 10 (k.natAbs / 10^d) ++ ['.'] ++
    stripZeros (fracDigits d (k.natAbs % 10^d))

/-- `np.rad2deg(x)` -/
noncomputable def rad2deg (x : ℝ) : ℝ := x*180/Real.pi

/-- `np.deg2rad(x)` -/
noncomputable def deg2rad (x : ℝ) : ℝ := x*Real.pi/180

/-- `r'$ %s ^{\circ}$' % str(np.round(np.rad2deg(val), decimals=decimals))[:-2]` (ortho.py:141, 164): what is put in
the place of `%s`. `np.round` multiplies by `10**decimals` and rounds to an integer. Simplified: `decimals` is not
negative. -/
noncomputable def labelText (val : ℝ) (decimals : ℕ) : List Char :=
  (decStr (rint (rad2deg val * 10^decimals)) decimals).dropLast.dropLast

/-- `270. - np.rad2deg(np.arctan2((y-yc), (x-xc)))` (ortho.py:145, 173), NaN if the pole is not seen. -/
noncomputable def rotationAngle (p : ℝ × ℝ) (pole : Option (ℝ × ℝ)) : Option ℝ :=
  pole.map fun c => 270 - rad2deg (arctan2 (p.2 - c.2) (p.1 - c.1))

/-- One label (ortho.py:144-158, 172-186): nothing is drawn outside the edges and for a direction that is not seen,
since comparisons with NaN are false. -/
noncomputable def label (ax : Target) (userotation : Bool) (pole : Option (ℝ × ℝ)) (str : List Char)
    (phiVal thetaVal : ℝ) : Meth State Unit := do
  let p ← onOrtho (Ortho.transform phiVal thetaVal)
  let (x0, x1, y0, y1) ← limits
  match p with
  | none => pure ()
  | some (x, y) =>
    if x ≥ x0 ∧ x ≤ x1 ∧ y ≥ y0 ∧ y ≤ y1 then
      draw (.text ax x y str (if userotation then some (rotationAngle (x, y) pole) else none))
    else pure ()

/-- The loop over the longitudes (ortho.py:139-158). -/
noncomputable def phiLabels (ax : Target) (userotation : Bool) (pole : Option (ℝ × ℝ)) (decimals : ℕ)
    (zeropoint shift : ℝ × ℝ) : List ℝ → Meth State Unit
  | [] => pure ()
  | v :: vs => do
    label ax userotation pole (labelText v decimals) (v - deg2rad shift.1) zeropoint.2
    phiLabels ax userotation pole decimals zeropoint shift vs

/-- The loop over the colatitudes (ortho.py:160-186). -/
noncomputable def thetaLabels (ax : Target) (userotation : Bool) (pole : Option (ℝ × ℝ)) (decimals : ℕ)
    (lonlat : Bool) (zeropoint shift : ℝ × ℝ) : List ℝ → Meth State Unit
  | [] => pure ()
  | v :: vs => do
    let str := labelText (if lonlat then Real.pi/2 - v else v) decimals
    let phiVal := zeropoint.1
    let thetaVal := v - deg2rad shift.2
    let phiVal := if phiVal < 0 then phiVal + 2*Real.pi
      else if phiVal ≥ 2*Real.pi then phiVal - 2*Real.pi else phiVal
    label ax userotation pole str phiVal thetaVal
    thetaLabels ax userotation pole decimals lonlat zeropoint shift vs

/-- What the libraries and the sky coordinates contribute to the labels at the edges: `angles` are the directions at
the edge (ortho.py:189-193), with `np.argmax` and `np.argmin` of an array; `select` is `grid[condition]` for the
grid values between the least and the largest angle, and `interp` is `interpolate.interp1d(t, y)` at given points.
Every one of them may raise. -/
structure EdgeLib where
  angles : Py (List (Option ℝ) × List ℝ)
  argmax : List (Option ℝ) → Py ℕ
  argmin : List (Option ℝ) → Py ℕ
  select : List ℝ → List (Option ℝ) → Py (List ℝ)
  interp : List (Option ℝ) → List ℝ → List ℝ → Py (List ℝ)

/-- `coords.polar2lonlat`: the module `coords` has no such attribute (coords/__init__.py:1-20). -/
def polar2lonlat (_ : List ℝ) : Py (List ℝ) := .error .attributeError

/-- Ticks and labels from a part of the edge (ortho.py:206-209, 215-218, 222-225, 231-234, 238-241). -/
def edgePart (lib : EdgeLib) (grid : List ℝ) (theta : List (Option ℝ)) (y : List ℝ) : Py (List ℝ × List ℝ) := do
  let g ← lib.select grid theta
  let ticks ← lib.interp theta y g
  let labels ← polar2lonlat g
  return (ticks, labels)

/-- Ticks and labels of the y axis (ortho.py:189-244), before rounding. -/
def yTicks (lib : EdgeLib) (grid : List ℝ) : Py (List ℝ × List ℝ) := do
  let (theta, y) ← lib.angles
  let imax ← lib.argmax theta
  let imin ← lib.argmin theta
  if imax ≠ 0 ∧ imax ≠ theta.length - 1 then
    let (t1, l1) ← edgePart lib grid (theta.take imax) (y.take imax)
    let (t2, l2) ← edgePart lib grid (theta.drop imax).dropLast (y.drop imax).dropLast
    return (t1 ++ t2, l1 ++ l2)
  else if imin ≠ 0 ∧ imin ≠ theta.length - 1 then
    let (t1, l1) ← edgePart lib grid (theta.take imin) (y.take imin)
    let (t2, l2) ← edgePart lib grid (theta.drop imin).dropLast (y.drop imin).dropLast
    return (t1 ++ t2, l1 ++ l2)
  else edgePart lib grid theta y

/-- `plot_labels` (ortho.py:131-316). `xTicks` stands for ortho.py:246-307, which is never reached. -/
noncomputable def plotLabels (lib : EdgeLib) (xTicks : Py (List ℝ × List ℝ)) (dtheta : ℝ) (dphi : Option ℝ)
    (decimals : ℕ) (lonlat : Bool) (zeropoint shift : ℝ × ℝ) (ax : Target) (onsphere userotation : Bool) :
    Meth State Unit := do
  let dphi := dphi.getD dtheta
  let nlines ← Meth.lift (intDiv 360 dphi)
  let phiGrid ← Meth.lift (gridLine (2*Real.pi) nlines)
  let nlines ← Meth.lift (intDiv 180 dtheta)
  let thetaGrid ← Meth.lift (gridLine Real.pi nlines)
  let pole ← onOrtho (Ortho.transform 0 0)
  if onsphere then
    phiLabels ax userotation pole decimals zeropoint shift phiGrid.dropLast
    thetaLabels ax userotation pole decimals lonlat zeropoint shift thetaGrid.dropLast.tail
  else
    let y ← Meth.lift (yTicks lib thetaGrid.dropLast.tail)
    let x ← Meth.lift xTicks
    draw (.xticks ax x.1 x.2)
    draw (.yticks ax y.1 y.2)

/-! ### Shapes -/

/-- `shapes.get_box` and `shapes.get_circle`: the name `shapes` is not defined in either module
(ortho.py:1-7, shapes.py:1-4). -/
def shapesName {α : Type} : Py α := .error .nameError

/-- `plot_box` (shapes.py:25-29). -/
def plotBox (_xmin _xmax _ymin _ymax : ℝ) (ax : Target) (_divisions : ℕ) : Meth State Unit := do
  let rows ← Meth.lift (shapesName (α := List (Option (ℝ × ℝ))))
  draw (.plot ax rows)

/-- `plot_circle` (shapes.py:46-50). -/
def plotCircle (_radius : Option ℝ) (_center : List ℝ) (_length : ℕ) (ax : Target) : Meth State Unit := do
  let rows ← Meth.lift (shapesName (α := List (Option (ℝ × ℝ))))
  draw (.plot ax rows)

/-- `plot_polar_box` (ortho.py:340-349). -/
noncomputable def plotPolarBox (_phiMin _phiMax thetaMin thetaMax : ℝ) (lonlat : Bool) (ax : Target)
    (_divisions : ℕ) : Meth State Unit := do
  let (_thetaMin, _thetaMax) := if lonlat then (Real.pi/2 - thetaMax, Real.pi/2 - thetaMin) else (thetaMin, thetaMax)
  let (phi, theta) ← Meth.lift (shapesName (α := List ℝ × List ℝ))
  let (rows, _) ← onOrtho (Ortho.transformArr phi theta)
  draw (.plot ax rows)

/-- `finalize` (ortho.py:376-395). -/
def finalize (insphere : Bool) (ax : Target) (outeredge : Bool) (edgelength : ℕ) (edgecenter : List ℝ) :
    Meth State Unit := do
  if outeredge then
    let s ← Meth.self
    plotCircle (s.ortho.grid.map fun g => g.radius) edgecenter edgelength ax
  let (x0, x1, y0, y1) ← limits
  if insphere then
    draw (.xlim ax x1 x0)
  else
    draw (.xlim ax x0 x1)
  draw (.ylim ax y0 y1)
  draw (.axisOff ax)

end Magpie.Plots
