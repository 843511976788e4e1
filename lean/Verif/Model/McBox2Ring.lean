import Verif.Model.Box2Ring
import Verif.Model.RandomsBasic
import Mathlib.Analysis.SpecialFunctions.Log.Base

/-!
# Model of `/repo/magpie/montecarlo/box2ring.py`

The parts shared with the dense grid class are in `Verif/Model/Box2Ring.lean`.
-/

namespace Magpie.Mc
open Magpie.Radial Magpie.OneD Magpie.Remap Magpie.Randoms Magpie.Coords Magpie.Box2Ring

/-- One entry of `ind_xs[i, j]`, `ind_ys[i, j]` and `ind_ws[i, j]`. -/
structure Hit where
  ix : ℕ
  iy : ℕ
  w : ℝ

/-- `ind_xs, ind_ys, ind_ws`. `objIdx` tells that the arrays of indices are 3d arrays of Python
objects (see `pack`). -/
structure Weights where
  hits : ℕ → ℕ → List Hit
  objIdx : Bool

/-- The stored arrays, with their first two dimensions. -/
structure Stored where
  wt : Weights
  rows : ℕ
  cols : ℕ

/-- A Monte Carlo `Box2Ring` object. -/
abbrev State := Box2Ring.State Stored

/-- `setup_polar_lin` (box2ring.py:126-144). -/
noncomputable def setupPolarLin (a : PolarArgs) : Meth State Unit := do
  Meth.lift (pyAssert (a.rmin ≥ 0))
  Meth.lift (polarChecks a)
  let e := mkEdges (linspace a.rmin a.rmax (a.numr.toNat + 1)) (linspace a.pmin a.pmax (a.nump.toNat + 1))
  Meth.assign fun s => { s with edges := some e }
  let dr ← Meth.lift (firstDiff e.rmid)
  Meth.assign fun s => { s with dr := some (.scalar dr) }
  let dp ← Meth.lift (firstDiff e.pmid)
  Meth.assign fun s => { s with dp := some dp }
  Meth.assign fun s => { s with polar := some (mkPolar e a) }

/-- `np.logspace(np.log10(a), np.log10(b), n)` for positive `a`, `b`. -/
noncomputable def logspace (a b : ℝ) (n : ℕ) : List ℝ :=
  (linspace (Real.logb 10 a) (Real.logb 10 b) n).map fun t => (10:ℝ)^t

/-- `redges` of `setup_polar_log` (box2ring.py:183-187). -/
noncomputable def logEdges (a : PolarArgs) (addzero : Bool) : List ℝ :=
  if addzero = true then 0 :: logspace a.rmin a.rmax a.numr.toNat
  else logspace a.rmin a.rmax (a.numr.toNat + 1)

/-- `setup_polar_log` (box2ring.py:173-195). -/
noncomputable def setupPolarLog (a : PolarArgs) (addzero : Bool) : Meth State Unit := do
  Meth.lift (pyAssert (a.rmin > 0))
  Meth.lift (polarChecks a)
  let redges := logEdges a addzero
  let e := mkEdges redges (linspace a.pmin a.pmax (a.nump.toNat + 1))
  Meth.assign fun s => { s with edges := some e }
  Meth.assign fun s => { s with
    dr := some (.list (List.zipWith (fun b a => b - a) redges.tail redges.dropLast)) }
  let dp ← Meth.lift (firstDiff e.pmid)
  Meth.assign fun s => { s with dp := some dp }
  Meth.assign fun s => { s with polar := some (mkPolar e a) }

/-- Edges used by `np.histogramdd(…, bins=[n], range=[[edges[0], edges[-1]]])` (NumPy):
`ValueError` if the range is reversed; an empty range is widened by 0.5 on both sides. -/
noncomputable def histEdges (edges : List ℝ) : Py (List ℝ) :=
  let first := edges.getD 0 0
  let last := edges.getLastD 0
  if first > last then .error .valueError
  else if first = last then .ok (linspace (first - 1/2) (last + 1/2) (edges.length - 1 + 1))
  else .ok (linspace first last (edges.length - 1 + 1))

/-- Bin of a value (NumPy `histogramdd`): the number of edges not above it, less one; the last edge
belongs to the last bin; values outside are not counted. -/
noncomputable def histBin (edges : List ℝ) (x : ℝ) : Option ℕ :=
  let n := (edges.filter fun e => decide (e ≤ x)).length
  let n := if x = edges.getLastD 0 then n - 1 else n
  if 1 ≤ n ∧ n ≤ edges.length - 1 then some (n - 1) else none

/-- The random points of one polar pixel (box2ring.py:221-228): `uR`, `uPhi` are the uniform
variates. The radii are numbers because `redges` are not negative (`none` would be NaN). -/
noncomputable def randomPoints (rmin rmax pmin pmax : ℝ) (p : Polar) (uR uPhi : List ℝ) :
    List (Option (ℝ × ℝ)) :=
  let (rrand, prand) := randomsPolar uR uPhi rmin rmax pmin pmax
  let prand := if p.phiShift ≠ 0 then
      let prand := prand.map fun q => q + p.phiShift
      let prand := prand.map fun q => if q > 2*Real.pi then q - 2*Real.pi else q
      prand.map fun q => if q < 0 then q + 2*Real.pi else q
    else prand
  List.zipWith (fun r q => r.map fun r => polar2cart r q p.center) rrand prand

/-- Bin `(column, row)` of a point; a NaN point is not counted. -/
noncomputable def binOf (hx hy : List ℝ) (pt : Option (ℝ × ℝ)) : Option (ℕ × ℕ) :=
  match pt with
  | none => none
  | some (x, y) => match histBin hx x, histBin hy y with
    | some a, some b => some (a, b)
    | _, _ => none

/-- `H` of box2ring.py:229-230. -/
noncomputable def histCount (hx hy : List ℝ) (pts : List (Option (ℝ × ℝ))) (c : ℕ × ℕ) : ℕ :=
  (pts.filter fun pt => decide (binOf hx hy pt = some c)).length

/-- `ind_x`, `ind_y`, `ind_w` of one polar pixel (box2ring.py:229-234): `H[x, y]` is a
`numx × numy` array read in row-major order, and `ind_x` is the second index. -/
noncomputable def pixelHits (hx hy : List ℝ) (mcSize : ℕ) (pts : List (Option (ℝ × ℝ))) : List Hit :=
  let cells := (List.range (hx.length - 1)).flatMap fun a => (List.range (hy.length - 1)).map fun b => (a, b)
  let condition := cells.filter fun c => decide (histCount hx hy pts c ≠ 0)
  condition.map fun c => ⟨c.2, c.1, (histCount hx hy pts c : ℝ)/mcSize⟩

/-- All entries have the same value. -/
def allEq (l : List ℕ) : Bool := l.all fun n => decide (n = l.headD 0)

/-- What `np.array(…, dtype=object)` (NumPy) makes of the nested lists of box2ring.py:238-245. `lens`
are the lengths of the arrays of each pixel, row by row. A row of arrays of different lengths becomes
an array of arrays, but a row of arrays of equal length `k` becomes a 2d array with `k` columns. The
outer call needs rows of equal shape, and fails with `ValueError` otherwise. If all rows are 2d the
result is a 3d array of Python objects (`true`), otherwise an array of arrays of numbers
(`false`). -/
def pack (lens : List (List ℕ)) : Py Bool :=
  if lens.all (fun row => !allEq row) then .ok false
  else if lens.all allEq && allEq (lens.map fun row => row.headD 0) then .ok true
  else .error .valueError

/-- `get_weights` (box2ring.py:210-245). `draws i j` are the uniform variates for polar pixel
`(i, j)`, `mcSize` each. -/
noncomputable def getWeights (mcSize : ℕ) (draws : ℕ → ℕ → List ℝ × List ℝ) : Meth State Unit := do
  Meth.lift (pyAssert (mcSize > 1))
  let s ← Meth.self
  let p ← Meth.lift (need s.polar)
  let e ← Meth.lift (need s.edges)
  let b ← Meth.lift (need s.box)
  let hx ← Meth.lift (histEdges b.xedges)
  let hy ← Meth.lift (histEdges b.yedges)
  Meth.lift (if p.r2d.cols < e.redges.length ∧ p.r2d.rows < e.pedges.length then .ok () else .error .indexError)
  let hits := fun i j => pixelHits hx hy mcSize
    (randomPoints (e.redges.getD j 0) (e.redges.getD (j+1) 0) (e.pedges.getD i 0) (e.pedges.getD (i+1) 0)
      p (draws i j).1 (draws i j).2)
  let objIdx ← Meth.lift (pack ((List.range p.r2d.rows).map fun i =>
    (List.range p.r2d.cols).map fun j => (hits i j).length))
  Meth.assign fun s => { s with extra := some ⟨⟨hits, objIdx⟩, p.r2d.rows, p.r2d.cols⟩ }

/-- `a[ind_xs, ind_ys]`: arrays of Python objects are not accepted as indices (`IndexError`). -/
def readHits {α : Type} (objIdx : Bool) (a : Arr2 α) (hits : List Hit) : Py (List α) :=
  if objIdx = true then .error .indexError else pyMap (fun h => a.get h.ix h.iy) hits

/-- One pixel of `remap` (box2ring.py:271-282). -/
noncomputable def remapPixel (wt : Weights) (f : Arr2 (Option ℝ)) (w : Option (Arr2 ℝ)) (i j : ℕ) :
    Py (Option ℝ) :=
  let hits := wt.hits i j
  let ws := hits.map Hit.w
  match w with
  | none =>
    if ws.sum ≠ 0 then do
      let fs ← readHits wt.objIdx f hits
      return odiv (npSum (List.zipWith (fun w f => omul f w) ws fs)) (some ws.sum)
    else .ok none
  | some w =>
    if ws.sum ≠ 0 then do
      let w1 ← readHits wt.objIdx w hits
      let fs ← readHits wt.objIdx f hits
      return odiv (npSum (List.zipWith omul fs (List.zipWith (· * ·) ws w1)))
        (some (List.zipWith (· * ·) ws w1).sum)
    else .ok none

/-- One pixel of `remap`: `ind_ws[i, j]` is an `IndexError` if the weights are those of a smaller polar
grid (box2ring.py:272, 278). -/
noncomputable def storedPixel (st : Stored) (f : Arr2 (Option ℝ)) (w : Option (Arr2 ℝ)) (i j : ℕ) :
    Py (Option ℝ) :=
  if i < st.rows ∧ j < st.cols then remapPixel st.wt f w i j else .error .indexError

/-- `remap` (box2ring.py:265-285). `np.shape(None)` is `()`, so that the assertion fails before
`setup_box`. -/
noncomputable def remap (f : Arr2 (Option ℝ)) (w : Option (Arr2 ℝ)) : Meth State (Arr2 (Option ℝ)) := do
  let s ← Meth.self
  match s.box with
  | none => Meth.lift (.error .assertionError)
  | some b =>
    Meth.lift (pyAssert (f.sameShape b.x2d))
    match w with
    | none => pure ()
    | some w => Meth.lift (pyAssert (w.sameShape b.x2d))
    let p ← Meth.lift (need s.polar)
    let st ← Meth.lift (need s.extra)
    Meth.lift (tabulate p.r2d.rows p.r2d.cols (storedPixel st f w) none)

/-- `get_mask_in_bound` (box2ring.py:297-305). -/
noncomputable def getMaskInBound : Meth State Unit := do
  let s ← Meth.self
  match s.box, s.polar with
  | some b, some _ =>
    let m ← remap ⟨b.x2d.rows, b.x2d.cols, fun _ _ => some 1⟩ none
    Meth.assign fun s => { s with maskInBound := some ⟨m.rows, m.cols, fun i j => (m.val i j).getD 0⟩ }
  | _, _ => Meth.lift (.error .assertionError)

/-- `polar2radial` (box2ring.py:350-374). -/
noncomputable def polar2radial (f : Arr2 (Option ℝ)) (sigma w : Option (Arr2 ℝ)) :
    Meth State Box2Ring.Radial := Box2Ring.polar2radial getMaskInBound f sigma w

end Magpie.Mc
