import Verif.Model.DgBox2Ring
import Verif.Model.Grids64
import Verif.Model.Conversions64
import Verif.Model.Means64

/-!
# Model of the dense grid `remap` of `/repo/magpie/densegrid/box2ring.py` in binary64

`setup_box`, `setup_polar` and `remap` of `Verif/Model/DgBox2Ring.lean` again, each arithmetic operation rounded, for
arguments that pass the assertions and data without NaN. `np.cos` and `np.sin` come from the C library, whose results
need not be the nearest floats: they are parameters. `np.sum` and `np.mean` add in an order that depends on the shape of
the array; it is any binary tree of additions here. Simplification: no overflow and no signed zeros.
-/

namespace Magpie.Dg64
open Magpie Magpie.Radial Magpie.Box2Ring Magpie.Grids64 Magpie.Means64

/-- The C library's functions of angles. -/
structure Trig where
  cos : ℝ → ℝ
  sin : ℝ → ℝ

/-- The orders of the sums over axis 1 and axis 2 of the dense arrays, for the data and for the areas. -/
structure Orders where
  rows : SumTree
  cols : SumTree
  areaRows : SumTree
  areaCols : SumTree

/-- `rebin_redges` or `rebin_pedges` (box2ring.py:112-115, 121-124). -/
noncomputable def denseEdges64 (lo hi : ℝ) (num rebin : ℕ) : List ℝ :=
  let edges := setupEdges64 lo hi num
  linspace64 (edges.getD 0 0) (edges.getLastD 0) (rebin*(setupMids64 edges).length + 1)

/-- The new value of an angle of the dense grid (box2ring.py:127-133). -/
noncomputable def shiftPhi64 (phiShift p : ℝ) : ℝ :=
  if phiShift ≠ 0 then
    let p := F64.add p phiShift
    let p := if p > Coords64.twoPi then F64.sub p Coords64.twoPi else p
    if p < 0 then F64.add p Coords64.twoPi else p
  else p

/-- `polar2cart` (conversions.py:51-52). -/
noncomputable def polar2cart64 (L : Trig) (r phi : ℝ) (center : ℝ × ℝ) : ℝ × ℝ :=
  (F64.add (F64.mul r (L.cos phi)) center.1, F64.add (F64.mul r (L.sin phi)) center.2)

/-- One entry of `f_polar_highres` (box2ring.py:150-159): `f[yind, xind]`, or `0` outside the box. -/
noncomputable def highres64 (L : Trig) (B : BoxArgs) (center : ℝ × ℝ) (f : Arr2 ℝ) (r phi : ℝ) : Py ℝ :=
  let (x, y) := polar2cart64 L r phi center
  match boxCell64 B.xmin B.xmax B.numx.toNat x, boxCell64 B.ymin B.ymax B.numy.toNat y with
  | some ix, some iy => f.get iy ix
  | _, _ => .ok 0

/-- `np.mean(np.sum(a.reshape(nump, rebin_r, len(rebin_p2d[0])), axis=1).reshape(nump, numr, rebin_p),
axis=2)` (box2ring.py:163-166). -/
noncomputable def downgrade64 (t t' : SumTree) (a : Arr2 ℝ) (nump numr rebinR rebinP cols : ℕ) : Py (Arr2 ℝ) := do
  let a3 ← a.reshape3 nump rebinR cols
  let s : Arr2 ℝ := ⟨nump, cols, fun i c => t.sum fun k => a3 i k c⟩
  let s3 ← s.reshape3 nump numr rebinP
  return ⟨nump, numr, fun i j => F64.div (t'.sum fun k => s3 i j k) (F64.ofInt rebinP)⟩

/-- `rbin_weights` (box2ring.py:160). -/
noncomputable def ringWeights64 (redges : List ℝ) : List ℝ :=
  List.zipWith (fun b a => F64.sub (F64.mul b b) (F64.mul a a)) redges.tail redges.dropLast

/-- `_remap` (box2ring.py:150-168) after `setup_box` and `setup_polar`. -/
noncomputable def remap64 (L : Trig) (O : Orders) (B : BoxArgs) (A : PolarArgs) (rebinR rebinP : ℕ) (f : Arr2 ℝ) :
    Py (Arr2 (Option ℝ)) := do
  let redges := denseEdges64 A.rmin A.rmax A.numr.toNat rebinR
  let pedges := denseEdges64 A.pmin A.pmax A.nump.toNat rebinP
  let rmid := setupMids64 redges
  let pmid := setupMids64 pedges
  let hi ← tabulate pmid.length rmid.length
    (fun i j => highres64 L B (centerOf A.center) f (rmid.getD j 0) (shiftPhi64 A.phiShift (pmid.getD i 0))) 0
  let rw := ringWeights64 redges
  let rw2 : Arr2 ℝ := ⟨pmid.length, rw.length, fun _ j => rw.getD j 0⟩
  let hi ← hi.zip F64.mul rw2
  let fp ← downgrade64 O.rows O.cols hi A.nump.toNat A.numr.toNat rebinR rebinP rmid.length
  let wp ← downgrade64 O.areaRows O.areaCols rw2 A.nump.toNat A.numr.toNat rebinR rebinP rmid.length
  fp.zip (fun a b => if b = 0 then none else some (F64.div a b)) wp

/-- `remap(f, w)` (box2ring.py:192): `self._remap(f*w)/self._remap(w)`, where a division by zero is NaN or infinite
(`none`). `O` and `O'` are the orders of the sums in the two calls. -/
noncomputable def remapWeighted64 (L : Trig) (O O' : Orders) (B : BoxArgs) (A : PolarArgs) (rebinR rebinP : ℕ)
    (f w : Arr2 ℝ) : Py (Arr2 (Option ℝ)) := do
  let fw ← f.zip F64.mul w
  let a ← remap64 L O B A rebinR rebinP fw
  let b ← remap64 L O' B A rebinR rebinP w
  a.zip (fun x y => do
    let x ← x
    let y ← y
    if y = 0 then none else some (F64.div x y)) b

end Magpie.Dg64
