import Verif.Model.Grids
import Verif.Model.Float64

/-!
# Model of `/repo/magpie/grids/cartesian.py` in binary64

The functions of `Verif/Model/Grids.lean` for one axis again, each arithmetic operation rounded.
Simplification: no overflow and no signed zeros.
-/

namespace Magpie.Grids64
open Magpie.Remap

/-- `np.linspace(a, b, n)` as NumPy computes it: `delta = b - a`, `div = n - 1`, `step = delta/div`,
`y = arange(n)*step + a`, and the last entry is replaced by `b`; if the step is rounded to 0, `y` is
`arange(n)/div*delta + a`; for `n = 1` it is `arange(n)*delta + a`. -/
noncomputable def linspace64 (a b : ℝ) (n : ℕ) : List ℝ :=
  let div : ℤ := (n : ℤ) - 1
  let delta := F64.sub b a
  if 0 < div then
    let step := F64.div delta (F64.ofInt div)
    (List.range n).map fun (k : ℕ) =>
      let y := if step = 0 then F64.mul (F64.div (F64.ofInt k) (F64.ofInt div)) delta
        else F64.mul (F64.ofInt k) step
      if k + 1 = n then b else F64.add y a
  else (List.range n).map fun (k : ℕ) => F64.add (F64.mul (F64.ofInt k) delta) a

/-- `get_xedges` (cartesian.py:21-25). -/
noncomputable def getXedges64 (length : ℝ) (ngrid : ℕ) (xmin : Option ℝ) : List ℝ :=
  let xmin := xmin.getD 0
  let xmax := F64.add xmin length
  linspace64 xmin xmax (ngrid+1)

/-- `xedges2mid` (cartesian.py:41-42). -/
noncomputable def xedges2mid64 (xedges : List ℝ) : List ℝ :=
  List.zipWith (fun a b => F64.mul (1/2) (F64.add a b)) xedges.dropLast xedges.tail

/-- `grid1d` with `return_edges=True` (cartesian.py:86-91); without it the first component. -/
noncomputable def grid1d64 (length : ℝ) (ngrid : ℕ) (xmin : Option ℝ) : List ℝ × List ℝ :=
  let xedges := getXedges64 length ngrid xmin
  (xedges2mid64 xedges, xedges)

/-- The edges of one axis of a set-up method, `np.linspace(xmin, xmax, numx+1)` (montecarlo/box2ring.py:93-94,
136-137, 188, montecarlo/cube2shell.py:59-61, 91, montecarlo/heal2ring.py:78-79, densegrid/box2ring.py:66-67,
112-113, densegrid/cube2shell.py:59-61, 102, densegrid/heal2ring.py:93-94). -/
noncomputable def setupEdges64 (xmin xmax : ℝ) (num : ℕ) : List ℝ := linspace64 xmin xmax (num+1)

/-- The mid points of one axis of a set-up method, `0.5*(edges[1:] + edges[:-1])` (montecarlo/box2ring.py:95-96,
138-139, montecarlo/cube2shell.py:62-64, densegrid/box2ring.py:68-69, 114-115). -/
noncomputable def setupMids64 (edges : List ℝ) : List ℝ :=
  List.zipWith (fun b a => F64.mul (1/2) (F64.add b a)) edges.tail edges.dropLast

/-- `self.dx = self.xedges[1] - self.xedges[0]` (densegrid/box2ring.py:70-71, densegrid/cube2shell.py:65-67,
montecarlo/box2ring.py:97-98, montecarlo/cube2shell.py:65-67). -/
noncomputable def cellWidth64 (edges : List ℝ) : ℝ := F64.sub (edges.getD 1 0) (edges.getD 0 0)

/-- `np.floor(x / d).astype(int)`, with `x` measured from the first edge, if it is between `0` and `n - 1`
(densegrid/box2ring.py:152-158, densegrid/cube2shell.py:144-153), else `none`: no cell is read. -/
noncomputable def cellIdx64 (x edge0 d : ℝ) (n : ℕ) : Option ℕ :=
  if d = 0 then none
  else
    let i := ⌊F64.div (F64.sub x edge0) d⌋
    if i ≥ 0 ∧ i < n then some i.toNat else none

/-- The cell along one axis of the box that the dense grid methods read for the coordinate `x`, with the box set up
from `xmin`, `xmax` and `num` (densegrid/box2ring.py:66-71, 152-158). -/
noncomputable def boxCell64 (xmin xmax : ℝ) (num : ℕ) (x : ℝ) : Option ℕ :=
  let edges := setupEdges64 xmin xmax num
  cellIdx64 x (edges.getD 0 0) (cellWidth64 edges) (setupMids64 edges).length

end Magpie.Grids64
