import Verif.Np
import Verif.Model.Remap
import Mathlib.Analysis.SpecialFunctions.Trigonometric.Basic

/-!
# Model of `/repo/magpie/grids/cartesian.py` and `/repo/magpie/grids/polar.py`

Numbers of cells are natural numbers. A 2d array is the list of its rows, a 3d array the list of its
planes. `Arg` (number or list) is in `Verif/Model/Remap.lean`.
-/

namespace Magpie.Grids
open Magpie.Remap

variable {K : Type} [Field K]

/-- `get_xedges` (cartesian.py:21-25). -/
def getXedges (length : K) (ngrid : ℕ) (xmin : Option K) : List K :=
  let xmin := xmin.getD 0
  let xmax := xmin + length
  linspace xmin xmax (ngrid+1)

/-- `xedges2mid` (cartesian.py:41-42). -/
def xedges2mid (xedges : List K) : List K :=
  List.zipWith (fun a b => 1/2*(a + b)) xedges.dropLast xedges.tail

/-- `xmid2edges` (cartesian.py:58-62); `IndexError` for fewer than two mid points. -/
def xmid2edges (xmid : List K) : Py (List K) :=
  match xmid with
  | m0 :: m1 :: ms =>
    let dx := m1 - m0
    .ok (((m0 :: m1 :: ms).map (· - dx)) ++ [(m0 :: m1 :: ms).getLastD 0 + dx])
  | _ => .error .indexError

/-- `grid1d` with `return_edges=True` (cartesian.py:86-91); without it the first component. -/
def grid1d (length : K) (ngrid : ℕ) (xmin : Option K) : List K × List K :=
  let xedges := getXedges length ngrid xmin
  (xedges2mid xedges, xedges)

/-- The four results of `grid2d`. -/
structure Grid2 (K : Type) where
  x2d : List (List K)
  y2d : List (List K)
  xmid : List K
  ymid : List K

/-- `np.meshgrid(x, y, indexing='ij')` (NumPy): first index along `x`. -/
def meshgrid2 (x y : List K) : List (List K) × List (List K) :=
  (x.map fun a => y.map fun _ => a, x.map fun _ => y)

/-- `grid2d` with `return1d=True` (cartesian.py:115-127); without it the first two components. -/
def grid2d (lengths : Arg K) (ngrids : Arg ℕ) (mins : List (Option K)) : Py (Grid2 K) := do
  let (lx, ly) ← lengths.two
  let (nx, ny) ← ngrids.two
  let (mx, my) ← (Arg.list mins).two
  let xmid := xedges2mid (getXedges lx nx mx)
  let ymid := xedges2mid (getXedges ly ny my)
  let (x2d, y2d) := meshgrid2 xmid ymid
  return ⟨x2d, y2d, xmid, ymid⟩

/-- The six results of `grid3d`. -/
structure Grid3 (K : Type) where
  x3d : List (List (List K))
  y3d : List (List (List K))
  z3d : List (List (List K))
  xmid : List K
  ymid : List K
  zmid : List K

/-- `grid3d` with `return1d=True` (cartesian.py:151-165), `np.meshgrid(…, indexing='ij')` written
out. -/
def grid3d (lengths : Arg K) (ngrids : Arg ℕ) (mins : List (Option K)) : Py (Grid3 K) := do
  let (lx, ly, lz) ← lengths.three
  let (nx, ny, nz) ← ngrids.three
  let (mx, my, mz) ← (Arg.list mins).three
  let xmid := xedges2mid (getXedges lx nx mx)
  let ymid := xedges2mid (getXedges ly ny my)
  let zmid := xedges2mid (getXedges lz nz mz)
  return ⟨xmid.map fun a => ymid.map fun _ => zmid.map fun _ => a,
    xmid.map fun _ => ymid.map fun b => zmid.map fun _ => b,
    xmid.map fun _ => ymid.map fun _ => zmid, xmid, ymid, zmid⟩

/-- `polargrid` (polar.py:34-42). -/
def polargrid (nr nphi : ℕ) (rmin rmax phimin phimax : K) : Py (Grid2 K) :=
  grid2d (.list [rmax - rmin, phimax - phimin]) (.list [nr, nphi]) [some rmin, some phimin]

/-- `np.concatenate` of a list of arrays: `ValueError` when there is none. -/
def concatenate {α : Type} : List (List α) → Py (List α)
  | [] => .error .valueError
  | l => .ok l.flatten

/-- `polarEA_grid` (polar.py:62-66). -/
noncomputable def polarEAGrid (nr : ℕ) (rmax : ℝ) (baseNphi : ℕ) : Py (List ℝ × List ℝ) := do
  let redges := getXedges rmax nr none
  let rmid := xedges2mid redges
  let r ← concatenate ((List.range nr).map fun i =>
    (List.range (baseNphi*(2*i+1))).map fun _ => rmid.getD i 0)
  let p ← concatenate ((List.range nr).map fun i =>
    xedges2mid (getXedges (2*Real.pi) (baseNphi*(2*i+1)) none))
  return (r, p)

/-- `polarEA_area` (polar.py:86-88), of Python numbers: `ZeroDivisionError` for `nr = 0` or `base_nphi = 0`. -/
noncomputable def polarEAArea (nr : ℕ) (rmax : ℝ) (baseNphi : ℕ) : Py ℝ := do
  if nr = 0 then .error .zeroDivisionError
  let area := Real.pi * (rmax/(nr:ℝ))^2
  if baseNphi = 0 then .error .zeroDivisionError
  return area/(baseNphi:ℝ)

/-- `polarEA_npix` (polar.py:106-107). -/
def polarEANpix (nr baseNphi : ℕ) : ℕ := baseNphi*nr^2

end Magpie.Grids
