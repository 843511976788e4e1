import Verif.Np

/-!
# Model of `/repo/magpie/src/remap_*.f90` and `/repo/magpie/remap/grid2grid.py`

The Fortran work arrays `pix` and `weights` of one axis are modelled together as a list of pairs.
A subroutine that leaves an `intent(out)` array unassigned leaves the previous contents in place
(the standard calls them undefined); the contents on entry of the outermost subroutine are an
arbitrary argument `buf0`.  A read outside an array is `none`.  `real(n)` (single precision in
the source) is exact for the integers that occur.
-/

namespace Magpie.Remap

variable {K : Type} [Field K] [LinearOrder K] [FloorRing K]

/-- Contents of the arrays `pix` and `weights` of one axis. -/
abbrev Buf (K : Type) := List (ℤ × K)

/-- `get_remap_pix_len` (remap_utils.f90:40-46). -/
def pixLen (x1min x1max : K) (grid1 : ℕ) (x2min x2max : K) (grid2 : ℕ) : ℤ :=
  let dx1 := (x1max - x1min)/(grid1 : K)
  let dx2 := (x2max - x2min)/(grid2 : K)
  ⌊dx2/dx1⌋ + 2

/-- `which_pix` (remap_utils.f90:80). -/
def whichPix (xmin dx x : K) : ℤ := ⌊(x - xmin)/dx⌋

/-- One pass of the loop on remap_utils.f90:243-265 (`pix1 ≠ pix2`), `pix` is
`pix1 + i - 1`. -/
def entryAcross (x1min dx1 : K) (grid1 : ℕ) (x2edge1 x2edge2 : K) (pix : ℤ) : ℤ × K :=
  if 0 ≤ pix ∧ pix < grid1 then
    let x1edge1 := x1min + dx1*pix
    let x1edge2 := x1min + dx1*(pix+1)
    if x2edge1 ≥ x1edge1 ∧ x2edge2 ≤ x1edge2 then
      (pix, (x2edge2 - x2edge1)/(x2edge2 - x2edge1))
    else if x2edge1 < x1edge1 ∧ x2edge2 ≤ x1edge2 ∧ x2edge2 > x1edge1 then
      (pix, (x2edge2 - x1edge1)/(x2edge2 - x2edge1))
    else if x2edge1 ≥ x1edge1 ∧ x2edge1 < x1edge2 ∧ x2edge2 > x1edge2 then
      (pix, (x1edge2 - x2edge1)/(x2edge2 - x2edge1))
    else if x2edge1 < x1edge1 ∧ x2edge2 > x1edge2 then
      (pix, (x1edge2 - x1edge1)/(x2edge2 - x2edge1))
    else (-1, 0)
  else (-1, 0)

/-- One pass of the loop on remap_utils.f90:267-279 (`pix1 = pix2 ≠ -1`). -/
def entrySame (grid1 : ℕ) (pix1 : ℤ) (i : ℕ) : ℤ × K :=
  let pix := pix1 + i
  if 0 ≤ pix ∧ pix < grid1 then (pix, if i = 0 then 1 else 0) else (-1, 0)

/-- `remap_1d_grid2grid_pixel` (remap_utils.f90:230-280).  `buf` is what the arrays `pix` and
`weights` hold on entry; it is also what they hold on return when neither branch is taken
(`pix1 = pix2 = -1`). The loop variable starts at 0 here. -/
def remapPixel (x1min x1max : K) (grid1 : ℕ) (x2min x2max : K) (grid2 which2pix : ℕ) (pixlen : ℤ)
    (buf : Buf K) : Buf K :=
  let dx1 := (x1max - x1min)/(grid1 : K)
  let dx2 := (x2max - x2min)/(grid2 : K)
  let x2edge1 := x2min + dx2*(which2pix : K)
  let x2edge2 := x2min + dx2*((which2pix : K) + 1)
  let pix1 := whichPix x1min dx1 x2edge1
  let pix2 := whichPix x1min dx1 x2edge2
  if pix1 ≠ pix2 then
    (List.range pixlen.toNat).map fun (i : ℕ) =>
      entryAcross x1min dx1 grid1 x2edge1 x2edge2 (pix1 + i)
  else if pix1 ≠ -1 then
    (List.range pixlen.toNat).map fun (i : ℕ) => entrySame grid1 pix1 i
  else buf

/-- `f1(pix+1)`: `none` when the index is outside the array. -/
def readAt (f1 : List K) (pix : ℤ) : Option K := if 0 ≤ pix then f1[pix.toNat]? else none

/-- The accumulation loops (remap_1d_grid2grid.f90:52-60, remap_2d_grid2grid.f90:76-90,
remap_3d_grid2grid.f90:97-113): `acc + Σ weight*f1(pix+1)` over the entries with
`pix ≠ -1`. -/
def accum (f1 : List K) : K → Buf K → Option K
  | acc, [] => some acc
  | acc, (p, w) :: r =>
    if p ≠ -1 then
      match readAt f1 p with
      | none => none
      | some v => accum f1 (acc + w*v) r
    else accum f1 acc r

/-- A Fortran `do` loop over `is` that threads the work arrays `s` and appends one output value per
pass. -/
def sweep {S A : Type} (step : S → ℕ → Option (S × A)) : S → List ℕ → Option (S × List A)
  | s, [] => some (s, [])
  | s, i :: is =>
    match step s i with
    | none => none
    | some (s', a) =>
      match sweep step s' is with
      | none => none
      | some (s'', as) => some (s'', a :: as)

/-- The arguments describing one axis: `min`, `max` and number of cells of grid 1 and grid 2, and
the length of the work arrays. -/
structure AxisArgs (K : Type) where
  x1min : K
  x1max : K
  grid1 : ℕ
  x2min : K
  x2max : K
  grid2 : ℕ
  pixlen : ℤ

/-- `call remap_1d_grid2grid_pixel(...)` for one axis. -/
def AxisArgs.pixel (a : AxisArgs K) (which2pix : ℕ) (buf : Buf K) : Buf K :=
  remapPixel a.x1min a.x1max a.grid1 a.x2min a.x2max a.grid2 which2pix a.pixlen buf

/-- `remap_1d_grid2grid` (remap_1d_grid2grid.f90:46-62). -/
def remap1d (a : AxisArgs K) (f1 : List K) (buf0 : Buf K) : Option (List K) :=
  (sweep (fun buf i =>
    let buf := a.pixel i buf
    (accum f1 0 buf).map fun v => (buf, v)) buf0 (List.range a.grid2)).map Prod.snd

/-- `pix1dto2d` (remap_utils.f90:113-126): the flattened pixel of every pair of entries, `-1` when
one of them is `-1`. -/
def pix2d (ygrid : ℕ) (xb yb : Buf K) : List ℤ :=
  xb.flatMap fun (x : ℤ × K) => yb.map fun (y : ℤ × K) =>
    if x.1 ≠ -1 ∧ y.1 ≠ -1 then y.1 + ygrid*x.1 else -1

/-- `remap_2d_grid2grid` (remap_2d_grid2grid.f90:63-93).  The output index
`ywhich2pix + y2grid*xwhich2pix + 1` runs through `f2` in order, so values are appended. -/
def remap2d (ax ay : AxisArgs K) (f1 : List K) (xbuf0 ybuf0 : Buf K) : Option (List K) :=
  (sweep (fun (s : Buf K × Buf K) i =>
    let xb := ax.pixel i s.1
    (sweep (fun yb j =>
      let yb := ay.pixel j yb
      let pix := pix2d ay.grid1 xb yb
      let w := xb.flatMap fun (x : ℤ × K) => yb.map fun (y : ℤ × K) => x.2*y.2
      (accum f1 0 (pix.zip w)).map fun v => (yb, v)) s.2 (List.range ay.grid2)).map
        fun r => ((xb, r.1), r.2)) (xbuf0, ybuf0) (List.range ax.grid2)).map
    fun r => r.2.flatten

/-- `pix1dto3d` (remap_utils.f90:163-178). -/
def pix3d (ygrid zgrid : ℕ) (xb yb zb : Buf K) : List ℤ :=
  xb.flatMap fun (x : ℤ × K) => yb.flatMap fun (y : ℤ × K) => zb.map fun (z : ℤ × K) =>
    if x.1 ≠ -1 ∧ y.1 ≠ -1 ∧ z.1 ≠ -1 then z.1 + zgrid*(y.1 + ygrid*x.1) else -1

/-- `remap_3d_grid2grid` (remap_3d_grid2grid.f90:79-117). -/
def remap3d (ax ay az : AxisArgs K) (f1 : List K) (xbuf0 ybuf0 zbuf0 : Buf K) :
    Option (List K) :=
  (sweep (fun (s : Buf K × Buf K × Buf K) i =>
    let xb := ax.pixel i s.1
    (sweep (fun (s : Buf K × Buf K) j =>
      let yb := ay.pixel j s.1
      (sweep (fun zb k =>
        let zb := az.pixel k zb
        let pix := pix3d ay.grid1 az.grid1 xb yb zb
        let w := xb.flatMap fun (x : ℤ × K) => yb.flatMap fun (y : ℤ × K) =>
          zb.map fun (z : ℤ × K) => x.2*y.2*z.2
        (accum f1 0 (pix.zip w)).map fun v => (zb, v)) s.2 (List.range az.grid2)).map
          fun r => ((yb, r.1), r.2)) s.2 (List.range ay.grid2)).map
        fun r => ((xb, r.1), r.2.flatten)) (xbuf0, ybuf0, zbuf0) (List.range ax.grid2)).map
    fun r => r.2.flatten

/-! ## The Python wrappers -/

/-- Arguments passed to the Fortran routines for one axis (the five lines
`x1min = ...`, `x1max = ...`, `x2min = ...`, `x2max = ...`, `xpixlen = ...` of grid2grid.py). -/
def mkAxis (origin boxsize : K) (grid1 : ℕ) (originout boxsizeout : K) (grid2 : ℕ) : AxisArgs K :=
  let x1min := origin
  let x1max := origin + boxsize
  let x2min := originout
  let x2max := originout + boxsizeout
  ⟨x1min, x1max, grid1, x2min, x2max, grid2, pixLen x1min x1max grid1 x2min x2max grid2⟩

/-- `grid2grid1D` (grid2grid.py:28-38).  With `boxsizeout=None`, line 31 adds a float and `None`.
The inner `none` is an out of bounds read in the Fortran code. -/
def grid2grid1D (f1 : List K) (boxsize : K) (ngridout : ℕ) (origin originout : K)
    (boxsizeout : Option K) (buf0 : Buf K) : Py (Option (List K)) :=
  match boxsizeout with
  | none => .error .typeError
  | some bo =>
    .ok (remap1d (mkAxis origin boxsize f1.length originout bo ngridout) f1 buf0)

/-- An argument that is a scalar or a list with one entry per axis. -/
inductive Arg (α : Type) where
  | scalar (a : α)
  | list (l : List α)

/-- `x, y = arg, arg` or `arg[0], arg[1]`. -/
def Arg.two {α : Type} : Arg α → Py (α × α)
  | .scalar a => .ok (a, a)
  | .list (a :: b :: _) => .ok (a, b)
  | .list _ => .error .indexError

/-- `x, y, z = arg, arg, arg` or `arg[0], arg[1], arg[2]`. -/
def Arg.three {α : Type} : Arg α → Py (α × α × α)
  | .scalar a => .ok (a, a, a)
  | .list (a :: b :: c :: _) => .ok (a, b, c)
  | .list _ => .error .indexError

/-- Result of a grid2grid call: flattened values and shape. -/
structure Grid (K : Type) where
  data : List K
  shape : List ℕ

/-- `grid2grid2D` (grid2grid.py:68-108), for a 2d array given by its two sizes and its
flattened content. -/
def grid2grid2D (nx ny : ℕ) (f1 : List K) (boxsize : Arg K) (ngridout : Arg ℕ)
    (origin originout : Arg K) (boxsizeout : Option (Arg K)) (xbuf0 ybuf0 : Buf K) :
    Py (Option (Grid K)) := do
  let (xb, yb) ← boxsize.two
  let (xbo, ybo) ← (match boxsizeout with
    | none => .ok (xb, yb)
    | some b => b.two)
  let (xo, yo) ← origin.two
  let (xoo, yoo) ← originout.two
  let (x2, y2) ← ngridout.two
  return (remap2d (mkAxis xo xb nx xoo xbo x2) (mkAxis yo yb ny yoo ybo y2) f1 xbuf0 ybuf0).map
    fun d => ⟨d, [x2, y2]⟩

/-- `grid2grid3D` (grid2grid.py:138-184). For a list `ngridout`, line 174 unpacks three
values into two names, which is a `ValueError`. -/
def grid2grid3D (nx ny nz : ℕ) (f1 : List K) (boxsize : Arg K) (ngridout : Arg ℕ)
    (origin originout : Arg K) (boxsizeout : Option (Arg K)) (xbuf0 ybuf0 zbuf0 : Buf K) :
    Py (Option (Grid K)) := do
  let (xb, yb, zb) ← boxsize.three
  let (xbo, ybo, zbo) ← (match boxsizeout with
    | none => .ok (xb, yb, zb)
    | some b => b.three)
  let (xo, yo, zo) ← origin.three
  let (xoo, yoo, zoo) ← originout.three
  let (x2, y2, z2) ← (match ngridout with
    | .scalar n => .ok (n, n, n)
    | .list (_ :: _ :: _ :: _) => .error .valueError
    | .list _ => .error .indexError)
  return (remap3d (mkAxis xo xb nx xoo xbo x2) (mkAxis yo yb ny yoo ybo y2)
    (mkAxis zo zb nz zoo zbo z2) f1 xbuf0 ybuf0 zbuf0).map fun d => ⟨d, [x2, y2, z2]⟩

end Magpie.Remap
