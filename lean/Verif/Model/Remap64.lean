import Verif.Model.Remap
import Verif.Model.Float64

/-!
# Model of `/repo/magpie/src/remap_*.f90` and `/repo/magpie/remap/grid2grid.py` in floating point

The functions of `Verif/Model/Remap.lean` again with every `real(kind=dp)` operation rounded to
binary64.  `real(n)` without a kind is single precision: it rounds the integer `n` to 24 binary
digits.  `a + b*c` is a rounded product and a rounded sum, or, when the compiler contracts it
(`fused = true`, GNU Fortran on machines with such an instruction), one operation with a single
rounding.  Simplifications: no overflow, neither of floats nor of the default integers that hold pixel
numbers; no signed zeros; the compiler does not reorder operations; `0/0`, which would be a NaN, is not
modelled (the theorems show that the divisors are not 0, or do not depend on the quotient).
-/

namespace Magpie.Remap64
open Magpie.Remap

/-- `real(n)`: the integer rounded to single precision, to nearest, ties to even. -/
noncomputable def real4 (n : ℤ) : ℝ :=
  (F64.rne ((n:ℝ) / (2:ℝ)^(Int.log 2 |(n:ℝ)| - 23)) : ℝ) * (2:ℝ)^(Int.log 2 |(n:ℝ)| - 23)

/-- `a + b*c` on floats. -/
noncomputable def madd (fused : Bool) (a b c : ℝ) : ℝ :=
  if fused then F64.fl (a + b*c) else F64.add a (F64.mul b c)

/-- `get_remap_pix_len` (remap_utils.f90:40-46). -/
noncomputable def pixLen64 (x1min x1max : ℝ) (grid1 : ℕ) (x2min x2max : ℝ) (grid2 : ℕ) : ℤ :=
  let dx1 := F64.div (F64.sub x1max x1min) (real4 grid1)
  let dx2 := F64.div (F64.sub x2max x2min) (real4 grid2)
  ⌊F64.div dx2 dx1⌋ + 2

/-- `which_pix` (remap_utils.f90:80). -/
noncomputable def whichPix64 (xmin dx x : ℝ) : ℤ := ⌊F64.div (F64.sub x xmin) dx⌋

/-- One pass of the loop on remap_utils.f90:243-265 (`pix1 ≠ pix2`), `pix` is
`pix1 + i - 1`. -/
noncomputable def entryAcross64 (fused : Bool) (x1min dx1 : ℝ) (grid1 : ℕ) (x2edge1 x2edge2 : ℝ) (pix : ℤ) : ℤ × ℝ :=
  if 0 ≤ pix ∧ pix < grid1 then
    let x1edge1 := madd fused x1min dx1 (real4 pix)
    let x1edge2 := madd fused x1min dx1 (real4 (pix+1))
    if x2edge1 ≥ x1edge1 ∧ x2edge2 ≤ x1edge2 then
      (pix, F64.div (F64.sub x2edge2 x2edge1) (F64.sub x2edge2 x2edge1))
    else if x2edge1 < x1edge1 ∧ x2edge2 ≤ x1edge2 ∧ x2edge2 > x1edge1 then
      (pix, F64.div (F64.sub x2edge2 x1edge1) (F64.sub x2edge2 x2edge1))
    else if x2edge1 ≥ x1edge1 ∧ x2edge1 < x1edge2 ∧ x2edge2 > x1edge2 then
      (pix, F64.div (F64.sub x1edge2 x2edge1) (F64.sub x2edge2 x2edge1))
    else if x2edge1 < x1edge1 ∧ x2edge2 > x1edge2 then
      (pix, F64.div (F64.sub x1edge2 x1edge1) (F64.sub x2edge2 x2edge1))
    else (-1, 0)
  else (-1, 0)

/-- `remap_1d_grid2grid_pixel` (remap_utils.f90:230-280); `entrySame`, which only holds the numbers 0 and 1, is
as in `Verif/Model/Remap.lean`. -/
noncomputable def remapPixel64 (fused : Bool) (x1min x1max : ℝ) (grid1 : ℕ) (x2min x2max : ℝ) (grid2 which2pix : ℕ)
    (pixlen : ℤ) (buf : Buf ℝ) : Buf ℝ :=
  let dx1 := F64.div (F64.sub x1max x1min) (real4 grid1)
  let dx2 := F64.div (F64.sub x2max x2min) (real4 grid2)
  let x2edge1 := madd fused x2min dx2 (real4 which2pix)
  let x2edge2 := madd fused x2min dx2 (real4 (which2pix + 1))
  let pix1 := whichPix64 x1min dx1 x2edge1
  let pix2 := whichPix64 x1min dx1 x2edge2
  if pix1 ≠ pix2 then
    (List.range pixlen.toNat).map fun (i : ℕ) =>
      entryAcross64 fused x1min dx1 grid1 x2edge1 x2edge2 (pix1 + i)
  else if pix1 ≠ -1 then
    (List.range pixlen.toNat).map fun (i : ℕ) => entrySame grid1 pix1 i
  else buf

/-- The accumulation loops (remap_1d_grid2grid.f90:52-60, remap_2d_grid2grid.f90:76-90,
remap_3d_grid2grid.f90:97-113): add `weight*f1(pix+1)` for the entries with `pix ≠ -1`. -/
noncomputable def accum64 (fused : Bool) (f1 : List ℝ) : ℝ → Buf ℝ → Option ℝ
  | acc, [] => some acc
  | acc, (p, w) :: r =>
    if p ≠ -1 then
      match readAt f1 p with
      | none => none
      | some v => accum64 fused f1 (madd fused acc w v) r
    else accum64 fused f1 acc r

/-- `call remap_1d_grid2grid_pixel(...)` for one axis. -/
noncomputable def pixel64 (fused : Bool) (a : AxisArgs ℝ) (which2pix : ℕ) (buf : Buf ℝ) : Buf ℝ :=
  remapPixel64 fused a.x1min a.x1max a.grid1 a.x2min a.x2max a.grid2 which2pix a.pixlen buf

/-- `remap_1d_grid2grid` (remap_1d_grid2grid.f90:46-62). -/
noncomputable def remap1d64 (fused : Bool) (a : AxisArgs ℝ) (f1 : List ℝ) (buf0 : Buf ℝ) : Option (List ℝ) :=
  (sweep (fun buf i =>
    let buf := pixel64 fused a i buf
    (accum64 fused f1 0 buf).map fun v => (buf, v)) buf0 (List.range a.grid2)).map Prod.snd

/-- `remap_2d_grid2grid` (remap_2d_grid2grid.f90:63-93). -/
noncomputable def remap2d64 (fused : Bool) (ax ay : AxisArgs ℝ) (f1 : List ℝ) (xbuf0 ybuf0 : Buf ℝ) : Option (List ℝ) :=
  (sweep (fun (s : Buf ℝ × Buf ℝ) i =>
    let xb := pixel64 fused ax i s.1
    (sweep (fun yb j =>
      let yb := pixel64 fused ay j yb
      let pix := pix2d ay.grid1 xb yb
      let w := xb.flatMap fun (x : ℤ × ℝ) => yb.map fun (y : ℤ × ℝ) => F64.mul x.2 y.2
      (accum64 fused f1 0 (pix.zip w)).map fun v => (yb, v)) s.2 (List.range ay.grid2)).map
        fun r => ((xb, r.1), r.2)) (xbuf0, ybuf0) (List.range ax.grid2)).map
    fun r => r.2.flatten

/-- `remap_3d_grid2grid` (remap_3d_grid2grid.f90:79-117). -/
noncomputable def remap3d64 (fused : Bool) (ax ay az : AxisArgs ℝ) (f1 : List ℝ) (xbuf0 ybuf0 zbuf0 : Buf ℝ) :
    Option (List ℝ) :=
  (sweep (fun (s : Buf ℝ × Buf ℝ × Buf ℝ) i =>
    let xb := pixel64 fused ax i s.1
    (sweep (fun (s : Buf ℝ × Buf ℝ) j =>
      let yb := pixel64 fused ay j s.1
      (sweep (fun zb k =>
        let zb := pixel64 fused az k zb
        let pix := pix3d ay.grid1 az.grid1 xb yb zb
        let w := xb.flatMap fun (x : ℤ × ℝ) => yb.flatMap fun (y : ℤ × ℝ) =>
          zb.map fun (z : ℤ × ℝ) => F64.mul (F64.mul x.2 y.2) z.2
        (accum64 fused f1 0 (pix.zip w)).map fun v => (zb, v)) s.2 (List.range az.grid2)).map
          fun r => ((yb, r.1), r.2)) s.2 (List.range ay.grid2)).map
        fun r => ((xb, r.1), r.2.flatten)) (xbuf0, ybuf0, zbuf0) (List.range ax.grid2)).map
    fun r => r.2.flatten

/-! ## The Python wrappers -/

/-- Arguments passed to the Fortran routines for one axis (the five lines
`x1min = ...`, `x1max = ...`, `x2min = ...`, `x2max = ...`, `xpixlen = ...` of grid2grid.py). -/
noncomputable def mkAxis64 (origin boxsize : ℝ) (grid1 : ℕ) (originout boxsizeout : ℝ) (grid2 : ℕ) : AxisArgs ℝ :=
  let x1min := origin
  let x1max := F64.add origin boxsize
  let x2min := originout
  let x2max := F64.add originout boxsizeout
  ⟨x1min, x1max, grid1, x2min, x2max, grid2, pixLen64 x1min x1max grid1 x2min x2max grid2⟩

/-- `grid2grid1D` (grid2grid.py:28-38).  With `boxsizeout=None`, line 31 adds a float and `None`. -/
noncomputable def grid2grid1D64 (fused : Bool) (f1 : List ℝ) (boxsize : ℝ) (ngridout : ℕ) (origin originout : ℝ)
    (boxsizeout : Option ℝ) (buf0 : Buf ℝ) : Py (Option (List ℝ)) :=
  match boxsizeout with
  | none => .error .typeError
  | some bo =>
    .ok (remap1d64 fused (mkAxis64 origin boxsize f1.length originout bo ngridout) f1 buf0)

/-- `grid2grid2D` (grid2grid.py:68-108). -/
noncomputable def grid2grid2D64 (fused : Bool) (nx ny : ℕ) (f1 : List ℝ) (boxsize : Arg ℝ) (ngridout : Arg ℕ)
    (origin originout : Arg ℝ) (boxsizeout : Option (Arg ℝ)) (xbuf0 ybuf0 : Buf ℝ) :
    Py (Option (Grid ℝ)) := do
  let (xb, yb) ← boxsize.two
  let (xbo, ybo) ← (match boxsizeout with
    | none => .ok (xb, yb)
    | some b => b.two)
  let (xo, yo) ← origin.two
  let (xoo, yoo) ← originout.two
  let (x2, y2) ← ngridout.two
  return (remap2d64 fused (mkAxis64 xo xb nx xoo xbo x2) (mkAxis64 yo yb ny yoo ybo y2) f1 xbuf0 ybuf0).map
    fun d => ⟨d, [x2, y2]⟩

/-- `grid2grid3D` (grid2grid.py:138-184), with the unpacking error of line 174. -/
noncomputable def grid2grid3D64 (fused : Bool) (nx ny nz : ℕ) (f1 : List ℝ) (boxsize : Arg ℝ) (ngridout : Arg ℕ)
    (origin originout : Arg ℝ) (boxsizeout : Option (Arg ℝ)) (xbuf0 ybuf0 zbuf0 : Buf ℝ) :
    Py (Option (Grid ℝ)) := do
  let (xb, yb, zb) ← boxsize.three
  let (xbo, ybo, zbo) ← (match boxsizeout with
    | none => .ok (xb, yb, zb)
    | some b => b.three)
  let (xo, yo, zo) ← origin.three
  let (xoo, yoo, zoo) ← originout.three
  let (x2, y2, z2) ← (match ngridout with
    | .scalar n => .ok (n, n, n)
    | .list (_ :: _ :: _ :: _) => .error .valueError
    | .list _ => .error .indexError)
  return (remap3d64 fused (mkAxis64 xo xb nx xoo xbo x2) (mkAxis64 yo yb ny yoo ybo y2)
    (mkAxis64 zo zb nz zoo zbo z2) f1 xbuf0 ybuf0 zbuf0).map fun d => ⟨d, [x2, y2, z2]⟩

end Magpie.Remap64
