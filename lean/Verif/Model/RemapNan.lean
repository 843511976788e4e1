import Verif.Model.Remap

/-!
# Remapping of grids with NaN values (`/repo/magpie/src/remap_*_grid2grid.f90`)

The same code as `Verif/Model/Remap.lean` for source arrays in which a value may be NaN (or
infinite), written `none`.  A sum or product with a `none` is `none`, in particular
`0 * none = none`.  Grid edges, and therefore weights, are finite.
-/

namespace Magpie.Remap

variable {K : Type} [Field K] [LinearOrder K] [FloorRing K]

/-- `acc + w*v` with a value that may be NaN. -/
def fmaN (acc : Option K) (w : K) (v : Option K) : Option K :=
  match acc, v with
  | some a, some x => some (a + w*x)
  | _, _ => none

/-- The accumulation loops (remap_1d_grid2grid.f90:52-60, remap_2d_grid2grid.f90:76-90,
remap_3d_grid2grid.f90:97-113). The outer `none` is a read outside the array. -/
def accumN (f1 : List (Option K)) : Option K → Buf K → Option (Option K)
  | acc, [] => some acc
  | acc, (p, w) :: r =>
    if p ≠ -1 then
      match (if 0 ≤ p then f1[p.toNat]? else none) with
      | none => none
      | some v => accumN f1 (fmaN acc w v) r
    else accumN f1 acc r

/-- `remap_1d_grid2grid` (remap_1d_grid2grid.f90:46-62). -/
def remap1dN (a : AxisArgs K) (f1 : List (Option K)) (buf0 : Buf K) : Option (List (Option K)) :=
  (sweep (fun buf i =>
    let buf := a.pixel i buf
    (accumN f1 (some 0) buf).map fun v => (buf, v)) buf0 (List.range a.grid2)).map Prod.snd

/-- `remap_2d_grid2grid` (remap_2d_grid2grid.f90:63-93). -/
def remap2dN (ax ay : AxisArgs K) (f1 : List (Option K)) (xbuf0 ybuf0 : Buf K) :
    Option (List (Option K)) :=
  (sweep (fun (s : Buf K × Buf K) i =>
    let xb := ax.pixel i s.1
    (sweep (fun yb j =>
      let yb := ay.pixel j yb
      let pix := pix2d ay.grid1 xb yb
      let w := xb.flatMap fun (x : ℤ × K) => yb.map fun (y : ℤ × K) => x.2*y.2
      (accumN f1 (some 0) (pix.zip w)).map fun v => (yb, v)) s.2 (List.range ay.grid2)).map
        fun r => ((xb, r.1), r.2)) (xbuf0, ybuf0) (List.range ax.grid2)).map
    fun r => r.2.flatten

/-- `remap_3d_grid2grid` (remap_3d_grid2grid.f90:79-117). -/
def remap3dN (ax ay az : AxisArgs K) (f1 : List (Option K)) (xbuf0 ybuf0 zbuf0 : Buf K) :
    Option (List (Option K)) :=
  (sweep (fun (s : Buf K × Buf K × Buf K) i =>
    let xb := ax.pixel i s.1
    (sweep (fun (s : Buf K × Buf K) j =>
      let yb := ay.pixel j s.1
      (sweep (fun zb k =>
        let zb := az.pixel k zb
        let pix := pix3d ay.grid1 az.grid1 xb yb zb
        let w := xb.flatMap fun (x : ℤ × K) => yb.flatMap fun (y : ℤ × K) =>
          zb.map fun (z : ℤ × K) => x.2*y.2*z.2
        (accumN f1 (some 0) (pix.zip w)).map fun v => (zb, v)) s.2 (List.range az.grid2)).map
          fun r => ((yb, r.1), r.2)) s.2 (List.range ay.grid2)).map
        fun r => ((xb, r.1), r.2.flatten)) (xbuf0, ybuf0, zbuf0) (List.range ax.grid2)).map
    fun r => r.2.flatten

/-- `grid2grid1D` (grid2grid.py:28-38). -/
def grid2grid1DN (f1 : List (Option K)) (boxsize : K) (ngridout : ℕ) (origin originout : K)
    (boxsizeout : Option K) (buf0 : Buf K) : Py (Option (List (Option K))) :=
  match boxsizeout with
  | none => .error .typeError
  | some bo =>
    .ok (remap1dN (mkAxis origin boxsize f1.length originout bo ngridout) f1 buf0)

/-- `grid2grid2D` (grid2grid.py:68-108). -/
def grid2grid2DN (nx ny : ℕ) (f1 : List (Option K)) (boxsize : Arg K) (ngridout : Arg ℕ)
    (origin originout : Arg K) (boxsizeout : Option (Arg K)) (xbuf0 ybuf0 : Buf K) :
    Py (Option (Grid (Option K))) := do
  let (xb, yb) ← boxsize.two
  let (xbo, ybo) ← (match boxsizeout with
    | none => .ok (xb, yb)
    | some b => b.two)
  let (xo, yo) ← origin.two
  let (xoo, yoo) ← originout.two
  let (x2, y2) ← ngridout.two
  return (remap2dN (mkAxis xo xb nx xoo xbo x2) (mkAxis yo yb ny yoo ybo y2) f1 xbuf0 ybuf0).map
    fun d => ⟨d, [x2, y2]⟩

/-- `grid2grid3D` (grid2grid.py:138-184), with the unpacking error of line 174. -/
def grid2grid3DN (nx ny nz : ℕ) (f1 : List (Option K)) (boxsize : Arg K) (ngridout : Arg ℕ)
    (origin originout : Arg K) (boxsizeout : Option (Arg K)) (xbuf0 ybuf0 zbuf0 : Buf K) :
    Py (Option (Grid (Option K))) := do
  let (xb, yb, zb) ← boxsize.three
  let (xbo, ybo, zbo) ← (match boxsizeout with
    | none => .ok (xb, yb, zb)
    | some b => b.three)
  let (xo, yo, zo) ← origin.three
  let (xoo, yoo, zoo) ← originout.three
  let (x2, y2, z2) ← (match ngridout with
    | .scalar n => .ok (n, n, n)
    | .list (_ :: _ :: _ :: _) => .error .valueError
    | .list _ => .error .indexError)
  return (remap3dN (mkAxis xo xb nx xoo xbo x2) (mkAxis yo yb ny yoo ybo y2)
    (mkAxis zo zb nz zoo zbo z2) f1 xbuf0 ybuf0 zbuf0).map fun d => ⟨d, [x2, y2, z2]⟩

end Magpie.Remap
