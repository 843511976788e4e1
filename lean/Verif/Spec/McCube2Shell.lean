import Verif.Model.McCube2Shell
import Verif.Spec.McBox2Ring

/-!
# Monte Carlo `Cube2Shell`: random points and the voxels they hit
-/

namespace Magpie.McCube
open Magpie.Cube Magpie.Spec Magpie.Radial Magpie.Mc

/-- The arguments of `setup_cube` describe a cuboid divided into voxels. -/
structure CubeOk (C : CubeArgs) : Prop where
  numx : 0 < C.numx
  numy : 0 < C.numy
  numz : 0 < C.numz
  hx : C.xmin < C.xmax
  hy : C.ymin < C.ymax
  hz : C.zmin < C.zmax

/-- A call of `setup_polar_lin` or `setup_polar_log`. -/
inductive Shells where
  | lin (A : ShellArgs)
  | log (A : ShellArgs) (addzero : Bool)

/-- The arguments of the call. -/
def Shells.args : Shells → ShellArgs
  | .lin A => A
  | .log A _ => A

/-- The call. -/
noncomputable def Shells.setup : Shells → Meth State Unit
  | .lin A => setupPolarLin A
  | .log A z => setupPolarLog A z

/-- The arguments meet the assertions, there are at least two shells if they are spaced linearly, and
`nside` is positive. -/
def Shells.Ok : Shells → Prop
  | .lin A => 0 ≤ A.rmin ∧ A.rmin < A.rmax ∧ 2 ≤ A.numr ∧ 0 < A.nside ∧ A.center.length = 3
  | .log A _ => 0 < A.rmin ∧ A.rmin < A.rmax ∧ 1 ≤ A.numr ∧ 0 < A.nside ∧ A.center.length = 3

/-- Number of shells. -/
def Shells.numr (G : Shells) : ℕ := G.args.numr.toNat

/-- Number of HEALPix pixels of a shell. -/
def Shells.npix (G : Shells) : ℕ := 12*G.args.nside.toNat^2

/-- The radius of edge `i`. -/
noncomputable def Shells.rEdge : Shells → ℕ → ℝ
  | .lin A, i => edgeAt A.rmin A.rmax A.numr.toNat i
  | .log A false, i => A.rmin*(A.rmax/A.rmin)^((i:ℝ)/A.numr.toNat)
  | .log A true, 0 => 0
  | .log A true, i+1 => A.rmin*(A.rmax/A.rmin)^((i:ℝ)/(A.numr.toNat - 1 : ℕ))

/-- The point of shell `i` in direction `(phi, theta)` that the variate `u` gives (see C57 for the law of
the radius). -/
noncomputable def Shells.point (G : Shells) (i : ℕ) (u : ℝ) (dir : ℝ × ℝ) : ℝ × ℝ × ℝ :=
  let r := ((G.rEdge i)^3 + u*((G.rEdge (i+1))^3 - (G.rEdge i)^3))^((1:ℝ)/3)
  (r*Real.sin dir.2*Real.cos dir.1 + G.args.center.getD 0 0,
   r*Real.sin dir.2*Real.sin dir.1 + G.args.center.getD 1 0,
   r*Real.cos dir.2 + G.args.center.getD 2 0)

/-- The random points of shell `i` with the given directions. -/
noncomputable def Shells.points (G : Shells) (i : ℕ) (ur : List ℝ) (dirs : List (ℝ × ℝ)) : List (ℝ × ℝ × ℝ) :=
  List.zipWith (G.point i) ur dirs

/-- The variates are `mcSize` numbers in `[0, 1)` each. -/
def Draws (mcSize : ℕ) (d : Draw) : Prop :=
  (d.ux.length = mcSize ∧ ∀ u ∈ d.ux, 0 ≤ u ∧ u < 1) ∧ (d.uy.length = mcSize ∧ ∀ u ∈ d.uy, 0 ≤ u ∧ u < 1) ∧
    d.ur.length = mcSize ∧ ∀ u ∈ d.ur, 0 ≤ u ∧ u < 1

/-- `dirs i j` are the directions that `randoms_healpix_pixel` makes of the variates for pixel `j` of
shell `i`; by C13 they exist and are in pixel `j`. -/
def Samples (G : Shells) (draws : ℕ → ℕ → Draw) (dirs : ℕ → ℕ → List (ℝ × ℝ)) : Prop :=
  ∀ i j, i < G.numr → j < G.npix →
    Randoms.randomsHealpixPixel (draws i j).ux (draws i j).uy j G.args.nside
      = .ok ((dirs i j).map fun s => some s.1, (dirs i j).map fun s => some s.2)

/-- The point is in voxel `a` along `x`, `b` along `y`, `c` along `z`. -/
def InVoxel (C : CubeArgs) (pt : ℝ × ℝ × ℝ) (a b c : ℕ) : Prop :=
  InBin C.xmin C.xmax C.numx.toNat a pt.1 ∧ InBin C.ymin C.ymax C.numy.toNat b pt.2.1 ∧
    InBin C.zmin C.zmax C.numz.toNat c pt.2.2

/-- What an array of values `v` with the axes in the order `y`, `x`, `z` (as in `x3d`) has at a point;
nothing (`none`) outside the cube. -/
def Reads {α : Type} (C : CubeArgs) (v : ℕ → ℕ → ℕ → α) (pt : ℝ × ℝ × ℝ) (g : Option α) : Prop :=
  (∀ a b c, InVoxel C pt a b c → g = some (v b a c)) ∧ ((¬ ∃ a b c, InVoxel C pt a b c) → g = none)

/-- The array has the shape of `x3d`. -/
def Fits {α : Type} (C : CubeArgs) (a : Arr3 α) : Prop :=
  a.n0 = C.numy.toNat ∧ a.n1 = C.numx.toNat ∧ a.n2 = C.numz.toNat

/-- Number of voxels with at least one of the points. -/
noncomputable def touched (C : CubeArgs) (pts : List (ℝ × ℝ × ℝ)) : ℕ :=
  {c : ℕ × ℕ × ℕ | ∃ pt ∈ pts, InVoxel C pt c.1 c.2.1 c.2.2}.ncard

/-- The mean of a list, `hp.UNSEEN` for an empty list. -/
noncomputable def meanOrUnseen (l : List ℝ) : ℝ := if l = [] then unseen else l.sum/l.length

/-- The mean of the second components weighted by the first; `hp.UNSEEN` for an empty list, not a number
(`none`) for weights with sum zero. -/
noncomputable def wmeanOrUnseen (l : List (ℝ × ℝ)) : Option ℝ := if l = [] then some unseen else wmean l

/-- In every shell two of the pixels touch different numbers of voxels. -/
def RowsDiffer (C : CubeArgs) (G : Shells) (draws : ℕ → ℕ → Draw) (dirs : ℕ → ℕ → List (ℝ × ℝ)) : Prop :=
  ∀ i, i < G.numr → ∃ j k, j < G.npix ∧ k < G.npix ∧
    touched C (G.points i (draws i j).ur (dirs i j)) ≠ touched C (G.points i (draws i k).ur (dirs i k))

/-- All pixels of all shells touch `k` voxels. -/
def AllTouch (C : CubeArgs) (G : Shells) (draws : ℕ → ℕ → Draw) (dirs : ℕ → ℕ → List (ℝ × ℝ)) (k : ℕ) : Prop :=
  ∀ i j, i < G.numr → j < G.npix → touched C (G.points i (draws i j).ur (dirs i j)) = k

/-- The calls `setup_cube`, `setup_polar_lin` or `setup_polar_log`, `get_weights`, `remap`. -/
noncomputable def mcRemap (C : CubeArgs) (G : Shells) (n : ℕ) (draws : ℕ → ℕ → Draw)
    (f : Arr3 (Option ℝ)) (w : Option (Arr3 ℝ)) : Meth State (Arr2 (Option ℝ)) := do
  setupCube C
  G.setup
  getWeights n draws
  remap f w

end Magpie.McCube
