import Verif.Spec.DgCube2Shell
import Verif.Spec.DgRemap64
import Verif.Spec.Randoms64
import Verif.Model.DgCube64

/-!
# Dense grid `Cube2Shell` in floating point: accuracy of the library functions, and where the cube is read
-/

namespace Magpie.DgCube64
open Magpie.Spec Magpie.Cube Magpie.DgCube Magpie.Dg64
open Magpie.McCube (CubeOk)

/-- Cosine, sine and powers are accurate. -/
structure LibOk (L : Lib) : Prop where
  trig : TrigNear L.toTrig
  pow : PowClose L.pow

/-- Every order adds each entry once: `n` subpixels, `m` dense shells. -/
structure Sums.For (O : Sums) (n m : ℕ) : Prop where
  sub : O.sub.leaves.Perm (List.range n)
  data : O.data.leaves.Perm (List.range m)
  weights : O.weights.leaves.Perm (List.range m)

/-- How far from image `n` of the point meant the cube may be read along one axis: `2^-44` of the sizes involved and twice the
margin at the cell boundaries. -/
noncomputable def reach (rmax centre lo hi : ℝ) (num : ℕ) (n : ℤ) : ℝ :=
  (rmax + |centre| + |(n:ℝ)| * (hi - lo))/2^44 + 2*cellMargin lo hi num

/-- `pt'` is within `reach` of image `n` of the point `pt`. -/
def Near (C : CubeArgs) (A : ShellArgs) (n : ℤ × ℤ × ℤ) (pt pt' : ℝ × ℝ × ℝ) : Prop :=
  |pt'.1 - (image C n pt).1| ≤ reach A.rmax (A.center.getD 0 0) C.xmin C.xmax C.numx.toNat n.1 ∧
  |pt'.2.1 - (image C n pt).2.1| ≤ reach A.rmax (A.center.getD 1 0) C.ymin C.ymax C.numy.toNat n.2.1 ∧
  |pt'.2.2 - (image C n pt).2.2| ≤ reach A.rmax (A.center.getD 2 0) C.zmin C.zmax C.numz.toNat n.2.2

/-- `g` is the value of a cell near one of the images of the point asked for, or `0` if near each image there is a point
outside the cube. -/
def ReadsNear (C : CubeArgs) (A : ShellArgs) (v : ℕ → ℕ → ℕ → ℝ) (pt : ℝ × ℝ × ℝ) (g : ℝ) : Prop :=
  (∃ n pt' a b c, InRange A n ∧ Near C A n pt pt' ∧ InCell3 C pt' a b c ∧ g = v a b c) ∨
  (g = 0 ∧ ∀ n, InRange A n → ∃ pt', Near C A n pt pt' ∧ ¬ ∃ a b c, InCell3 C pt' a b c)

/-- The cube of a shell's outer radius less that of its inner radius. -/
noncomputable def shellSize (A : ShellArgs) (i : ℕ) : ℝ :=
  edgeAt A.rmin A.rmax A.numr.toNat (i+1)^3 - edgeAt A.rmin A.rmax A.numr.toNat i^3

/-- The number of points of the dense grid in a pixel of one shell. -/
def samples (A : ShellArgs) : ℕ := A.rebinR.toNat*A.rebinShell.toNat^2

/-- Arguments that pass the assertions and fit the floating point numbers: all four ranges can be divided, the cells of the
cube are at least twice as wide as the margin at their boundaries, the outermost radius is at least `2^-100`, and no shell is
smaller than the `2^40`-th part of as many balls as there are samples in a pixel. -/
structure Fits (C : CubeArgs) (A : ShellArgs) : Prop where
  cube : CubeOk C
  shell : ShellOk A
  x : Divisible C.xmin C.xmax C.numx.toNat
  xwide : 2*cellMargin C.xmin C.xmax C.numx.toNat ≤ (C.xmax - C.xmin)/C.numx.toNat
  y : Divisible C.ymin C.ymax C.numy.toNat
  ywide : 2*cellMargin C.ymin C.ymax C.numy.toNat ≤ (C.ymax - C.ymin)/C.numy.toNat
  z : Divisible C.zmin C.zmax C.numz.toNat
  zwide : 2*cellMargin C.zmin C.zmax C.numz.toNat ≤ (C.zmax - C.zmin)/C.numz.toNat
  r : Divisible A.rmin A.rmax (A.rebinR.toNat*A.numr.toNat)
  large : (2:ℝ)^(-100 : ℤ) ≤ A.rmax
  shells : ∀ i < A.numr.toNat, samples A*A.rmax^3 ≤ 2^40*shellSize A i

/-- healpy: each pixel has `rebin_shell^2` subpixels, and the angles are floating point numbers between `-2^10` and `2^10`. -/
structure Pixels (hp : Hp) (A : ShellArgs) : Prop where
  num : ∀ p < npixOf A.nside, (subpix hp A p).length = A.rebinShell.toNat^2
  lt : ∀ p < npixOf A.nside, ∀ q ∈ subpix hp A p, q < npixOf (A.nside*A.rebinShell)
  theta : ∀ q < npixOf (A.nside*A.rebinShell),
    IsDouble (hp.pix2ang (A.nside*A.rebinShell) q).1 ∧ |(hp.pix2ang (A.nside*A.rebinShell) q).1| ≤ 2^10
  phi : ∀ q < npixOf (A.nside*A.rebinShell),
    IsDouble (hp.pix2ang (A.nside*A.rebinShell) q).2 ∧ |(hp.pix2ang (A.nside*A.rebinShell) q).2| ≤ 2^10

/-- The array holds doubles of at most `F` with the axes in the order `x`, `y`, `z`. -/
structure Data (C : CubeArgs) (f : Arr3 ℝ) (F : ℝ) : Prop where
  n0 : f.n0 = C.numx.toNat
  n1 : f.n1 = C.numy.toNat
  n2 : f.n2 = C.numz.toNat
  val : ∀ a b c, a < f.n0 → b < f.n1 → c < f.n2 → IsDouble (f.val a b c) ∧ |f.val a b c| ≤ F

/-- No image of the point that is asked for is within `reach` of a boundary between cells. -/
def FarFromEdges (C : CubeArgs) (A : ShellArgs) (pt : ℝ × ℝ × ℝ) : Prop :=
  ∀ n, InRange A n →
    (∀ k ≤ C.numx.toNat, reach A.rmax (A.center.getD 0 0) C.xmin C.xmax C.numx.toNat n.1
      < |(image C n pt).1 - edgeAt C.xmin C.xmax C.numx.toNat k|) ∧
    (∀ k ≤ C.numy.toNat, reach A.rmax (A.center.getD 1 0) C.ymin C.ymax C.numy.toNat n.2.1
      < |(image C n pt).2.1 - edgeAt C.ymin C.ymax C.numy.toNat k|) ∧
    (∀ k ≤ C.numz.toNat, reach A.rmax (A.center.getD 2 0) C.zmin C.zmax C.numz.toNat n.2.2
      < |(image C n pt).2.2 - edgeAt C.zmin C.zmax C.numz.toNat k|)

end Magpie.DgCube64
