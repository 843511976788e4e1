import Verif.Model.DgCube2Shell
import Verif.Spec.Box2Ring
import Verif.Spec.McCube2Shell

/-!
# Dense grid `Cube2Shell`: the points of the dense grid and the cells that contain them or an image
-/

namespace Magpie.DgCube
open Magpie.Cube Magpie.Spec Magpie.Radial Magpie.McCube

/-- The assertions of `setup_polar` hold and there are at least two shells. -/
structure ShellOk (A : ShellArgs) : Prop where
  rmin : 0 ≤ A.rmin
  r : A.rmin < A.rmax
  numr : 2 ≤ A.numr
  center : A.center.length = 3
  rebinShell : 1 ≤ A.rebinShell
  nside : 0 < A.nside
  rebinR : 1 ≤ A.rebinR

/-- Number of pixels of a HEALPix map. -/
def npixOf (nside : ℤ) : ℕ := 12*nside.toNat^2

/-- Every pixel has subpixels in the fine map. -/
def HpOk (hp : Hp) (A : ShellArgs) : Prop :=
  ∀ p, p < npixOf A.nside → hp.children (A.nside*A.rebinShell) A.nside p ≠ [] ∧
    ∀ q ∈ hp.children (A.nside*A.rebinShell) A.nside p, q < npixOf (A.nside*A.rebinShell)

/-- The subpixels of pixel `p`. -/
def subpix (hp : Hp) (A : ShellArgs) (p : ℕ) : List ℕ := hp.children (A.nside*A.rebinShell) A.nside p

/-- Number of dense shells. -/
def denseNum (A : ShellArgs) : ℕ := A.rebinR.toNat*A.numr.toNat

/-- The point of the dense grid in dense shell `k` at subpixel `q`. -/
noncomputable def densePoint (hp : Hp) (A : ShellArgs) (k q : ℕ) : ℝ × ℝ × ℝ :=
  let r := midAt A.rmin A.rmax (denseNum A) k
  let theta := (hp.pix2ang (A.nside*A.rebinShell) q).1
  let phi := (hp.pix2ang (A.nside*A.rebinShell) q).2
  (A.center.getD 0 0 + r*Real.sin theta*Real.cos phi, A.center.getD 1 0 + r*Real.sin theta*Real.sin phi,
    A.center.getD 2 0 + r*Real.cos theta)

/-- The volume of dense shell `k`. -/
noncomputable def denseVol (A : ShellArgs) (k : ℕ) : ℝ :=
  4/3*Real.pi*(edgeAt A.rmin A.rmax (denseNum A) (k+1)^3 - edgeAt A.rmin A.rmax (denseNum A) k^3)

/-- `n` is one of the periodic images asked for. -/
def InRange (A : ShellArgs) (n : ℤ × ℤ × ℤ) : Prop :=
  (A.perx.1 ≤ n.1 ∧ n.1 ≤ A.perx.2) ∧ (A.pery.1 ≤ n.2.1 ∧ n.2.1 ≤ A.pery.2) ∧
    A.perz.1 ≤ n.2.2 ∧ n.2.2 ≤ A.perz.2

/-- Image `n` of the point: shifted by `n` sides of the cube. -/
noncomputable def image (C : CubeArgs) (n : ℤ × ℤ × ℤ) (pt : ℝ × ℝ × ℝ) : ℝ × ℝ × ℝ :=
  (pt.1 + n.1*(C.xmax - C.xmin), pt.2.1 + n.2.1*(C.ymax - C.ymin), pt.2.2 + n.2.2*(C.zmax - C.zmin))

/-- The point is in the cell `a` along `x`, `b` along `y`, `c` along `z`. -/
def InCell3 (C : CubeArgs) (pt : ℝ × ℝ × ℝ) (a b c : ℕ) : Prop :=
  InCell C.xmin C.xmax C.numx.toNat a pt.1 ∧ InCell C.ymin C.ymax C.numy.toNat b pt.2.1 ∧
    InCell C.zmin C.zmax C.numz.toNat c pt.2.2

/-- `g` is the value at the point of a grid with value `v a b c` in the cell `a` along `x`, `b` along `y`, `c`
along `z`: the value of the cell that contains one of the images of the point, `0` if there is none. -/
def Reads (C : CubeArgs) (A : ShellArgs) (v : ℕ → ℕ → ℕ → ℝ) (pt : ℝ × ℝ × ℝ) (g : ℝ) : Prop :=
  (∀ n a b c, InRange A n → InCell3 C (image C n pt) a b c → g = v a b c) ∧
  ((¬ ∃ n a b c, InRange A n ∧ InCell3 C (image C n pt) a b c) → g = 0)

/-- The array holds the values `v` with the axes in the order `x`, `y`, `z` (not the order of `x3d`); none of them
stands for a missing value of healpy. -/
structure Holds (C : CubeArgs) (f : Arr3 (Option ℝ)) (v : ℕ → ℕ → ℕ → ℝ) : Prop where
  n0 : f.n0 = C.numx.toNat
  n1 : f.n1 = C.numy.toNat
  n2 : f.n2 = C.numz.toNat
  val : ∀ a b c, a < C.numx.toNat → b < C.numy.toNat → c < C.numz.toNat →
    f.val a b c = some (v a b c) ∧ ¬ isBad (v a b c)

/-- Mean of the values at the subpixels. -/
noncomputable def meanAt (l : List ℕ) (g : ℕ → ℝ) : ℝ := (l.map g).sum/l.length

/-- The mean over the dense points of pixel `p` of shell `i`: over the subpixels, and weighted with the
volume over the dense shells. -/
noncomputable def pixelMean (hp : Hp) (A : ShellArgs) (g : ℕ → ℕ → ℝ) (i p : ℕ) : ℝ :=
  (∑ k ∈ Finset.range A.rebinR.toNat, denseVol A (i*A.rebinR.toNat + k)*
      meanAt (subpix hp A p) (g (i*A.rebinR.toNat + k))) /
    ∑ k ∈ Finset.range A.rebinR.toNat, denseVol A (i*A.rebinR.toNat + k)

/-- The calls `setup_cube`, `setup_polar`, `remap`. -/
noncomputable def dgRemap (hp : Hp) (C : CubeArgs) (A : ShellArgs) (f : Arr3 (Option ℝ)) :
    Meth State (Arr2 (Option ℝ)) := do
  setupCube C
  setupPolar A
  remap hp f

end Magpie.DgCube
