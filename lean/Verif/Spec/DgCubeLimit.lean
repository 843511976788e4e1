import Verif.Spec.DgCube2Shell
import Verif.Spec.McCubeLimit
import Mathlib.MeasureTheory.Integral.Bochner.Set

/-!
# What the dense grid remapping of cubes onto shells approximates
-/

namespace Magpie.DgCube
open Magpie.Cube Magpie.Spec MeasureTheory

/-- The arguments with other rebin factors. -/
def ShellArgs.rebin (A : ShellArgs) (n m : ℕ) : ShellArgs := { A with rebinR := n, rebinShell := m }

/-- The HEALPix projection of the direction `d = (theta, phi)` is the point `v` of the plane, up to whole turns. -/
def IsDir (d v : ℝ × ℝ) : Prop :=
  0 < d.1 ∧ d.1 < Real.pi ∧ ∃ t : ℤ, project d.2 (Real.cos d.1) = (v.1 + 2*Real.pi*t, v.2)

/-- The centre of part `(a, b)` of the diamond with centre `c` of a pixel of the map with `nside = N`, if the diamond is
divided into `m × m` diamonds. -/
noncomputable def subCentre (N : ℤ) (m : ℕ) (c : ℝ × ℝ) (a b : ℕ) : ℝ × ℝ :=
  (c.1 + halfDiag N*((a - b)/m), c.2 + halfDiag N*((a + b + 1)/m - 1))

/-- How HEALPix divides a map into one with `m` times its `nside`: the pixels that share pixel `p` are the parts of its
diamond, and they are given by the directions of their centres. -/
def Subdivides (hp : Hp) (N : ℤ) (m : ℕ) : Prop :=
  ∀ p < npixOf N, ∀ c, Healpix.pix2xy p N = .ok c → ∃ q : ℕ → ℕ → ℕ,
    (hp.children (N*m) N p).Perm ((List.range m).flatMap fun (a : ℕ) => (List.range m).map fun (b : ℕ) => q a b) ∧
    ∀ a < m, ∀ b < m, q a b < npixOf (N*m) ∧ IsDir (hp.pix2ang (N*m) (q a b)) (subCentre N m c a b)

/-- The part of space covered by HEALPix pixel `p` of shell `i`. -/
noncomputable def pixel (A : ShellArgs) (i p : ℕ) : Set (ℝ × ℝ × ℝ) :=
  {x | ∃ c, Healpix.pix2xy p A.nside = .ok c ∧
    x ∈ ShellPart (A.center.getD 0 0, A.center.getD 1 0, A.center.getD 2 0)
      (edgeAt A.rmin A.rmax A.numr.toNat i) (edgeAt A.rmin A.rmax A.numr.toNat (i+1)) (SkyPixel A.nside c)}

/-- The volume of the part of pixel `p` of shell `i` that has its image `n` in the cell `a` along `x`, `b` along `y`,
`c` along `z`. -/
noncomputable def commonVol (C : CubeArgs) (A : ShellArgs) (i p : ℕ) (n : ℤ × ℤ × ℤ) (a b c : ℕ) : ℝ :=
  (volume (pixel A i p ∩ {x | InCell3 C (image C n x) a b c})).toReal

/-- The mean over pixel `p` of shell `i` of the grid with values `v` and its periodic images, 0 elsewhere: the values
weighted by the common volumes, over the volume of the pixel. -/
noncomputable def volMean (C : CubeArgs) (A : ShellArgs) (v : ℕ → ℕ → ℕ → ℝ) (i p : ℕ) : ℝ :=
  (∑ nx ∈ Finset.Icc A.perx.1 A.perx.2, ∑ ny ∈ Finset.Icc A.pery.1 A.pery.2, ∑ nz ∈ Finset.Icc A.perz.1 A.perz.2,
    ∑ a ∈ Finset.range C.numx.toNat, ∑ b ∈ Finset.range C.numy.toNat, ∑ c ∈ Finset.range C.numz.toNat,
      v a b c*commonVol C A i p (nx, ny, nz) a b c)/(volume (pixel A i p)).toReal

end Magpie.DgCube
