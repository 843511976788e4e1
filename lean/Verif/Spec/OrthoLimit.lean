import Verif.Spec.Heal2Ortho
import Verif.Spec.HealpixSky
import Verif.Model.HealpixIndex
import Mathlib.MeasureTheory.Measure.Lebesgue.Basic

/-!
# What the orthographic remapping approximates
-/

namespace Magpie.Ortho
open Magpie.Spec MeasureTheory

/-- The arguments with other rebin factors. -/
def BoxArgs.rebin (A : BoxArgs) (m : ℕ) : BoxArgs := { A with rebinX := m, rebinY := m }

/-- What is assumed of `healpy.ang2pix`: a direction inside a HEALPix pixel is given to that pixel. Nothing is said of
the directions on the borders of the pixels. -/
def Locates (ang2pix : ℤ → ℝ → ℝ → ℕ) (N : ℤ) : Prop :=
  ∀ (theta phi : ℝ) (p : ℕ) (c : ℝ × ℝ), 0 ≤ theta → theta ≤ Real.pi → p < 12*N.toNat^2 →
    Healpix.pix2xy p N = .ok c → (∃ t : ℤ, (phi + 2*Real.pi*t, Real.cos theta) ∈ SkyPixel N c) →
    ang2pix N theta phi = p

/-- A direction inside HEALPix pixel `p` is seen at the point `x` of the view of radius `R` with centre `c`. -/
def Shows (N : ℤ) (R : ℝ) (c : ℝ × ℝ) (p : ℕ) (x : ℝ × ℝ) : Prop :=
  ∃ d b, SeenAt R c x d ∧ (0 ≤ d.2 ∧ d.2 ≤ Real.pi) ∧ Healpix.pix2xy p N = .ok b ∧ (d.1, Real.cos d.2) ∈ SkyPixel N b

/-- The rectangle of output pixel `(i, j)` (row, column). -/
def rect (A : BoxArgs) (i j : ℕ) : Set (ℝ × ℝ) :=
  {x | InCell (-A.xLength/2) (A.xLength/2) (nx A) j x.1 ∧
    InCell (-A.yLength.getD A.xLength/2) (A.yLength.getD A.xLength/2) (ny A) i x.2}

/-- The part of output pixel `(i, j)` that is on the sphere. -/
def part (A : BoxArgs) (i j : ℕ) : Set (ℝ × ℝ) := {x ∈ rect A i j | OnSphere A.radius x}

/-- The area of the part of output pixel `(i, j)` that shows HEALPix pixel `p`. -/
noncomputable def shownArea (A : BoxArgs) (N : ℤ) (c : ℝ × ℝ) (i j p : ℕ) : ℝ :=
  (volume {x ∈ part A i j | Shows N A.radius c p x}).toReal

/-- The integral over output pixel `(i, j)` of the map with values `g`. -/
noncomputable def viewSum (A : BoxArgs) (N : ℤ) (c : ℝ × ℝ) (g : ℕ → ℝ) (i j : ℕ) : ℝ :=
  ∑ p ∈ Finset.range (12*N.toNat^2), g p*shownArea A N c i j p

end Magpie.Ortho
