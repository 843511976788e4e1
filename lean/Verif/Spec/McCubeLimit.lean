import Verif.Spec.McCube2Shell
import Verif.Spec.HealpixSky
import Verif.Spec.Prob
import Verif.Spec.Volumes
import Mathlib.Probability.Independence.Basic

/-!
# What the Monte Carlo remapping of cubes onto shells estimates
-/

namespace Magpie.Spec
open MeasureTheory

/-- The points with distance between `r0` and `r1` from `c`, in a direction `(phi, cos theta)` of `S`. -/
def ShellPart (c : ℝ × ℝ × ℝ) (r0 r1 : ℝ) (S : Set (ℝ × ℝ)) : Set (ℝ × ℝ × ℝ) :=
  {x | ∃ r, ∃ v ∈ S, (r0 ≤ r ∧ r ≤ r1) ∧
    x = (c.1 + r*(√(1 - v.2^2)*Real.cos v.1), c.2.1 + r*(√(1 - v.2^2)*Real.sin v.1), c.2.2 + r*v.2)}

/-- The uniform law on a set of space. -/
noncomputable def uniformOn3 (S : Set (ℝ × ℝ × ℝ)) : Measure (ℝ × ℝ × ℝ) :=
  (volume S)⁻¹ • volume.restrict S

end Magpie.Spec

namespace Magpie.McCube
open Magpie.Cube Magpie.Spec Magpie.Radial MeasureTheory ProbabilityTheory

/-- The part of space covered by HEALPix pixel `j` of shell `i`. -/
noncomputable def Shells.pixel (G : Shells) (i j : ℕ) : Set (ℝ × ℝ × ℝ) :=
  {x | ∃ c, Healpix.pix2xy j G.args.nside = .ok c ∧
    x ∈ ShellPart (G.args.center.getD 0 0, G.args.center.getD 1 0, G.args.center.getD 2 0)
      (G.rEdge i) (G.rEdge (i+1)) (SkyPixel G.args.nside c)}

/-- The volume that pixel `j` of shell `i` has in common with the voxel `a` along `x`, `b` along `y`, `c`
along `z`. -/
noncomputable def commonVol (C : CubeArgs) (G : Shells) (i j a b c : ℕ) : ℝ :=
  (volume (G.pixel i j ∩ {pt | InVoxel C pt a b c})).toReal

/-- The sum over the voxels of `w b a c` times the volume in common with pixel `j` of shell `i`. -/
noncomputable def volSum (C : CubeArgs) (G : Shells) (w : ℕ → ℕ → ℕ → ℝ) (i j : ℕ) : ℝ :=
  ∑ a ∈ Finset.range C.numx.toNat, ∑ b ∈ Finset.range C.numy.toNat, ∑ c ∈ Finset.range C.numz.toNat,
    w b a c*commonVol C G i j a b c

/-- The number of voxels that have a volume in common with pixel `j` of shell `i`. -/
noncomputable def overlaps (C : CubeArgs) (G : Shells) (i j : ℕ) : ℕ :=
  {q : ℕ × ℕ × ℕ | 0 < commonVol C G i j q.1 q.2.1 q.2.2}.ncard

/-- `n` variates of each kind for each pixel, from a sequence of triples: the first of a triple is for the radius,
the others are for the direction. -/
def drawsOf (u : ℕ → ℕ → ℕ → ℝ × ℝ × ℝ) (n i j : ℕ) : Draw :=
  ⟨(List.range n).map fun (k : ℕ) => (u i j k).2.1, (List.range n).map fun (k : ℕ) => (u i j k).2.2,
    (List.range n).map fun (k : ℕ) => (u i j k).1⟩

/-- The variates of each pixel are independent triples of independent uniform numbers. -/
structure Random {Ω : Type} [MeasurableSpace Ω] (P : Measure Ω) (U : Ω → ℕ → ℕ → ℕ → ℝ × ℝ × ℝ) : Prop where
  meas : ∀ i j k, Measurable fun ω => U ω i j k
  law : ∀ i j k, Measure.map (fun ω => U ω i j k) P = unif3
  indep : ∀ i j, Pairwise fun k l => IndepFun (fun ω => U ω i j k) (fun ω => U ω i j l) P

/-- The weight of a voxel; 1 without weights. -/
def wOf (w : Option (Arr3 ℝ)) (b a c : ℕ) : ℝ := match w with
  | none => 1
  | some w => w.val b a c

/-- The mean over the voxels that pixel `j` of shell `i` overlaps of `v`, weighted by the common volume times the
weight of the voxel. -/
noncomputable def volMean (C : CubeArgs) (G : Shells) (w : Option (Arr3 ℝ)) (v : ℕ → ℕ → ℕ → ℝ) (i j : ℕ) : ℝ :=
  volSum C G (fun b a c => wOf w b a c*v b a c) i j/volSum C G (wOf w) i j

end Magpie.McCube
