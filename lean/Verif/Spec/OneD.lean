import Verif.Model.OneD
import Verif.Spec.Remap
import Mathlib.Analysis.Real.Sqrt
import Mathlib.Algebra.BigOperators.Group.Finset.Basic

/-!
# Specification of rebinning
-/

namespace Magpie.Spec
open Finset

section
variable {K : Type} [Field K] [LinearOrder K]

/-- Bins of positive length: the edges increase strictly. -/
def Increasing (edges : List K) : Prop :=
  ∀ i j (hi : i < edges.length) (hj : j < edges.length), i < j → edges[i] < edges[j]

/-- Equal bins of length `δ > 0`. -/
def UniformEdges (edges : List K) : Prop :=
  ∃ a δ : K, 0 < δ ∧ ∀ k (hk : k < edges.length), edges[k] = a + k*δ

/-- The length of the part of bin `k` inside `[lo, hi]`. -/
def binOverlap (edges : List K) (lo hi : K) (k : ℕ) : K :=
  overlap (edges.getD k 0) (edges.getD (k+1) 0) lo hi

/-- The average of the data weighted by overlap length. -/
def overlapMean (edges data : List K) (lo hi : K) : K :=
  (∑ k ∈ range data.length, binOverlap edges lo hi k * data.getD k 0)
    / ∑ k ∈ range data.length, binOverlap edges lo hi k

/-- `sum(weights*data)/sum(weights)` in floating point (`none` for NaN). -/
def weightedMean (ws : List (Option K)) (data : List K) : Option K :=
  OneD.odiv (OneD.npSum (List.zipWith OneD.omul ws data)) (OneD.npSum ws)

end

/-- `a*x + b*y` for floats (`none` for NaN). -/
def linComb {K : Type} [Field K] (a b : K) : Option K → Option K → Option K
  | some x, some y => some (a*x + b*y)
  | _, _ => none

/-- The error of a weighted mean `∑ ω d / ∑ ω` in which bin `k` of length `len k` is used over the
length `ov k`. -/
noncomputable def meanSigma (n : ℕ) (len ov ω s : ℕ → ℝ) : ℝ :=
  Real.sqrt (∑ k ∈ range n, if ov k = 0 then 0 else len k / ov k * (ω k * s k)^2)
    / ∑ k ∈ range n, ω k

end Magpie.Spec
