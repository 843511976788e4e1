import Verif.Spec.Float64

/-!
# Ranges that can be divided into cells in floating point
-/

namespace Magpie.Spec

/-- `lo ≤ hi` are finite doubles of at most half the largest size, to be divided into `n` equal cells, at least one
and at most `2^50` of them.  A range of non-zero extent has cells of at least `2^-1022`, the least normal number. -/
structure Divisible (lo hi : ℝ) (n : ℕ) : Prop where
  dlo : IsDouble lo
  dhi : IsDouble hi
  le : lo ≤ hi
  small_lo : |lo| ≤ maxDouble/2
  small_hi : |hi| ≤ maxDouble/2
  pos : 1 ≤ n
  few : n ≤ 2^50
  cell : lo = hi ∨ (2:ℝ)^(-1022 : ℤ) ≤ (hi - lo)/n

/-- Where edge `k` of `n` equal cells between `lo` and `hi` lies. -/
noncomputable def exactEdge (lo hi : ℝ) (n k : ℕ) : ℝ := lo + k*((hi - lo)/n)

/-- The distance from a cell boundary within which rounding may decide for the neighbouring cell: a fraction
`36 num^2 / 2^53` of a cell if the box starts within its own extent of zero. -/
noncomputable def cellMargin (xmin xmax : ℝ) (num : ℕ) : ℝ := 4*num*(|xmin| + 8*(xmax - xmin))/2^53

end Magpie.Spec
