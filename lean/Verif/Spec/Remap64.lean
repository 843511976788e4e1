import Verif.Spec.Float64

/-!
# Grids that floating point numbers resolve
-/

namespace Magpie.Spec

/-- `n` equal cells that cover `[lo, lo + size]`, at most `2^24` of them, not so far from zero that neighbouring
edges could not be told apart: the distance of `lo` from zero is at most `2^48` cells.  The size is between `2^-900`
and `2^900`, so that no overflow or underflow occurs. -/
structure Resolved (lo size : ℝ) (n : ℕ) : Prop where
  pos : 0 < n
  le : n ≤ 2^24
  low : (2:ℝ)^(-900 : ℤ) ≤ size
  high : size ≤ (2:ℝ)^(900 : ℤ)
  near : |lo| ≤ 2^48*(size/n)

end Magpie.Spec
