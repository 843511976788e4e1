import Mathlib.Algebra.BigOperators.Group.Finset.Basic
import Mathlib.Data.Real.Basic

/-!
# Weighted means of values that may be missing
-/

namespace Magpie.Spec
open Finset

open Classical in
/-- The mean of the values `o 0, .., o (n-1)` with weights `e`. It is missing if one of the values is missing, or if the
weights add up to zero. -/
noncomputable def meanOrMissing (n : ℕ) (e : ℕ → ℝ) (o : ℕ → Option ℝ) : Option ℝ :=
  if (∃ i, i < n ∧ o i = none) ∨ ∑ i ∈ range n, e i = 0 then none
  else some ((∑ i ∈ range n, e i*(o i).getD 0)/∑ i ∈ range n, e i)

end Magpie.Spec
