import Mathlib.Algebra.BigOperators.Group.Finset.Basic
import Mathlib.Data.Real.Basic

/-!
# Sums of values that may be missing
-/

namespace Magpie.Spec
open Finset

open Classical in
/-- The sum of `a i * o i` over `i < k`; missing if one of the values `o 0, .., o (k-1)` is missing. -/
noncomputable def sumOrMissing (k : ℕ) (a : ℕ → ℝ) (o : ℕ → Option ℝ) : Option ℝ :=
  if ∃ i, i < k ∧ o i = none then none else some (∑ i ∈ range k, a i*(o i).getD 0)

end Magpie.Spec
