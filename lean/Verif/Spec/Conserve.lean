import Mathlib.Algebra.BigOperators.Group.Finset.Basic
import Mathlib.Algebra.Field.Basic

/-!
# Integrals of binned data
-/

namespace Magpie.Spec
open Finset

/-- The sum over the bins of value times length. -/
def integral {K : Type} [Field K] (edges data : List K) : K :=
  ∑ k ∈ range data.length, data.getD k 0*(edges.getD (k+1) 0 - edges.getD k 0)

end Magpie.Spec
