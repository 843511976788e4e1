import Verif.Spec.OneD

/-!
# Missing values and bins
-/

namespace Magpie.Spec
variable {K : Type} [Field K] [LinearOrder K]

/-- Bin `k` (with its edges) and the interval `[lo, hi]` have a point in common. -/
def Touches (edges : List K) (lo hi : K) (k : ℕ) : Prop := edges.getD k 0 ≤ hi ∧ lo ≤ edges.getD (k+1) 0

/-- The value of a bin that touches `[lo, hi]` is missing. -/
def Gap (edges : List K) (data : List (Option K)) (lo hi : K) : Prop :=
  ∃ k, data[k]? = some none ∧ Touches edges lo hi k

end Magpie.Spec
