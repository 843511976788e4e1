import Verif.Spec.Prob
import Mathlib.Probability.Independence.Basic

/-!
# The stream of random numbers
-/

namespace Magpie.Spec
open MeasureTheory ProbabilityTheory

/-- `U 0, U 1, …` are the numbers that calls of `np.random.random_sample` return, in the order in which they are
drawn: independent and uniform on `[0, 1)`. -/
structure Stream {Ω : Type} [MeasurableSpace Ω] (P : Measure Ω) (U : ℕ → Ω → ℝ) : Prop where
  meas : ∀ k, Measurable (U k)
  law : ∀ k, Measure.map (U k) P = unif
  indep : iIndepFun U P

/-- What `np.random.random_sample(n)` returns when `k` numbers were drawn before. -/
def next {Ω : Type} (U : ℕ → Ω → ℝ) (k n : ℕ) (ω : Ω) : List ℝ :=
  (List.range n).map fun (i : ℕ) => U (k + i) ω

end Magpie.Spec
